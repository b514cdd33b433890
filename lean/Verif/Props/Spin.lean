import Verif.Proof.Spin
import Verif.Props.SwtN

/-!
# C64: the stationary transform holds the decimated transforms of all shifts, and `iswt` averages them
-/

namespace Pywt

open Finset Spec

set_option autoImplicit false

section

variable {R M : Type} [CommRing R] [AddCommGroup M] [Module R M]

/-- **C64.** Take every `2^j`-th coefficient of level `j` of `swt`, starting with coefficient `r`. The result is,
for every integer `r`, exactly what `wavedec` in periodization mode returns for the signal rolled by `-r`. -/
theorem C64_swt_holds_shifted_dwts {w : Wavelet R} (hw : w.Ok) {l : ℕ} {x : List M} {cs : List (List M)}
    (h : swt w (some l) 0 true none x = .ok (.trimmed cs)) (r : ℤ) :
    wavedec w .periodization (some (l : ℤ)) (shift (-r) x) = .ok (decimateAll r cs) := by
  have he := swt_eq hw l 0 true none x
  rw [Nat.cast_zero] at he
  rw [he] at h
  split_ifs at h with hc
  · obtain ⟨_, hx, hd⟩ := hc
    rw [zero_add] at hd
    simp only [swtResult, Wavelet.normed, if_true, Except.ok.injEq, SwtCoeffs.trimmed.injEq] at h
    rw [C09_wavedec_explicit_level hw, if_neg (by omega), Int.toNat_natCast, shift_length,
      if_pos (levelsOk_per_div hx hd), cascade_shift hx r hd, h]

example : swt legallQ (some 2) 0 true none [(1 : ℚ), 4, 2, 0, 3, 3, 1, 7] =
    .ok (.trimmed [[23/8, 23/8, 9/4, 3/8, 19/8, 19/8, 3, 39/8], [7/8, 9/4, -1/4, 1/4, 1/8, -9/4, -3/4, -1/4],
      [-5/2, 0, 5/2, -3/2, -1, 4, -6, 9/2]]) := by decide +kernel

example : wavedec legallQ .periodization (some 2) (shift (-3) [(1 : ℚ), 4, 2, 0, 3, 3, 1, 7]) =
    .ok [[3/8, 39/8], [1/4, -1/4], [-3/2, 4, 9/2, 0]] := by decide +kernel

/-- **C64.** The same for the untrimmed output, which lists pairs of an approximation and a detail array from the
coarsest level on: the details and the first approximation give the `l`-level transform of the rolled signal, and
the approximation followed by `i` other pairs gives the approximation of its transform to level `i + 1`. -/
theorem C64_swt_pairs_hold_shifted_dwts {w : Wavelet R} (hw : w.Ok) {l : ℕ} {x : List M}
    {ps : List (List M × List M)} (h : swt w (some l) 0 false none x = .ok (.pairs ps)) (r : ℤ) :
    ps.length = l ∧ ∀ i < l, wavedec w .periodization (some ((l - i : ℕ) : ℤ)) (shift (-r) x) =
      .ok (decimateAll r ((ps.getD i ([], [])).1 :: (ps.drop i).map (·.2))) := by
  have he := swt_eq hw l 0 false none x
  rw [Nat.cast_zero] at he
  rw [he] at h
  split_ifs at h with hc
  · obtain ⟨_, hx, hd⟩ := hc
    rw [zero_add] at hd
    simp only [swtResult, Wavelet.normed, Bool.false_eq_true, if_false, Except.ok.injEq, SwtCoeffs.pairs.injEq] at h
    subst h
    refine ⟨by simp, fun i hi => ?_⟩
    have hdi : 2 ^ (l - i) ∣ x.length := dvd_trans (pow_dvd_pow 2 (by omega)) hd
    rw [C09_wavedec_explicit_level hw, if_neg (by omega), Int.toNat_natCast, shift_length,
      if_pos (levelsOk_per_div hx hdi), cascade_shift hx r hdi]
    congr 3
    · rw [List.getD_eq_getElem _ _ (by simpa using hi), List.getElem_reverse]
      simp
      congr 1
      omega
    · rw [List.drop_reverse, List.map_reverse, List.length_map, List.length_range, ← List.map_take,
        List.take_range, List.map_map]
      simp only [Function.comp_def]
      congr 3
      omega

example : swt haarQ (some 2) 0 false none [(1 : ℚ), 4, 2, 0] =
    .ok (.pairs [([7/4, 7/4, 7/4, 7/4], [3/4, 5/4, -3/4, -5/4]), ([5/2, 3, 1, 1/2], [-3/2, 1, 1, -1/2])]) := by
  decide +kernel

/-- **C64.** `iswt` of any stationary coefficients, edited or not, is the average over the offsets
`0, …, 2^l - 1` of what `waverec` makes of the coefficients decimated with that offset, rolled back. -/
theorem C64_iswt_averages_shifts [Invertible (2 : R)] {w : Wavelet R} (hw : w.Ok) {a : List M} {ds : List (List M)}
    (ha : a ≠ []) (hl : ∀ d ∈ ds, d.length = a.length) (hd : 2 ^ ds.length ∣ a.length) :
    ∃ (y : List M) (Y : ℕ → List M), iswt w none (.trimmed (a :: ds)) = .ok y ∧ y.length = a.length ∧
      (∀ r : ℕ, waverec w .periodization ((decimateAll r (a :: ds)).map some) = .ok (some (Y r)) ∧
        (Y r).length = a.length) ∧
      ∀ n < a.length, (2 ^ ds.length : R) • y.getD n 0 =
        ∑ r ∈ range (2 ^ ds.length), (shift r (Y r)).getD n 0 :=
  iswt_average hw ha hl hd

example : iswt haarQ none (.trimmed [[(7 : ℚ), 3, 1, 0], [1, 2, 0, 5], [0, 0, 4, 0]]) = .ok [15/4, 9/4, 15/4, 5/4] ∧
    ((List.range 4).map fun r : ℕ =>
      waverec haarQ .periodization ((decimateAll r [[(7 : ℚ), 3, 1, 0], [1, 2, 0, 5], [0, 0, 4, 0]]).map some)) =
      [.ok (some [8, 8, 10, 2]), .ok (some [5, 5, 1, 1]), .ok (some [5, -3, 1, 1]), .ok (some [5, 5, -5, -5])] := by
  decide +kernel

/-- **C64.** Translation-invariant processing is cycle spinning. Editing every stationary coefficient with a
function that may depend on the level, then inverting, gives the average over `2^l` shifts of: roll the signal by
`-r`, transform with `wavedec`, edit the coefficients with the same functions, transform back, roll by `r`. -/
theorem C64_cycle_spinning [Invertible (2 : R)] {w : Wavelet R} (hw : w.Ok) {l : ℕ} {x : List M} {cs : List (List M)}
    (h : swt w (some l) 0 true none x = .ok (.trimmed cs)) (g : ℕ → M → M) :
    ∃ (y : List M) (Y : ℕ → List M), iswt w none (.trimmed (editAll g cs)) = .ok y ∧ y.length = x.length ∧
      (∀ r : ℕ, ∃ c, wavedec w .periodization (some (l : ℤ)) (shift (-(r : ℤ)) x) = .ok c ∧
        waverec w .periodization ((editAll g c).map some) = .ok (some (Y r)) ∧ (Y r).length = x.length) ∧
      ∀ n < x.length, (2 ^ l : R) • y.getD n 0 = ∑ r ∈ range (2 ^ l), (shift r (Y r)).getD n 0 := by
  have hdec := C64_swt_holds_shifted_dwts hw h
  have he := swt_eq hw l 0 true none x
  rw [Nat.cast_zero] at he
  rw [he] at h
  split_ifs at h with hc
  · obtain ⟨_, hx, hd⟩ := hc
    rw [zero_add] at hd
    simp only [swtResult, Wavelet.normed, if_true, Except.ok.injEq, SwtCoeffs.trimmed.injEq] at h
    have hlen : ∀ c ∈ cs, c.length = x.length := by
      rw [← h]
      intro c hc
      simp only [List.mem_cons, List.mem_reverse, List.mem_map] at hc
      rcases hc with rfl | ⟨j, _, rfl⟩
      · simp
      · simp [swtDetail]
    obtain ⟨a, ds, rfl⟩ : ∃ a ds, cs = a :: ds := ⟨_, _, h.symm⟩
    have hdl : ds.length = l := by
      have := congrArg List.length h
      simp at this
      omega
    have hed : editAll g (a :: ds) = a.map (g 0) :: editAll (fun i => g (i + 1)) ds := by
      simp [editAll, List.mapIdx_cons]
    have hel : (editAll (fun i => g (i + 1)) ds).length = l := by simp [editAll, hdl]
    have hax := hlen a (by simp)
    obtain ⟨y, Y, h1, h2, h3, h4⟩ := iswt_average (w := w) hw (a := a.map (g 0))
      (ds := editAll (fun i => g (i + 1)) ds) (by
        intro h0
        have := congrArg List.length h0
        simp at this
        rw [this] at hax
        simp at hax
        omega)
      (by
        intro d hd
        obtain ⟨i, hi, rfl⟩ := List.mem_iff_getElem.1 hd
        simp only [editAll, List.getElem_mapIdx, List.length_map, hax]
        exact hlen _ (by simp)) (by rw [hel, List.length_map, hax]; exact hd)
    rw [← hed] at h1 h3
    rw [List.length_map, hax] at h2 h3 h4
    rw [hel] at h4
    refine ⟨y, Y, h1, h2, fun r => ⟨_, hdec r, ?_, (h3 r).2⟩, h4⟩
    rw [← decimateAll_edit _ _ _ fun d hd => by rw [hlen d hd]; exact hx]
    exact (h3 r).1

/-- Hard thresholding of the details at 1, the approximation kept, as an edit of the coefficients of `haar`. -/
example : ∃ cs, swt haarQ (some 2) 0 true none [(1 : ℚ), 4, 2, 0] = .ok (.trimmed cs) ∧
    iswt haarQ none (.trimmed (editAll (fun i c => if i = 0 ∨ 1 ≤ |c| then c else 0) cs)) =
      .ok [3/8, 29/8, 19/8, 5/8] := by
  refine ⟨[[7/4, 7/4, 7/4, 7/4], [3/4, 5/4, -3/4, -5/4], [-3/2, 1, 1, -1/2]], ?_, ?_⟩ <;> decide +kernel

end

end Pywt
