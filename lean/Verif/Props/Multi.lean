import Verif.Proof.Multi
import Verif.Proof.Hang
import Verif.Proof.Examples

/-!
# Properties C08–C13: multilevel 1-D transforms, `downcoef`, `upcoef`, maximal levels

Specification: `Verif.Spec.Multi`.  `approx mode lo n x` is the low-pass analysis step applied `n`
times, `detail mode lo hi n x` the high-pass step applied to `approx mode lo n x`,
`cascade … n x = [approx n, detail (n-1), …, detail 0]`, `LevelsOk` says that the array transformed
at each of the `n` levels is acceptable to the mode.
-/

namespace Pywt

open Finset Spec

variable {R M : Type} [Ring R] [AddCommGroup M] [Module R M]

/-- **C08.** `waverec` inverts `wavedec` whenever the latter returns: the result starts with `x`;
it is exactly `x` if `x` has even length or no level was computed, and otherwise has one extra
sample. -/
theorem C08_waverec_wavedec {w : Wavelet R} (hw : w.Ok)
    (hpr : PR w.dec_lo w.dec_hi w.rec_lo w.rec_hi) {mode : Mode} {level : Option Int} {x : List M}
    {cs : List (List M)} (h : wavedec w mode level x = .ok cs) :
    ∃ r, waverec w mode (cs.map some) = .ok (some r) ∧ r.take x.length = x ∧
      (r = x ∨ 2 ≤ cs.length ∧ x.length % 2 = 1 ∧ r.length = x.length + 1) := by
  have hF : 2 ≤ w.dec_len := hw.1
  have key : ∀ n, wavedecLoop w mode n x [] = .ok cs →
      ∃ r, waverec w mode (cs.map some) = .ok (some r) ∧ r.take x.length = x ∧
      (r = x ∨ 2 ≤ cs.length ∧ x.length % 2 = 1 ∧ r.length = x.length + 1) := by
    intro n hn
    by_cases hlv : LevelsOk mode w.dec_len x.length n
    · rw [wavedecLoop_ok hw n x [] hlv] at hn
      simp only [Except.ok.injEq, List.reverse_nil, List.append_nil] at hn
      subst hn
      obtain ⟨r, hr, hor⟩ := waverecLoop_cascade hw hpr n (approx mode w.dec_lo n x) hlv (.inl rfl)
      refine ⟨r, ?_, ?_, ?_⟩
      · cases n with
        | zero => simpa [cascade, waverec, waverecLoop, approx] using hr
        | succ n =>
          rw [← hr]
          simp only [cascade, List.map_cons]
          generalize hds : List.map some
            ((List.range (n + 1)).map fun j => detail mode w.dec_lo w.dec_hi j x).reverse = ds
          cases ds with
          | nil => simp at hds
          | cons d ds => rfl
      · rcases hor with rfl | ⟨-, -, e, rfl⟩ <;> simp
      · rcases hor with rfl | ⟨h0, h1, e, rfl⟩
        · exact .inl rfl
        · cases n with
          | zero => exact absurd rfl (h0 rfl)
          | succ n => exact .inr ⟨by simp [cascade], h1 (by omega), by simp⟩
    · rw [wavedecLoop_err hw n x [] hlv] at hn
      simp at hn
  unfold wavedec at h
  rw [checkLevel_one hF] at h
  cases level with
  | none => exact key _ h
  | some l =>
    simp only at h
    split at h
    · simp at h
    · exact key _ h

example : legallQ.Ok ∧ PR legallQ.dec_lo legallQ.dec_hi legallQ.rec_lo legallQ.rec_hi ∧
    (wavedec legallQ .symmetric (some 3) [(3 : ℚ), 1, 4, 1, 5, 9, 2]).isOk :=
  ⟨legallQ_ok, legallQ_PR, by decide +kernel⟩

/-- **C08 (coefficients missing).** A level whose detail array is `None` is reconstructed as if it
were zeros of the length of the approximation. -/
theorem C08_waverec_none (w : Wavelet R) (mode : Mode) (a : List M) (ds : List (Option (List M))) :
    waverec w mode (some a :: none :: ds) =
      waverec w mode (some a :: some (List.replicate a.length 0) :: ds) := by
  simp [waverec, waverecLoop, waverecTrim, idwt, zeros]

/-- **C09.** `wavedec` with an explicit level `l`: negative levels are rejected, levels that would
transform an unacceptable array are rejected, and otherwise the result is Mallat's cascade
`[cA_l, cD_l, …, cD_1]`. -/
theorem C09_wavedec_explicit_level {w : Wavelet R} (hw : w.Ok) (mode : Mode) (l : Int)
    (x : List M) :
    wavedec w mode (some l) x =
      if l < 0 then .error .value
      else if LevelsOk mode w.dec_len x.length l.toNat then
        .ok (cascade mode w.dec_lo w.dec_hi l.toNat x)
      else .error .value := by
  have hF : 2 ≤ w.dec_len := hw.1
  unfold wavedec
  rw [checkLevel_one hF]
  simp only
  split
  · rfl
  · simp only [Py_bind_ok]
    split
    · rename_i h
      rw [wavedecLoop_ok hw _ _ _ h]
      simp
    · rename_i h
      rw [wavedecLoop_err hw _ _ _ h]

example : legallQ.Ok ∧ LevelsOk .reflect legallQ.dec_len 5 4 ∧ ¬ LevelsOk .reflect haarQ.dec_len 5 4 :=
  by decide

/-- **C09.** `level=None` means `dwt_max_level` of the data length. -/
theorem C09_wavedec_default_level {w : Wavelet R} (hw : w.Ok) (mode : Mode) (x : List M) :
    ∃ L, dwtMaxLevel x.length w.dec_len = .ok L ∧
      wavedec w mode none x = wavedec w mode (some (L : Int)) x := by
  have hF : 2 ≤ w.dec_len := hw.1
  refine ⟨dwtMaxLevelC x.length w.dec_len, ?_, ?_⟩
  · unfold dwtMaxLevel; rw [if_neg (by omega)]
  · unfold wavedec
    rw [checkLevel_one hF, checkLevel_one hF]
    simp only
    rw [if_neg (by omega)]
    simp

example : legallQ.Ok := legallQ_ok

/-- **C09.** Shape of the result: `level + 1` arrays, the first of the length obtained by iterating
`dwt_coeff_len`, and the detail array of level `j+1` (at position `level - j`) of the length of the
approximation of that level. -/
theorem C09_wavedec_lengths {w : Wavelet R} (hw : w.Ok) {mode : Mode} {l : ℕ} {x : List M}
    {cs : List (List M)} (h : wavedec w mode (some (l : Int)) x = .ok cs) :
    cs.length = l + 1 ∧
    (∀ h0 : 0 < cs.length, cs[0].length = (fun N => coeffLen mode N w.dec_len)^[l] x.length) ∧
    ∀ j < l, ∀ hj : l - j < cs.length,
      cs[l - j].length = (fun N => coeffLen mode N w.dec_len)^[j + 1] x.length := by
  rw [C09_wavedec_explicit_level hw] at h
  rw [if_neg (by omega)] at h
  split at h
  · simp only [Except.ok.injEq, Int.toNat_natCast] at h
    subst h
    have h3 : w.dec_hi.length = w.dec_lo.length := hw.2.2.1
    refine ⟨by simp [cascade], ?_, ?_⟩
    · intro h0
      simp only [cascade, List.getElem_cons_zero]
      exact approx_length _ _ _ _
    · intro j hj hj2
      obtain ⟨i, hi⟩ : ∃ i, l - j = i + 1 := ⟨l - j - 1, by omega⟩
      simp only [cascade, hi, List.getElem_cons_succ, List.getElem_reverse, List.getElem_map,
        List.getElem_range, List.length_map, List.length_range]
      rw [show l - 1 - i = j by omega, detail_length _ _ _ h3, approx_length]
      rfl
  · simp at h

example : legallQ.Ok ∧ (wavedec legallQ .zero (some ((2 : ℕ) : Int)) [(3 : ℚ), 1, 4]).isOk := by
  decide +kernel

/-- **C10.** Whenever `wavedec` accepts a level `n ≥ 1`, `downcoef('a', …, level=n)` is its first
entry (`cA_n`) and `downcoef('d', …, level=n)` its second (`cD_n`). -/
theorem C10_downcoef_eq_wavedec {w : Wavelet R} (hw : w.Ok) {mode : Mode} {n : ℕ} (hn : 1 ≤ n)
    {x : List M} {cs : List (List M)} (h : wavedec w mode (some (n : Int)) x = .ok cs) :
    ∃ cA cD rest, cs = cA :: cD :: rest ∧ downcoef "a" w mode n x = .ok cA ∧
      downcoef "d" w mode n x = .ok cD := by
  rw [C09_wavedec_explicit_level hw] at h
  rw [if_neg (by omega)] at h
  split at h
  · rename_i hlv
    simp only [Except.ok.injEq, Int.toNat_natCast] at h hlv
    subst h
    obtain ⟨m, rfl⟩ : ∃ m, n = m + 1 := ⟨n - 1, by omega⟩
    refine ⟨approx mode w.dec_lo (m + 1) x, detail mode w.dec_lo w.dec_hi m x,
      ((List.range m).map fun j => detail mode w.dec_lo w.dec_hi j x).reverse, ?_, ?_, ?_⟩
    · simp only [cascade, List.range_succ, List.map_append, List.reverse_append, List.map_cons,
        List.map_nil, List.reverse_cons, List.reverse_nil, List.nil_append, List.cons_append]
    · have := downcoefLoop_ok hw true m x hlv
      simp only [if_true] at this
      unfold downcoef
      rw [if_neg (by decide), if_neg (by omega)]
      simpa using this
    · have := downcoefLoop_ok hw false m x hlv
      simp only [Bool.false_eq_true, if_false] at this
      unfold downcoef
      rw [if_neg (by decide), if_neg (by omega)]
      simpa using this
  · simp at h

example : legallQ.Ok ∧ (wavedec legallQ .zero (some ((2 : ℕ) : Int)) [(3 : ℚ), 1, 4]).isOk := by
  decide +kernel

/-- **C11.** One-level `upcoef`: `2L+F-2` samples, sample `n` being `Σ_k c[k]·f[n-2k]` with the
low-pass (`'a'`) or high-pass (`'d'`) synthesis filter. -/
theorem C11_upcoef_one_level {w : Wavelet R} (hw : w.Ok) {c : List M} (hc : c ≠ []) {part : String}
    {f : List R} (hp : part = "a" ∧ f = w.rec_lo ∨ part = "d" ∧ f = w.rec_hi) :
    ∃ r, upcoef part w 1 0 c = .ok r ∧ r.length = 2 * c.length + w.rec_len - 2 ∧
      ∀ n (h : n < r.length), r[n] = ∑ k ∈ range c.length, tap f (n - 2 * k) • c.getD k 0 := by
  have hc1 := List.length_pos_iff.mpr hc
  have hlen : f.length = w.rec_len := by
    obtain ⟨-, -, -, h4, h5⟩ := hw
    unfold Wavelet.rec_len
    rcases hp with ⟨-, rfl⟩ | ⟨-, rfl⟩ <;> omega
  refine ⟨upConvFull f c, ?_, by rw [upConvFull_length, hlen], ?_⟩
  · rcases hp with ⟨rfl, rfl⟩ | ⟨rfl, rfl⟩ <;> unfold upcoef <;>
      rw [if_neg (by decide), if_neg (by decide)] <;>
      simp [upcoefLoop_ok hw _ 1 0 c hc1, takeCentral]
  · intro n h
    simp only [upConvFull, List.getElem_map, List.getElem_range, conv_upsample_eq_sum]

example : legallQ.Ok ∧ [(1 : ℚ), 2] ≠ [] := by decide

/-- **C11.** Several levels of `upcoef`: the first level uses the filter of the requested part, all
further levels are approximation reconstructions. -/
theorem C11_upcoef_levels {w : Wavelet R} (hw : w.Ok) {c r : List M} (hc : c ≠ []) {part : String}
    (n take : ℕ) (hn : 1 ≤ n) (h : upcoef part w 1 0 c = .ok r) :
    upcoef part w (n + 1) take c = upcoef "a" w n take r := by
  have hc1 := List.length_pos_iff.mpr hc
  have h1 : 2 ≤ w.dec_lo.length := hw.1
  have h6 : w.rec_lo.length = w.rec_hi.length := by have := hw.2.2.2; omega
  have h4 : w.rec_lo.length = w.dec_lo.length := hw.2.2.2.1
  have hpart : partOk part = true := by
    by_contra hp
    unfold upcoef at h
    rw [if_pos hp] at h
    simp at h
  unfold upcoef at h ⊢
  rw [if_neg (by simp [hpart])] at h
  rw [if_neg (by simp [hpart])]
  rw [if_neg (by decide)] at h
  rw [if_neg (by omega), if_neg (by decide), if_neg (by omega)]
  rw [show (1 : Int).toNat = 1 from rfl, upcoefLoop_ok hw _ 1 0 c hc1] at h
  simp only [Function.iterate_zero, id_eq, Py_bind_ok, Py_pure, takeCentral, Except.ok.injEq] at h
  rw [if_neg (by omega)] at h
  obtain ⟨m, rfl⟩ : ∃ m, n = m + 1 := ⟨n - 1, by omega⟩
  rw [show (((m + 1 : ℕ) : Int) + 1).toNat = m + 1 + 1 by omega, Int.toNat_natCast,
    upcoefLoop_ok hw _ (m + 1 + 1) 0 c hc1, ← h, upcoefLoop_ok hw _ (m + 1) 0]
  · rfl
  · rw [upConvFull_length]
    split <;> omega

example : legallQ.Ok ∧ [(1 : ℚ), 2] ≠ [] ∧ (upcoef "d" legallQ 1 0 [(1 : ℚ), 2]).isOk := by
  decide +kernel

/-- **C11.** The `take` argument keeps exactly `take` samples from the middle (`take = 0`, and
anything larger than the full reconstruction, keep everything). -/
theorem C11_upcoef_take {w : Wavelet R} {part : String} {level : Int} {take : ℕ} {c r : List M}
    (h : upcoef part w level 0 c = .ok r) :
    upcoef part w level take c =
      .ok (if 0 < take ∧ take ≤ r.length then (r.drop ((r.length - take) / 2)).take take else r) := by
  unfold upcoef at h ⊢
  split at h
  · simp at h
  rename_i h1
  rw [if_neg h1]
  split at h
  · simp at h
  rename_i h2
  rw [if_neg h2]
  simp only at h ⊢
  cases hr : upcoefLoop w (decide (part = "a")) level.toNat 0 c with
  | error e => rw [hr] at h; simp at h
  | ok r' =>
    rw [hr] at h
    simp only [Py_bind_ok, Py_pure, Except.ok.injEq] at h ⊢
    have : takeCentral 0 r' = r' := by simp [takeCentral]
    rw [this] at h
    subst h
    split
    · rename_i h3
      exact takeCentral_eq h3.1 h3.2
    · rename_i h3
      unfold takeCentral
      rw [if_neg (by omega)]

example : (upcoef "d" legallQ 2 0 [(1 : ℚ), 2]).isOk := by decide +kernel

/-- **C11.** Outside periodization, for coefficient arrays of the length `dwt` produces from `N`
samples, `upcoef('a', cA, take=N) + upcoef('d', cD, take=N)` are the first `N` samples of
`idwt(cA, cD)`. -/
theorem C11_upcoef_sum_is_idwt {w : Wavelet R} (hw : w.Ok) {mode : Mode}
    (hm : mode ≠ .periodization) {N : ℕ} (hN : 1 ≤ N) {a d : List M}
    (ha : a.length = (N + w.dec_len - 1) / 2) (hd : d.length = a.length) :
    ∃ ra rd r, upcoef "a" w 1 N a = .ok ra ∧ upcoef "d" w 1 N d = .ok rd ∧
      idwt w mode (some a) (some d) = .ok r ∧ List.zipWith (· + ·) ra rd = r.take N := by
  obtain ⟨h1, h2, h3, h4, h5⟩ := hw
  have hw : w.Ok := ⟨h1, h2, h3, h4, h5⟩
  have hda : w.dec_len = w.dec_lo.length := rfl
  have hra : w.rec_len = w.rec_lo.length := rfl
  have ha1 : 1 ≤ a.length := by omega
  have hA : upcoef "a" w 1 0 a = .ok (upConvFull w.rec_lo a) := by
    unfold upcoef
    rw [if_neg (by decide), if_neg (by decide)]
    simp [upcoefLoop_ok hw _ 1 0 a ha1, takeCentral]
  have hD : upcoef "d" w 1 0 d = .ok (upConvFull w.rec_hi d) := by
    unfold upcoef
    rw [if_neg (by decide), if_neg (by decide)]
    simp [upcoefLoop_ok hw _ 1 0 d (by omega), takeCentral]
  refine ⟨_, _, _, C11_upcoef_take hA, C11_upcoef_take hD,
    idwt_ok hw hd.symm (by simp only [synthLen, hm, if_false]; omega), ?_⟩
  rw [upConvFull_length, upConvFull_length, if_pos ⟨by omega, by omega⟩,
    if_pos ⟨by omega, by omega⟩]
  have hs : synthesis mode w.rec_lo w.rec_hi a d =
      (List.range (2 * a.length + 2 - w.rec_lo.length)).map fun n : ℕ =>
      conv w.rec_lo (upsample (ext .zero a)) ((n : ℤ) + (w.rec_lo.length - 2)) +
      conv w.rec_hi (upsample (ext .zero d)) ((n : ℤ) + (w.rec_lo.length - 2)) := by
    cases mode <;> first | rfl | exact absurd rfl hm
  rw [hs]
  apply List.ext_getElem
  · simp only [List.length_zipWith, List.length_take, List.length_drop, upConvFull_length,
      List.length_map, List.length_range]
    omega
  · intro n hn1 hn2
    simp only [List.getElem_zipWith, List.getElem_take, List.getElem_drop, upConvFull,
      List.getElem_map, List.getElem_range]
    have e1 : (2 * a.length + w.rec_lo.length - 2 - N) / 2 = w.rec_lo.length - 2 := by omega
    have e2 : (2 * d.length + w.rec_hi.length - 2 - N) / 2 = w.rec_lo.length - 2 := by omega
    rw [e1, e2]
    congr 2 <;> omega

example : legallQ.Ok ∧ Mode.smooth ≠ .periodization ∧ 1 ≤ 3 ∧
    [(1 : ℚ), 2, 3, 4].length = (3 + legallQ.dec_len - 1) / 2 := by decide

/-- **C12.** `dwt_max_level(n, F)` is the largest `L` with `(F-1)·2^L ≤ n` (and `0` if there is
none); filter lengths below 2 are rejected. -/
theorem C12_dwt_max_level (n F : ℕ) :
    if F < 2 then dwtMaxLevel n F = .error .value
    else ∃ L, dwtMaxLevel n F = .ok L ∧
      ∀ l, l ≤ L ↔ l = 0 ∨ (F - 1) * 2 ^ l ≤ n := by
  split
  · rename_i h; unfold dwtMaxLevel; rw [if_pos h]
  · rename_i h
    refine ⟨dwtMaxLevelC n F, ?_, fun l => dwtMaxLevelC_le (by omega)⟩
    unfold dwtMaxLevel; rw [if_neg h]

/-- **C12.** Every level up to `dwt_max_level` transforms an array of at least `2(F-1)` samples, so
the filter fits inside the signal and some coefficients are not affected by the edges. -/
theorem C12_levels_not_dominated_by_edges {n F L : ℕ} {mode : Mode} (hF : 2 ≤ F)
    (h : dwtMaxLevel n F = .ok L) (j : ℕ) (hj : j < L) :
    2 * (F - 1) ≤ approxLen mode F n j := by
  have hL : L = dwtMaxLevelC n F := by
    unfold dwtMaxLevel at h; rw [if_neg (by omega)] at h
    simpa using h.symm
  subst hL
  have h1 : (F - 1) * 2 ^ (j + 1) ≤ n := by
    have := (dwtMaxLevelC_le (n := n) (F := F) (L := j + 1) hF).mp (by omega)
    omega
  clear hj h
  induction j generalizing n with
  | zero => simp [approxLen]; rw [pow_one] at h1; omega
  | succ j ih =>
    rw [approxLen_succ']
    apply ih
    have : (F - 1) * 2 ^ (j + 1 + 1) = 2 * ((F - 1) * 2 ^ (j + 1)) := by ring
    unfold coeffLen
    split <;> omega

example : 2 ≤ 8 ∧ dwtMaxLevel 1000 8 = .ok 7 ∧ 3 < 7 := by
  refine ⟨by decide, ?_, by decide⟩
  simp [dwtMaxLevel, dwtMaxLevelC, sizeLog2]

/-- **C12.** Consequently `wavedec` with the default level accepts every signal, in every mode. -/
theorem C12_default_level_accepted {w : Wavelet R} (hw : w.Ok) (mode : Mode) (x : List M) :
    ∃ cs, wavedec w mode none x = .ok cs := by
  have hF : 2 ≤ w.dec_len := hw.1
  obtain ⟨L, hL, h⟩ := C09_wavedec_default_level hw mode x
  rw [h, C09_wavedec_explicit_level hw, if_neg (by omega), Int.toNat_natCast, if_pos]
  · exact ⟨_, rfl⟩
  · intro j hj
    have := C12_levels_not_dominated_by_edges (mode := mode) hF hL j hj
    exact ⟨by omega, fun _ => by omega⟩

example : haarQ.Ok := haarQ_ok

/-- **C13.** `swt_max_level(n)` is the largest `L` such that `2^L` divides `n`; the empty signal is
rejected. -/
theorem C13_swt_max_level (n : ℕ) :
    if n < 1 then swtMaxLevel n = .error .value
    else ∃ L, swtMaxLevel n = .ok L ∧ ∀ l, l ≤ L ↔ 2 ^ l ∣ n := by
  split
  · rename_i h; unfold swtMaxLevel; rw [if_pos h]
  · rename_i h
    obtain ⟨L, hL, hs⟩ := swtMaxLevelC_spec n (by omega) 0
    refine ⟨L, ?_, hs⟩
    unfold swtMaxLevel; rw [if_neg h, hL]; simp

end Pywt
