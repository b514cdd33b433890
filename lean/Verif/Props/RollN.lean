import Verif.Spec.RollN
import Verif.Proof.RollN
import Verif.Proof.MultiDimTop
import Verif.Props.MultilevelN

/-!
# C84: the decimated n-D transforms of rolled arrays

`Arr.roll axis c x` is `np.roll(x, c, axis)`.
-/

namespace Pywt

open Finset Spec

set_option autoImplicit false
set_option linter.unusedSectionVars false

variable {R M : Type} [CommRing R] [AddCommGroup M] [Module R M]

/-- What rolling means, element by element: the element at position `p` along the axis comes from position `p - c` modulo the
extent. -/
theorem C84_roll_values {ax : ℕ} {x : Arr M} (ha : ax < x.shape.length) (c : ℤ) :
    (Spec.Arr.roll ax c x).shape = x.shape ∧ ∀ idx, InB x.shape idx →
      (Spec.Arr.roll ax c x).get idx =
        x.get (Function.update idx ax (((idx ax : ℤ) - c) % (x.shape.getD ax 0 : ℕ)).toNat) := by
  refine ⟨shape_roll ax c x, fun idx h => ?_⟩
  have hi : idx ax < x.shape.getD ax 0 := h ax ha
  unfold Spec.Arr.roll
  rw [Arr.along_get ha (by rw [← shape_roll ax c x] at h; exact h)]
  unfold shift
  rw [Arr.line_length, List.getD_eq_getElem (hn := by simpa using hi)]
  simp only [List.getElem_map, List.getElem_range]
  have h0 : 0 ≤ ((idx ax : ℤ) - c) % (x.shape.getD ax 0 : ℕ) := Int.emod_nonneg _ (by omega)
  have h1 : ((idx ax : ℤ) - c) % (x.shape.getD ax 0 : ℕ) < (x.shape.getD ax 0 : ℕ) := Int.emod_lt_of_pos _ (by omega)
  unfold at'
  rw [List.getD_eq_getElem (hn := by rw [Arr.line_length]; omega), Arr.line_getElem]

/-- **C84 (one level).** `dwtn` of an array rolled by `2c` along a transformed axis of even extent with `mode='periodization'`:
every subband is rolled by `c`.  The modes of the other axes are free. -/
theorem C84_dwtn_roll {x : Arr M} {wavelet : PerAxis (Wavelet R)} {mode : PerAxis Mode} {axes : Option (List ℤ)}
    {st : List (Stage R)} (hr : Resolves x.ndim wavelet mode axes st) (hst : StagesOk st x.shape)
    (hb : ∀ s ∈ st, s.1 < x.shape.length ∧ s.2.1.Ok) (hn : (st.map (·.1)).Nodup) {ax : ℕ} (hm : ax ∈ st.map (·.1))
    (hp : ∀ s ∈ st, s.1 = ax → s.2.2 = .periodization) (h1 : 1 ≤ x.shape.getD ax 0) (h2 : x.shape.getD ax 0 % 2 = 0)
    (c : ℤ) {cs : List (Key × Arr M)} (h : dwtn x wavelet mode axes = .ok cs) :
    dwtn (Spec.Arr.roll ax (2 * c) x) wavelet mode axes = .ok (cs.map fun p => (p.1, Spec.Arr.roll ax c p.2)) := by
  have hd : 1 ≤ x.ndim := by
    obtain ⟨s, hs, -⟩ := List.mem_map.mp hm
    have := (hb s hs).1
    unfold Arr.ndim
    omega
  rw [dwtn_ok hd hr hst, Except.ok.injEq] at h
  have hx : (Spec.Arr.roll ax (2 * c) x).ndim = x.ndim := by unfold Arr.ndim; rw [shape_roll]
  rw [dwtn_ok (by rw [hx]; exact hd) (by rw [hx]; exact hr) (by rw [shape_roll]; exact hst), ← h, List.map_map]
  congr 1
  refine List.map_congr_left fun k hk => ?_
  simp only [Function.comp_apply, Prod.mk.injEq, true_and]
  exact subband_roll_in c hn (mem_words.mp hk).1 hm hp hb h1 h2

/-- **C84 (transformed axis).** `wavedecn` of an array rolled by `2^l·c` along a transformed axis with `mode='periodization'`
whose extent is a multiple of `2^l`: the approximation and the coarsest details are rolled by `c`, the details of each finer
level by twice as much as those before.  The modes and extents of the other axes are free. -/
theorem C84_wavedecn_roll {x : Arr M} {wavelet : PerAxis (Wavelet R)} {mode : PerAxis Mode} {axes : Option (List ℤ)}
    {st : List (Stage R)} (hr : Resolves x.ndim wavelet mode axes st) (hb : ∀ s ∈ st, s.1 < x.ndim ∧ s.2.1.Ok)
    (hn : (st.map (·.1)).Nodup) {ax : ℕ} (hm : ax ∈ st.map (·.1)) (hp : ∀ s ∈ st, s.1 = ax → s.2.2 = .periodization)
    (h1 : 1 ≤ x.shape.getD ax 0) {l : ℕ} (hl : 2 ^ l ∣ x.shape.getD ax 0) (c : ℤ) {cs : List (Item M)}
    (h : wavedecn x wavelet mode (some (l : ℤ)) axes = .ok cs) :
    wavedecn (Spec.Arr.roll ax (2 ^ l * c) x) wavelet mode (some (l : ℤ)) axes = .ok (rollLevels ax c cs) := by
  have hne : st ≠ [] := by rintro rfl; simp at hm
  have hx : (Spec.Arr.roll ax (2 ^ l * c) x).ndim = x.ndim := by unfold Arr.ndim; rw [shape_roll]
  rw [C20_wavedecn_explicit_level hne (by rw [hx]; exact hr) (by rw [hx]; exact hb) hn, shape_roll]
  rw [C20_wavedecn_explicit_level hne hr hb hn] at h
  rw [if_neg (by omega)] at h ⊢
  split at h
  · rename_i hlv
    rw [Except.ok.injEq, Int.toNat_natCast] at h
    rw [if_pos hlv, Int.toNat_natCast, cascadeN_roll_in c hn hm hp hb h1 hl, h]
  · simp at h

/-- **C84 (images).** `wavedec2` in the same way. -/
theorem C84_wavedec2_roll {x : Arr M} {wavelet : PerAxis (Wavelet R)} {mode : PerAxis Mode} {axes : List ℤ} {s t : Stage R}
    (hr : Resolves x.ndim wavelet mode (some axes) [s, t]) (hb : ∀ u ∈ [s, t], u.1 < x.ndim ∧ u.2.1.Ok) (hst : s.1 ≠ t.1)
    {ax : ℕ} (hm : ax = s.1 ∨ ax = t.1) (hp : ∀ u ∈ [s, t], u.1 = ax → u.2.2 = .periodization)
    (h1 : 1 ≤ x.shape.getD ax 0) {l : ℕ} (hl : 2 ^ l ∣ x.shape.getD ax 0) (c : ℤ) {cs : List (Item M)}
    (h : wavedec2 x wavelet mode (some (l : ℤ)) axes = .ok cs) :
    wavedec2 (Spec.Arr.roll ax (2 ^ l * c) x) wavelet mode (some (l : ℤ)) axes = .ok (rollLevels ax c cs) := by
  have hn : (([s, t] : List (Stage R)).map (·.1)).Nodup := by simpa using hst
  have hm' : ax ∈ ([s, t] : List (Stage R)).map (·.1) := by simpa using hm
  have hx : (Spec.Arr.roll ax (2 ^ l * c) x).ndim = x.ndim := by unfold Arr.ndim; rw [shape_roll]
  rw [C20_wavedec2_explicit_level (by rw [hx]; exact hr) (by rw [hx]; exact hb) hst, shape_roll]
  rw [C20_wavedec2_explicit_level hr hb hst] at h
  rw [if_neg (by omega)] at h ⊢
  split at h
  · rename_i hlv
    rw [Except.ok.injEq, Int.toNat_natCast] at h
    rw [if_pos hlv, Int.toNat_natCast, cascade2_roll_in c hn hm' hp hb h1 hl, h]
  · simp at h

/-- **C84 (other axes).** Rolling along an axis that is not transformed, by any amount and for all modes and levels, rolls every
coefficient array by the same amount. -/
theorem C84_wavedecn_roll_other_axis {x : Arr M} {wavelet : PerAxis (Wavelet R)} {mode : PerAxis Mode}
    {axes : Option (List ℤ)} {st : List (Stage R)} (hne : st ≠ []) (hr : Resolves x.ndim wavelet mode axes st)
    (hb : ∀ s ∈ st, s.1 < x.ndim ∧ s.2.1.Ok) (hn : (st.map (·.1)).Nodup) {ax : ℕ} (ha : ax < x.ndim)
    (ho : ax ∉ st.map (·.1)) (level : Option ℤ) (c : ℤ) :
    wavedecn (Spec.Arr.roll ax c x) wavelet mode level axes =
      (wavedecn x wavelet mode level axes).map fun cs => cs.map (mapItem (Spec.Arr.roll ax c)) := by
  have hd : 1 ≤ x.ndim := by omega
  have hx : (Spec.Arr.roll ax c x).ndim = x.ndim := by unfold Arr.ndim; rw [shape_roll]
  obtain ⟨L, hL, h⟩ := wavedecn_eq hd hne hr hb hn
  obtain ⟨L', hL', h'⟩ := wavedecn_eq (x := Spec.Arr.roll ax c x) (by rw [hx]; exact hd) hne (by rw [hx]; exact hr)
    (by rw [hx]; exact hb) hn
  have e : L' = L := by
    refine le_antisymm ((hL L').mpr ?_) ((hL' L).mpr ?_)
    · have := (hL' L').mp le_rfl
      rwa [shape_roll] at this
    · rw [shape_roll]
      exact (hL L).mp le_rfl
  rw [h, h', e, shape_roll]
  split
  · rfl
  · split
    · rw [cascadeN_roll_out c hn ho hb ha]
      rfl
    · rfl

/-- The hypotheses are met by arrays of shape 3×8×4: two levels of the 5/3 bank along the second axis with periodization and of
Haar along the first with symmetric extension; rolls along the second axis and, for the last theorem, along the third. -/
example (x : Arr ℚ) (hx : x.shape = [3, 8, 4]) (c : ℤ) : ∃ (st : List (Stage ℚ)) (cs : List (Item ℚ)),
    Resolves x.ndim (.many [legallQ, haarQ]) (.many [.periodization, .symmetric]) (some [-2, 0]) st ∧ st ≠ [] ∧
    (∀ s ∈ st, s.1 < x.ndim ∧ s.2.1.Ok) ∧ (st.map (·.1)).Nodup ∧ 1 ∈ st.map (·.1) ∧ StagesOk st x.shape ∧
    (∀ s ∈ st, s.1 = 1 → s.2.2 = .periodization) ∧ 1 ≤ x.shape.getD 1 0 ∧ 2 ^ 2 ∣ x.shape.getD 1 0 ∧
    2 ∉ st.map (·.1) ∧ 2 < x.ndim ∧
    wavedecn x (.many [legallQ, haarQ]) (.many [.periodization, .symmetric]) (some ((2 : ℕ) : ℤ)) (some [-2, 0]) = .ok cs ∧
    wavedecn (Spec.Arr.roll 1 (2 ^ 2 * c) x) (.many [legallQ, haarQ]) (.many [.periodization, .symmetric]) (some ((2 : ℕ) : ℤ))
      (some [-2, 0]) = .ok (rollLevels 1 c cs) := by
  have hr : Resolves x.ndim (.many [legallQ, haarQ]) (.many [.periodization, .symmetric]) (some [-2, 0])
      [(1, legallQ, .periodization), (0, haarQ, .symmetric)] := by
    unfold Arr.ndim
    rw [hx]
    exact ⟨rfl, rfl, rfl⟩
  have hb : ∀ s ∈ ([(1, legallQ, .periodization), (0, haarQ, .symmetric)] : List (Stage ℚ)), s.1 < x.ndim ∧ s.2.1.Ok := by
    intro s hs
    unfold Arr.ndim
    rw [hx]
    simp only [List.mem_cons, List.not_mem_nil, or_false] at hs
    rcases hs with rfl | rfl
    · exact ⟨by simp, legallQ_ok⟩
    · exact ⟨by simp, haarQ_ok⟩
  have hp : ∀ s ∈ ([(1, legallQ, .periodization), (0, haarQ, .symmetric)] : List (Stage ℚ)), s.1 = 1 →
      s.2.2 = .periodization := by
    intro s hs h1
    simp only [List.mem_cons, List.not_mem_nil, or_false] at hs
    rcases hs with rfl | rfl
    · rfl
    · simp at h1
  have hw : wavedecn x (.many [legallQ, haarQ]) (.many [.periodization, .symmetric]) (some ((2 : ℕ) : ℤ)) (some [-2, 0]) =
      .ok (x.cascadeN [(1, legallQ, .periodization), (0, haarQ, .symmetric)] 2) := by
    rw [C20_wavedecn_explicit_level (by simp) hr hb (by decide), if_neg (by decide), if_pos]
    · rfl
    · rw [hx]
      decide +kernel
  refine ⟨_, _, hr, by simp, hb, by decide, by decide, by rw [hx]; decide +kernel, hp, by rw [hx]; decide, by rw [hx]; decide,
    by decide, by unfold Arr.ndim; rw [hx]; decide, hw, ?_⟩
  exact C84_wavedecn_roll hr hb (by decide) (by decide) hp (by rw [hx]; decide) (by rw [hx]; decide) c hw

end Pywt
