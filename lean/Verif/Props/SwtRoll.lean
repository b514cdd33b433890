import Verif.Proof.SwtRoll

/-!
# C87: the stationary n-D transforms of rolled arrays
-/

namespace Pywt

open Finset Spec

set_option autoImplicit false
set_option linter.unusedSectionVars false

variable {R M : Type} [CommRing R] [AddCommGroup M] [Module R M]

/-- **C87.** `swtn` of an array rolled by any number of samples along any axis, transformed or not: every coefficient array is
rolled by the same number of samples. -/
theorem C87_swtn_roll {wavelet : PerAxis (Wavelet R)} {axes : Option (List ℤ)} {norm : Option R} {st : List (SStage R)}
    {x : Arr M} (hr : SwtResolves x.ndim wavelet axes norm st) {l m : ℕ} (hf : SwtnFits st (m + l) x.shape) {ax : ℕ}
    (ha : ax < x.ndim) (c : ℤ) (trim : Bool) {r : SwtN M} (h : swtn x wavelet (l : ℤ) (m : ℤ) axes trim norm = .ok r) :
    swtn (Spec.Arr.roll ax c x) wavelet (l : ℤ) (m : ℤ) axes trim norm = .ok (mapSwtN (Spec.Arr.roll ax c) r) := by
  have hx : (Spec.Arr.roll ax c x).ndim = x.ndim := by unfold Arr.ndim; rw [shape_roll]
  have hb : ∀ s ∈ st, s.1 < x.shape.length := fun s hs => (hf.2 s hs).1
  rw [swtn_ok hr (by omega) hf, Except.ok.injEq] at h
  rw [swtn_ok (by rw [hx]; exact hr) (by omega) (by rw [shape_roll]; exact hf), ← h, Except.ok.injEq]
  have hd : ((List.range l).map (swtnDict st m trim (Spec.Arr.roll ax c x))).reverse =
      ((List.range l).map (swtnDict st m trim x)).reverse.map fun d => d.map fun p => (p.1, Spec.Arr.roll ax c p.2) := by
    rw [List.map_reverse, List.map_map]
    congr 1
    refine List.map_congr_left fun j _ => ?_
    simp only [Function.comp_apply, swtnDict, List.map_map]
    refine List.map_congr_left fun k _ => ?_
    simp only [Function.comp_apply, Prod.mk.injEq, true_and]
    exact swtnBand_roll c m hb ha j k
  cases trim with
  | true =>
    simp only [if_true, mapSwtN]
    rw [hd, (swtnApprox_roll c m hb ha l).2]
  | false =>
    simp only [Bool.false_eq_true, if_false, mapSwtN]
    rw [hd]

/-- **C87.** `iswtn` of coefficients with any values, all rolled by the same number of samples along an axis: the result is rolled. -/
theorem C87_iswtn_roll [Invertible (2 : R)] {A : Arr M} {ds : List (List (Key × Arr M))} {wavelet : PerAxis (Wavelet R)}
    {axes : Option (List ℤ)} {norm : Option R} {st : List (SStage R)} (hr : SwtResolves A.ndim wavelet axes norm st)
    (hf : SwtnFits st ds.length A.shape) (hne : ds ≠ []) (hd : ∀ d ∈ ds, DictOk d st.length A.shape ∧ d ≠ []) {ax : ℕ}
    (ha : ax < A.ndim) (c : ℤ) {y : Arr M} (h : iswtn (.trimmed A ds) wavelet axes norm = .ok y) :
    iswtn (mapSwtN (Spec.Arr.roll ax c) (.trimmed A ds)) wavelet axes norm = .ok (Spec.Arr.roll ax c y) := by
  have hx : (Spec.Arr.roll ax c A).ndim = A.ndim := by unfold Arr.ndim; rw [shape_roll]
  unfold iswtn at h ⊢
  rw [C46_iswtn_values hr hf hne hd, Except.ok.injEq] at h
  have hd' : ∀ d ∈ ds.map (fun d => d.map fun p => (p.1, Spec.Arr.roll ax c p.2)),
      DictOk d st.length (Spec.Arr.roll ax c A).shape ∧ d ≠ [] := by
    intro d he
    obtain ⟨e, he', rfl⟩ := List.mem_map.mp he
    obtain ⟨⟨h1, h2⟩, h3⟩ := hd e he'
    refine ⟨⟨?_, ?_⟩, by simpa using h3⟩
    · rw [List.map_map]
      exact h1
    · intro p hp
      obtain ⟨q, hq, rfl⟩ := List.mem_map.mp hp
      simp only [shape_roll]
      exact h2 q hq
  rw [mapSwtN, C46_iswtn_values (by rw [hx]; exact hr) (by rw [shape_roll, List.length_map]; exact hf) (by simpa using hne) hd',
    iswtnCascade_roll c (fun d he => (hd d he).1) (fun s hs => (hf.2 s hs).1) ha, h]

/-- The hypotheses are met by arrays of shape 4×3×8, two levels of the 5/3 bank along the last and the first axis, and rolls along
the second. -/
example (x : Arr ℚ) (hx : x.shape = [4, 3, 8]) (c : ℤ) : ∃ (st : List (SStage ℚ)) (A : Arr ℚ) (ds : List (List (Key × Arr ℚ))),
    SwtResolves x.ndim (.one legallQ) (some [-1, 0]) none st ∧ SwtnFits st (0 + 2) x.shape ∧ 1 < x.ndim ∧
    swtn x (.one legallQ) ((2 : ℕ) : ℤ) ((0 : ℕ) : ℤ) (some [-1, 0]) true none = .ok (.trimmed A ds) ∧
    swtn (Spec.Arr.roll 1 c x) (.one legallQ) ((2 : ℕ) : ℤ) ((0 : ℕ) : ℤ) (some [-1, 0]) true none =
      .ok (mapSwtN (Spec.Arr.roll 1 c) (.trimmed A ds)) := by
  have hr : SwtResolves x.ndim (.one legallQ) (some [-1, 0]) none [(2, legallQ), (0, legallQ)] := by
    unfold Arr.ndim
    rw [hx]
    exact ⟨rfl, [legallQ, legallQ], rfl, rfl⟩
  have hf : SwtnFits [(2, legallQ), (0, legallQ)] (0 + 2) x.shape := by
    rw [hx]
    refine ⟨by simp, fun s hs => ?_⟩
    simp only [List.mem_cons, List.not_mem_nil, or_false] at hs
    rcases hs with rfl | rfl
    · exact ⟨by simp, legallQ_ok, by simp, by norm_num⟩
    · exact ⟨by simp, legallQ_ok, by simp, by norm_num⟩
  have hn : 1 < x.ndim := by unfold Arr.ndim; rw [hx]; simp
  have hok := swtn_ok hr (by omega) hf true
  rw [if_pos rfl] at hok
  exact ⟨_, _, _, hr, hf, hn, hok, C87_swtn_roll hr hf hn c true hok⟩

/-- Edited coefficients of one level with a missing key, rolled by three samples along the last axis. -/
example : ∃ st, SwtResolves arr24.ndim (.one haarQ) none none st ∧ SwtnFits st 1 arr24.shape ∧
    DictOk [(['d', 'a'], arr24)] st.length arr24.shape ∧ 1 < arr24.ndim ∧
    ∃ y, iswtn (.trimmed arr24 [[(['d', 'a'], arr24)]]) (.one haarQ) none none = .ok y ∧
      iswtn (mapSwtN (Spec.Arr.roll 1 3) (.trimmed arr24 [[(['d', 'a'], arr24)]])) (.one haarQ) none none =
        .ok (Spec.Arr.roll 1 3 y) ∧ Spec.Arr.roll 1 3 y ≠ y := by
  have hr : SwtResolves arr24.ndim (.one haarQ) none none [(0, haarQ), (1, haarQ)] := ⟨by decide, [haarQ, haarQ], rfl, rfl⟩
  have hf : SwtnFits [(0, haarQ), (1, haarQ)] 1 arr24.shape := by
    refine ⟨by decide, fun s hs => ?_⟩
    simp only [List.mem_cons, List.not_mem_nil, or_false] at hs
    rcases hs with rfl | rfl
    · exact ⟨by decide, haarQ_ok, by decide, by decide⟩
    · exact ⟨by decide, haarQ_ok, by decide, by decide⟩
  have hd : DictOk [(['d', 'a'], arr24)] 2 arr24.shape := by
    unfold DictOk
    simp only [List.map_cons, List.map_nil, List.nodup_singleton, true_and, List.mem_singleton, forall_eq, and_true]
    decide
  have hok : iswtn (.trimmed arr24 [[(['d', 'a'], arr24)]]) (.one haarQ) none none =
      .ok (iswtnCascade [(0, haarQ), (1, haarQ)] [[(['d', 'a'], arr24)]] arr24) := by
    unfold iswtn
    rw [C46_iswtn_values (ds := [[(['d', 'a'], arr24)]]) hr hf (by simp) (by simpa using hd)]
  exact ⟨_, hr, hf, hd, by decide, _, hok, C87_iswtn_roll (ds := [[(['d', 'a'], arr24)]]) hr hf (by simp) (by simpa using hd) (by decide) 3 hok,
    by decide +kernel⟩

end Pywt
