import Verif.Proof.SwtTranspose

/-!
# C88: the stationary n-D transforms of transposed arrays
-/

namespace Pywt

open Finset Spec

set_option autoImplicit false
set_option linter.unusedSectionVars false

variable {R M : Type} [CommRing R] [AddCommGroup M] [Module R M]

/-- **C88.** `swtn` of a transposed array along the same axes, which have other numbers now, with the same wavelets: every
coefficient array is transposed. -/
theorem C88_swtn_transpose {x : Arr M} {π : Equiv.Perm ℕ} (hπ : ∀ j, π j < x.ndim ↔ j < x.ndim)
    {wavelet : PerAxis (Wavelet R)} {axes axes' : Option (List ℤ)} {norm : Option R} {st : List (SStage R)} (hnd : 1 ≤ x.ndim)
    (hr : SwtResolves x.ndim wavelet axes norm st) (hr' : SwtResolves x.ndim wavelet axes' norm (st.map (tSStage π)))
    {l m : ℕ} (hf : SwtnFits st (m + l) x.shape) (trim : Bool) {r : SwtN M}
    (h : swtn x wavelet (l : ℤ) (m : ℤ) axes trim norm = .ok r) :
    swtn (Spec.Arr.transpose π x) wavelet (l : ℤ) (m : ℤ) axes' trim norm = .ok (mapSwtN (Spec.Arr.transpose π) r) := by
  have hx : (Spec.Arr.transpose π x).ndim = x.ndim := tShape_length π x.shape
  have hb : ∀ s ∈ st, s.1 < x.shape.length := fun s hs => (hf.2 s hs).1
  rw [swtn_ok hr hnd hf, Except.ok.injEq] at h
  rw [swtn_ok (by rw [hx]; exact hr') (by rw [hx]; exact hnd) (swtnFits_transpose hπ hf), ← h, Except.ok.injEq]
  have hd : ((List.range l).map (swtnDict (st.map (tSStage π)) m trim (Spec.Arr.transpose π x))).reverse =
      ((List.range l).map (swtnDict st m trim x)).reverse.map fun d => d.map fun p => (p.1, Spec.Arr.transpose π p.2) := by
    rw [List.map_reverse, List.map_map]
    congr 1
    refine List.map_congr_left fun j _ => ?_
    simp only [Function.comp_apply, swtnDict, List.map_map, List.length_map]
    refine List.map_congr_left fun k _ => ?_
    simp only [Function.comp_apply, Prod.mk.injEq, true_and]
    exact swtnBand_transpose m hπ hb j k
  cases trim with
  | true =>
    simp only [if_true, mapSwtN]
    rw [hd, (swtnApprox_transpose m hπ hb l).2]
  | false =>
    simp only [Bool.false_eq_true, if_false, mapSwtN]
    rw [hd]

/-- **C88.** `iswtn` of coefficients with any values, all transposed, along the same axes: the result is transposed. -/
theorem C88_iswtn_transpose [Invertible (2 : R)] {A : Arr M} {ds : List (List (Key × Arr M))} {π : Equiv.Perm ℕ}
    (hπ : ∀ j, π j < A.ndim ↔ j < A.ndim) {wavelet : PerAxis (Wavelet R)} {axes axes' : Option (List ℤ)} {norm : Option R}
    {st : List (SStage R)} (hr : SwtResolves A.ndim wavelet axes norm st)
    (hr' : SwtResolves A.ndim wavelet axes' norm (st.map (tSStage π))) (hf : SwtnFits st ds.length A.shape) (hne : ds ≠ [])
    (hd : ∀ d ∈ ds, DictOk d st.length A.shape ∧ d ≠ []) {y : Arr M} (h : iswtn (.trimmed A ds) wavelet axes norm = .ok y) :
    iswtn (mapSwtN (Spec.Arr.transpose π) (.trimmed A ds)) wavelet axes' norm = .ok (Spec.Arr.transpose π y) := by
  have hx : (Spec.Arr.transpose π A).ndim = A.ndim := tShape_length π A.shape
  unfold iswtn at h ⊢
  rw [C46_iswtn_values hr hf hne hd, Except.ok.injEq] at h
  have hd' : ∀ d ∈ ds.map (fun d => d.map fun p => (p.1, Spec.Arr.transpose π p.2)),
      DictOk d (st.map (tSStage π)).length (Spec.Arr.transpose π A).shape ∧ d ≠ [] := by
    intro d he
    obtain ⟨e, he', rfl⟩ := List.mem_map.mp he
    obtain ⟨⟨h1, h2⟩, h3⟩ := hd e he'
    refine ⟨⟨?_, ?_⟩, by simpa using h3⟩
    · rw [List.map_map]
      exact h1
    · intro p hp
      obtain ⟨q, hq, rfl⟩ := List.mem_map.mp hp
      rw [List.length_map]
      exact ⟨(h2 q hq).1, by simp only [shape_transpose, (h2 q hq).2]⟩
  rw [mapSwtN, C46_iswtn_values (by rw [hx]; exact hr')
    (by rw [shape_transpose, List.length_map]; exact swtnFits_transpose hπ hf) (by simpa using hne) hd',
    iswtnCascade_transpose (fun d he => (hd d he).1) hπ (fun s hs => (hf.2 s hs).1), h]

/-- The hypotheses are met by a transposed 2×4 array, with the Haar bank along the columns and the 5/3 bank along the rows, and by
its edited coefficients with a missing key. -/
example : ∃ st, (∀ j, Equiv.swap 0 1 j < arr24.ndim ↔ j < arr24.ndim) ∧
    SwtResolves arr24.ndim (.many [haarQ, legallQ]) (some [0, -1]) none st ∧
    SwtResolves arr24.ndim (.many [haarQ, legallQ]) (some [1, 0]) none (st.map (tSStage (Equiv.swap 0 1))) ∧
    SwtnFits st (0 + 1) arr24.shape ∧ DictOk [(['d', 'a'], arr24)] st.length arr24.shape ∧
    (∃ A ds, swtn (Spec.Arr.transpose (Equiv.swap 0 1) arr24) (.many [haarQ, legallQ]) ((1 : ℕ) : ℤ) ((0 : ℕ) : ℤ)
      (some [1, 0]) true none = .ok (mapSwtN (Spec.Arr.transpose (Equiv.swap 0 1)) (.trimmed A ds))) ∧
    ∃ y, iswtn (mapSwtN (Spec.Arr.transpose (Equiv.swap 0 1)) (.trimmed arr24 [[(['d', 'a'], arr24)]]))
      (.many [haarQ, legallQ]) (some [1, 0]) none = .ok (Spec.Arr.transpose (Equiv.swap 0 1) y) := by
  have hπ : ∀ j, Equiv.swap 0 1 j < arr24.ndim ↔ j < arr24.ndim := swap_axes_lt (by decide) (by decide)
  have hr : SwtResolves arr24.ndim (.many [haarQ, legallQ]) (some [0, -1]) none [(0, haarQ), (1, legallQ)] :=
    ⟨by decide, [haarQ, legallQ], rfl, rfl⟩
  have hr' : SwtResolves arr24.ndim (.many [haarQ, legallQ]) (some [1, 0]) none
      (([(0, haarQ), (1, legallQ)] : List (SStage ℚ)).map (tSStage (Equiv.swap 0 1))) :=
    ⟨by decide, [haarQ, legallQ], rfl, rfl⟩
  have hf : SwtnFits [(0, haarQ), (1, legallQ)] (0 + 1) arr24.shape := by
    refine ⟨by decide, fun s hs => ?_⟩
    simp only [List.mem_cons, List.not_mem_nil, or_false] at hs
    rcases hs with rfl | rfl
    · exact ⟨by decide, haarQ_ok, by decide, by decide⟩
    · exact ⟨by decide, legallQ_ok, by decide, by decide⟩
  have hd : DictOk [(['d', 'a'], arr24)] 2 arr24.shape := by
    unfold DictOk
    simp only [List.map_cons, List.map_nil, List.nodup_singleton, true_and, List.mem_singleton, forall_eq, and_true]
    decide
  have hok := swtn_ok hr (by decide) hf true
  rw [if_pos rfl] at hok
  have hok2 : iswtn (.trimmed arr24 [[(['d', 'a'], arr24)]]) (.many [haarQ, legallQ]) (some [0, -1]) none =
      .ok (iswtnCascade [(0, haarQ), (1, legallQ)] [[(['d', 'a'], arr24)]] arr24) := by
    unfold iswtn
    rw [C46_iswtn_values (ds := [[(['d', 'a'], arr24)]]) hr hf (by simp) (by simpa using hd)]
  exact ⟨_, hπ, hr, hr', hf, hd, ⟨_, _, C88_swtn_transpose hπ (by decide) hr hr' hf true hok⟩, _,
    C88_iswtn_transpose (ds := [[(['d', 'a'], arr24)]]) hπ hr hr' hf (by simp) (by simpa using hd) hok2⟩

end Pywt
