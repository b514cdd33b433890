import Verif.Proof.RecTranspose

/-!
# C89: the inverse transforms of transposed coefficients
-/

namespace Pywt

open Finset Spec

set_option autoImplicit false
set_option linter.unusedSectionVars false

variable {R M : Type} [CommRing R] [AddCommGroup M] [Module R M]

/-- **C89 (one level).** `idwtn` of a dict with any values, keys missing or `None`, all arrays transposed: the result is
transposed. -/
theorem C89_idwtn_transpose {c : CDict M} {S : List ℕ} {π : Equiv.Perm ℕ} (hπ : ∀ j, π j < S.length ↔ j < S.length)
    {wavelet : PerAxis (Wavelet R)} {mode : PerAxis Mode} {axes axes' : Option (List ℤ)} {st : List (Stage R)}
    (hn : (c.map (·.1)).Nodup) (hk : ∀ k v, (k, some v) ∈ c → k ∈ words st.length ∧ v.shape = S) (hne : ∃ k v, (k, some v) ∈ c)
    (hr : Resolves S.length wavelet mode axes st) (hr' : Resolves S.length wavelet mode axes' (st.map (tStage π)))
    (hst : SynthFits st S) :
    ∃ y, idwtn c wavelet mode axes = .ok (some y) ∧
      idwtn (c.map fun p => (p.1, p.2.map (Spec.Arr.transpose π))) wavelet mode axes' = .ok (some (Spec.Arr.transpose π y)) := by
  have hb : ∀ s ∈ st, s.1 < S.length := fun s hs => (hst.2 s hs).1
  have hl := synthShape_length st S
  have hπ' : ∀ j, π j < (synthShape st S).length ↔ j < (synthShape st S).length := by rw [hl]; exact hπ
  obtain ⟨y, y1, y2, y3⟩ := idwtn_values hn hk hne hr hst
  obtain ⟨z, z1, z2, z3⟩ := idwtn_values (c := c.map fun p => (p.1, p.2.map (Spec.Arr.transpose π))) (wavelet := wavelet)
    (mode := mode) (axes := axes') (st := st.map (tStage π)) (S := tShape π S) (by rw [List.map_map]; exact hn) (by
      intro k v hkv
      obtain ⟨⟨k', v'⟩, hq, e⟩ := List.mem_map.mp hkv
      simp only [Prod.mk.injEq] at e
      obtain ⟨rfl, e⟩ := e
      obtain ⟨u, rfl, rfl⟩ := Option.map_eq_some_iff.mp e
      rw [List.length_map, shape_transpose, (hk _ _ hq).2]
      exact ⟨(hk _ _ hq).1, rfl⟩) (by
      obtain ⟨k, v, hkv⟩ := hne
      exact ⟨k, Spec.Arr.transpose π v, List.mem_map.mpr ⟨_, hkv, rfl⟩⟩)
    (by rw [tShape_length]; exact hr') (synthFits_transpose hπ hst)
  refine ⟨y, y1, ?_⟩
  rw [z1]
  congr 2
  refine Arr.ext_get (by rw [z2, shape_transpose, y2, synthShape_transpose hπ hb]) fun idx hidx => ?_
  have h2 : InB (tShape π (synthShape st S)) idx := by
    rw [z2, synthShape_transpose hπ hb] at hidx
    exact hidx
  rw [z3 idx hidx, transpose_get (x := y) (by rw [y2]; exact hπ') (by rw [y2]; exact h2),
    y3 _ (by rw [y2]; exact (inB_transpose hπ').mp h2), List.length_map]
  congr 1
  refine List.map_congr_left fun k hkw => ?_
  have hget : (CDict.get (c.map fun p => (p.1, p.2.map (Spec.Arr.transpose π))) k).getD (Arr.zero (tShape π S)) =
      Spec.Arr.transpose π ((CDict.get c k).getD (Arr.zero S)) := by
    unfold CDict.get
    rw [lookup_map_val]
    cases c.lookup k with
    | none => exact (transpose_zero hπ).symm
    | some v =>
      cases v with
      | none => exact (transpose_zero hπ).symm
      | some v => rfl
  have hs := CDict.getD_shape hk k
  have hsh := resynth_shape_full st k ((CDict.get c k).getD (Arr.zero S)) (mem_words.mp hkw).1
  rw [hs] at hsh
  rw [hget, resynth_transpose (by rw [hs]; exact hπ) (by rw [hs]; exact hb), transpose_get (by rw [hsh]; exact hπ')
    (by rw [hsh]; exact h2)]

example (D : Arr ℚ) (hD : D.shape = [2, 3]) : ∃ y,
    idwtn [(['a', 'a'], none), (['d', 'a'], some D)] (.many [haarQ, legallQ]) (.one .periodization) (some [0, -1]) = .ok (some y) ∧
    idwtn [(['a', 'a'], none), (['d', 'a'], some (Spec.Arr.transpose (Equiv.swap 0 1) D))] (.many [haarQ, legallQ])
      (.one .periodization) (some [1, 0]) = .ok (some (Spec.Arr.transpose (Equiv.swap 0 1) y)) := by
  refine C89_idwtn_transpose (c := [(['a', 'a'], none), (['d', 'a'], some D)]) (S := [2, 3]) (π := Equiv.swap 0 1)
    (st := [(0, haarQ, .periodization), (1, legallQ, .periodization)]) (swap_axes_lt (by decide) (by decide))
    (show [['a', 'a'], ['d', 'a']].Nodup by decide) ?_
    ⟨['d', 'a'], D, by simp⟩ ⟨rfl, rfl, rfl⟩ ⟨by decide, rfl, rfl⟩ ⟨by decide, fun s hs => ?_⟩
  · intro k v h
    simp only [List.mem_cons, Prod.mk.injEq, reduceCtorEq, and_false, false_or, Option.some.injEq, List.not_mem_nil, or_false] at h
    rw [h.1, h.2]
    exact ⟨show ['d', 'a'] ∈ words 2 by decide, hD⟩
  · simp only [List.mem_cons, List.not_mem_nil, or_false] at hs
    rcases hs with rfl | rfl
    · exact ⟨by decide, haarQ_ok, by decide⟩
    · exact ⟨by decide, legallQ_ok, by decide⟩

/-- **C89.** `waverecn` of coefficients with any values, all transposed, along the same axes, which have other numbers now: the
result is transposed. -/
theorem C89_waverecn_transpose {A : Arr M} {ds : List (List (Key × Arr M))} {π : Equiv.Perm ℕ}
    (hπ : ∀ j, π j < A.ndim ↔ j < A.ndim) {wavelet : PerAxis (Wavelet R)} {mode : PerAxis Mode} {axes axes' : Option (List ℤ)}
    {st : List (Stage R)} (hr : Resolves A.ndim wavelet mode axes st)
    (hr' : Resolves A.ndim wavelet mode axes' (st.map (tStage π))) (hf : RecnFits st ds A.shape)
    (h0 : ∀ d ∈ ds.head?, detailShape d A.shape = A.shape) :
    ∃ y, waverecn (.arr A :: ds.map Item.ofDict) wavelet mode axes = .ok (.arr y) ∧
      waverecn (.arr (Spec.Arr.transpose π A) :: ds.map fun d => Item.ofDict (mapDict (Spec.Arr.transpose π) d)) wavelet mode axes' =
        .ok (.arr (Spec.Arr.transpose π y)) := by
  obtain ⟨h1, h2⟩ := waverecnCascade_transpose hπ hf
  refine ⟨_, waverecn_values hr hf h0, ?_⟩
  have hx : (Spec.Arr.transpose π A).ndim = A.ndim := tShape_length π A.shape
  have := waverecn_values (A := Spec.Arr.transpose π A) (ds := ds.map (mapDict (Spec.Arr.transpose π))) (by rw [hx]; exact hr') h1
    (by
      intro d hd
      rw [List.head?_map] at hd
      obtain ⟨e, he, rfl⟩ := Option.mem_map.mp hd
      rw [shape_transpose, detailShape_transpose, h0 e he])
  rw [List.map_map, h2] at this
  exact this

/-- The hypotheses are met by two levels of edited coefficients of an image, where the approximation of the finer level is cut and
the dict of the coarser level has one key only. -/
example (A D E : Arr ℚ) (hA : A.shape = [2, 3]) (hD : D.shape = [2, 3]) (hE : E.shape = [3, 5]) :
    ∃ st : List (Stage ℚ), (∀ j, Equiv.swap 0 1 j < A.ndim ↔ j < A.ndim) ∧
    Resolves A.ndim (.many [haarQ, haarQ]) (.many [.zero, .symmetric]) (some [0, -1]) st ∧
    Resolves A.ndim (.many [haarQ, haarQ]) (.many [.zero, .symmetric]) (some [1, 0]) (st.map (tStage (Equiv.swap 0 1))) ∧
    RecnFits st [[(['d', 'a'], D)], [(['a', 'd'], E), (['d', 'd'], E)]] A.shape ∧
    ∀ d ∈ [[(['d', 'a'], D)], [(['a', 'd'], E), (['d', 'd'], E)]].head?, detailShape d A.shape = A.shape := by
  have hn : A.ndim = 2 := by unfold Arr.ndim; rw [hA]; rfl
  refine ⟨[(0, haarQ, .zero), (1, haarQ, .symmetric)], ?_, ?_, ?_, ?_, ?_⟩
  · rw [hn]
    exact swap_axes_lt (by decide) (by decide)
  · rw [hn]
    exact ⟨rfl, rfl, rfl⟩
  · rw [hn]
    exact ⟨by decide, rfl, rfl⟩
  · have hsf : ∀ S : List ℕ, S = [2, 3] ∨ S = [3, 5] →
        SynthFits ([(0, haarQ, .zero), (1, haarQ, .symmetric)] : List (Stage ℚ)) S := by
      intro S hS
      refine ⟨by decide, fun s hs => ?_⟩
      simp only [List.mem_cons, List.not_mem_nil, or_false] at hs
      rcases hS with rfl | rfl <;> rcases hs with rfl | rfl <;> exact ⟨by decide, haarQ_ok, by decide⟩
    have e1 : detailShape [(['d', 'a'], D)] A.shape = [2, 3] := hD
    have e2 : ∀ sh, detailShape [(['a', 'd'], E), (['d', 'd'], E)] sh = [3, 5] := fun _ => hE
    have e3 : synthShape ([(0, haarQ, .zero), (1, haarQ, .symmetric)] : List (Stage ℚ)) [2, 3] = [4, 6] := by decide
    refine ⟨?_, ?_, ?_, ?_, ?_, ?_, trivial⟩
    · rw [e1]
      refine ⟨by simp, ?_⟩
      intro p hp
      simp only [List.mem_singleton] at hp
      subst hp
      exact ⟨show ['d', 'a'] ∈ words 2 by decide, hD⟩
    · rw [e1, hA]
      exact ⟨rfl, fun _ _ => Or.inl rfl⟩
    · exact hsf _ (Or.inl e1)
    · rw [e2]
      refine ⟨by simp, ?_⟩
      intro p hp
      simp only [List.mem_cons, List.not_mem_nil, or_false] at hp
      rcases hp with rfl | rfl
      · exact ⟨show ['a', 'd'] ∈ words 2 by decide, hE⟩
      · exact ⟨show ['d', 'd'] ∈ words 2 by decide, hE⟩
    · rw [e1, e2, e3]
      unfold Near
      decide
    · exact hsf _ (Or.inr (e2 _))
  · intro d hd
    simp only [List.head?_cons, Option.mem_def, Option.some.injEq] at hd
    subst hd
    exact hD.trans hA.symm

end Pywt
