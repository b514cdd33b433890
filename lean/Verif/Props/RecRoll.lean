import Verif.Proof.RecRoll

/-!
# C90: the inverse transforms of rolled coefficients
-/

namespace Pywt

open Finset Spec

set_option autoImplicit false
set_option linter.unusedSectionVars false

variable {R M : Type} [CommRing R] [AddCommGroup M] [Module R M]

/-- **C90 (one level).** `idwtn` of a dict with any values, keys missing or `None`, all arrays rolled by `c` along an axis: the
result is rolled by `2c` along a transformed axis, whose mode must be `periodization`, and by `c` along any other axis. -/
theorem C90_idwtn_roll {d : CDict M} {S : List ℕ} {wavelet : PerAxis (Wavelet R)} {mode : PerAxis Mode}
    {axes : Option (List ℤ)} {st : List (Stage R)} (hn : (d.map (·.1)).Nodup)
    (hk : ∀ k v, (k, some v) ∈ d → k ∈ words st.length ∧ v.shape = S) (hne : ∃ k v, (k, some v) ∈ d)
    (hr : Resolves S.length wavelet mode axes st) (hst : SynthFits st S) {ax : ℕ} (ha : ax < S.length)
    (hp : ∀ s ∈ st, s.1 = ax → s.2.2 = .periodization) (c : ℤ) :
    ∃ y, idwtn d wavelet mode axes = .ok (some y) ∧
      idwtn (d.map fun p => (p.1, p.2.map (Spec.Arr.roll ax c))) wavelet mode axes =
        .ok (some (Spec.Arr.roll ax (if ax ∈ st.map (·.1) then 2 * c else c) y)) := by
  have hl := synthShape_length st S
  have hc : (if ax ∈ st.map (·.1) then 2 * c else c) = (if ax ∈ st.map (·.1) then 2 else 1) * c := by
    split
    · rfl
    · rw [one_mul]
  obtain ⟨y, y1, y2, y3⟩ := idwtn_values hn hk hne hr hst
  obtain ⟨z, z1, z2, z3⟩ := idwtn_values (c := d.map fun p => (p.1, p.2.map (Spec.Arr.roll ax c))) (wavelet := wavelet)
    (mode := mode) (axes := axes) (st := st) (S := S) (by rw [List.map_map]; exact hn) (by
      intro k v hkv
      obtain ⟨⟨k', v'⟩, hq, e⟩ := List.mem_map.mp hkv
      simp only [Prod.mk.injEq] at e
      obtain ⟨rfl, e⟩ := e
      obtain ⟨u, rfl, rfl⟩ := Option.map_eq_some_iff.mp e
      rw [shape_roll]
      exact hk _ _ hq) (by
      obtain ⟨k, v, hkv⟩ := hne
      exact ⟨k, Spec.Arr.roll ax c v, List.mem_map.mpr ⟨_, hkv, rfl⟩⟩) hr hst
  refine ⟨y, y1, ?_⟩
  rw [z1, hc]
  congr 2
  refine Arr.ext_get (by rw [z2, shape_roll, y2]) fun idx hidx => ?_
  have h1 : InB (synthShape st S) idx := by rw [← z2]; exact hidx
  rw [z3 idx hidx, (C84_roll_values (x := y) (by rw [y2, hl]; exact ha) _).2 idx (by rw [y2]; exact h1), y2,
    y3 _ (by rw [y2]; exact roll_index_inB h1 _)]
  congr 1
  refine List.map_congr_left fun k hkw => ?_
  have hget : (CDict.get (d.map fun p => (p.1, p.2.map (Spec.Arr.roll ax c))) k).getD (Arr.zero S) =
      Spec.Arr.roll ax c ((CDict.get d k).getD (Arr.zero S)) := by
    unfold CDict.get
    rw [lookup_map_val]
    cases d.lookup k with
    | none => exact (roll_zero ha c).symm
    | some v =>
      cases v with
      | none => exact (roll_zero ha c).symm
      | some v => rfl
  have hs := CDict.getD_shape hk k
  have hrs := resynth_shape_full st k ((CDict.get d k).getD (Arr.zero S)) (mem_words.mp hkw).1
  rw [hs] at hrs
  rw [hget, resynth_roll c hst ha hp hkw hs, (C84_roll_values (by rw [hrs, hl]; exact ha) _).2 idx (by rw [hrs]; exact h1), hrs]

example (D : Arr ℚ) (hD : D.shape = [2, 3]) (c : ℤ) : ∃ y,
    idwtn [(['a', 'a'], none), (['d', 'a'], some D)] (.many [haarQ, legallQ]) (.many [.zero, .periodization]) (some [0, -1]) =
      .ok (some y) ∧
    idwtn [(['a', 'a'], none), (['d', 'a'], some (Spec.Arr.roll 1 c D))] (.many [haarQ, legallQ])
      (.many [.zero, .periodization]) (some [0, -1]) = .ok (some (Spec.Arr.roll 1 (2 * c) y)) := by
  refine C90_idwtn_roll (d := [(['a', 'a'], none), (['d', 'a'], some D)]) (S := [2, 3])
    (st := [(0, haarQ, .zero), (1, legallQ, .periodization)]) (show [['a', 'a'], ['d', 'a']].Nodup by decide) ?_
    ⟨['d', 'a'], D, by simp⟩ ⟨rfl, rfl, rfl⟩ ⟨by decide, fun s hs => ?_⟩ (by decide) (by simp) c
  · intro k v h
    simp only [List.mem_cons, Prod.mk.injEq, reduceCtorEq, and_false, false_or, Option.some.injEq, List.not_mem_nil, or_false] at h
    rw [h.1, h.2]
    exact ⟨show ['d', 'a'] ∈ words 2 by decide, hD⟩
  · simp only [List.mem_cons, List.not_mem_nil, or_false] at hs
    rcases hs with rfl | rfl
    · exact ⟨by decide, haarQ_ok, by decide⟩
    · exact ⟨by decide, legallQ_ok, by decide⟩

/-- **C90 (transformed axis).** `waverecn` of coefficients with any values, rolled along a transformed axis with
`mode='periodization'` along which nothing is cut off: the approximation and the coarsest details by `c`, the details of each finer
level by twice as much as those before.  The result is rolled by `2^l·c`. -/
theorem C90_waverecn_roll {A : Arr M} {ds : List (List (Key × Arr M))} {wavelet : PerAxis (Wavelet R)} {mode : PerAxis Mode}
    {axes : Option (List ℤ)} {st : List (Stage R)} (hr : Resolves A.ndim wavelet mode axes st) (hf : RecnFits st ds A.shape)
    (h0 : ∀ d ∈ ds.head?, detailShape d A.shape = A.shape) {ax : ℕ} (ha : ax < A.ndim) (hm : ax ∈ st.map (·.1))
    (hp : ∀ s ∈ st, s.1 = ax → s.2.2 = .periodization) (he : ExactAlong st ax ds A.shape) (c : ℤ) :
    ∃ y, waverecn (.arr A :: ds.map Item.ofDict) wavelet mode axes = .ok (.arr y) ∧
      waverecn (rollLevels ax c (.arr A :: ds.map Item.ofDict)) wavelet mode axes =
        .ok (.arr (Spec.Arr.roll ax (2 ^ ds.length * c) y)) := by
  obtain ⟨h1, h2⟩ := waverecnCascade_roll hp c ha hf he
  simp only [if_pos hm] at h1 h2
  refine ⟨_, waverecn_values hr hf h0, ?_⟩
  have hx : (Spec.Arr.roll ax c A).ndim = A.ndim := by unfold Arr.ndim; rw [shape_roll]
  have := waverecn_values (A := Spec.Arr.roll ax c A) (ds := ds.mapIdx fun i d => mapDict (Spec.Arr.roll ax (2 ^ i * c)) d)
    (wavelet := wavelet) (mode := mode) (axes := axes) (st := st) (by rw [hx]; exact hr) (by rw [shape_roll]; exact h1)
    (by
      intro d hd
      cases ds with
      | nil => simp at hd
      | cons e ds =>
        simp only [List.mapIdx_cons, List.head?_cons, Option.mem_def, Option.some.injEq] at hd
        subst hd
        rw [shape_roll, detailShape_roll, h0 e (by simp)])
  rw [h2] at this
  rw [← this]
  congr 1
  rw [rollLevels]
  congr 1
  refine List.ext_getElem (by simp) fun i i1 i2 => ?_
  simp only [List.getElem_mapIdx, List.getElem_map, mapItem_ofDict]
  rfl

/-- **C90 (other axes).** Rolling all coefficients by the same amount along an axis that is not transformed rolls the result by
that amount, for all modes. -/
theorem C90_waverecn_roll_other_axis {A : Arr M} {ds : List (List (Key × Arr M))} {wavelet : PerAxis (Wavelet R)}
    {mode : PerAxis Mode} {axes : Option (List ℤ)} {st : List (Stage R)} (hr : Resolves A.ndim wavelet mode axes st)
    (hf : RecnFits st ds A.shape) (h0 : ∀ d ∈ ds.head?, detailShape d A.shape = A.shape) {ax : ℕ} (ha : ax < A.ndim)
    (ho : ax ∉ st.map (·.1)) (he : ExactAlong st ax ds A.shape) (c : ℤ) :
    ∃ y, waverecn (.arr A :: ds.map Item.ofDict) wavelet mode axes = .ok (.arr y) ∧
      waverecn ((.arr A :: ds.map Item.ofDict).map (mapItem (Spec.Arr.roll ax c))) wavelet mode axes =
        .ok (.arr (Spec.Arr.roll ax c y)) := by
  have hp : ∀ s ∈ st, s.1 = ax → s.2.2 = .periodization :=
    fun s hs e => absurd (List.mem_map.mpr ⟨s, hs, e⟩) ho
  obtain ⟨h1, h2⟩ := waverecnCascade_roll hp c ha hf he
  simp only [if_neg ho, one_pow, one_mul] at h1 h2
  have hi : (ds.mapIdx fun _ d => mapDict (Spec.Arr.roll ax c) d) = ds.map (mapDict (Spec.Arr.roll ax c)) :=
    List.ext_getElem (by simp) fun i i1 i2 => by simp
  rw [hi] at h1 h2
  refine ⟨_, waverecn_values hr hf h0, ?_⟩
  have hx : (Spec.Arr.roll ax c A).ndim = A.ndim := by unfold Arr.ndim; rw [shape_roll]
  have := waverecn_values (A := Spec.Arr.roll ax c A) (ds := ds.map (mapDict (Spec.Arr.roll ax c)))
    (wavelet := wavelet) (mode := mode) (axes := axes) (st := st) (by rw [hx]; exact hr) (by rw [shape_roll]; exact h1)
    (by
      intro d hd
      rw [List.head?_map] at hd
      obtain ⟨e, he, rfl⟩ := Option.mem_map.mp hd
      rw [shape_roll, detailShape_roll, h0 e he])
  rw [h2] at this
  rw [← this, List.map_cons, List.map_map, List.map_map]
  congr 2
  refine List.map_congr_left fun d _ => ?_
  exact mapItem_ofDict _ d

/-- The hypotheses are met by two levels of edited coefficients of shapes 2×3×2 and 3×6×2 along the first two axes: the first is
cut at the finer level, rolls are along the second or the third. -/
example (A D E : Arr ℚ) (hA : A.shape = [2, 3, 2]) (hD : D.shape = [2, 3, 2]) (hE : E.shape = [3, 6, 2]) :
    ∃ st : List (Stage ℚ), Resolves A.ndim (.many [haarQ, legallQ]) (.many [.zero, .periodization]) (some [0, -2]) st ∧
    RecnFits st [[(['d', 'a'], D)], [(['a', 'd'], E)]] A.shape ∧
    (∀ d ∈ [[(['d', 'a'], D)], [(['a', 'd'], E)]].head?, detailShape d A.shape = A.shape) ∧
    1 ∈ st.map (·.1) ∧ 2 ∉ st.map (·.1) ∧ (∀ s ∈ st, s.1 = 1 → s.2.2 = .periodization) ∧ 2 < A.ndim ∧
    ExactAlong st 1 [[(['d', 'a'], D)], [(['a', 'd'], E)]] A.shape ∧
    ExactAlong st 2 [[(['d', 'a'], D)], [(['a', 'd'], E)]] A.shape := by
  have hn : A.ndim = 3 := by unfold Arr.ndim; rw [hA]; rfl
  have e1 : detailShape [(['d', 'a'], D)] A.shape = [2, 3, 2] := hD
  have e2 : ∀ sh, detailShape [(['a', 'd'], E)] sh = [3, 6, 2] := fun _ => hE
  have e3 : synthShape ([(0, haarQ, .zero), (1, legallQ, .periodization)] : List (Stage ℚ)) [2, 3, 2] = [4, 6, 2] := by decide
  have hsf : ∀ S : List ℕ, S = [2, 3, 2] ∨ S = [3, 6, 2] →
      SynthFits ([(0, haarQ, .zero), (1, legallQ, .periodization)] : List (Stage ℚ)) S := by
    intro S hS
    refine ⟨by decide, fun s hs => ?_⟩
    simp only [List.mem_cons, List.not_mem_nil, or_false] at hs
    rcases hS with rfl | rfl <;> rcases hs with rfl | rfl
    · exact ⟨by decide, haarQ_ok, by decide⟩
    · exact ⟨by decide, legallQ_ok, by decide⟩
    · exact ⟨by decide, haarQ_ok, by decide⟩
    · exact ⟨by decide, legallQ_ok, by decide⟩
  refine ⟨[(0, haarQ, .zero), (1, legallQ, .periodization)], ?_, ⟨?_, ?_, ?_, ?_, ?_, ?_, trivial⟩, ?_, by simp, by simp, by simp,
    by rw [hn]; decide, ⟨?_, ?_, trivial⟩, ?_, ?_, trivial⟩
  · rw [hn]
    exact ⟨rfl, rfl, rfl⟩
  · rw [e1]
    refine ⟨by simp, ?_⟩
    intro p hp
    simp only [List.mem_singleton] at hp
    subst hp
    exact ⟨show ['d', 'a'] ∈ words 2 by decide, hD⟩
  · rw [e1, hA]
    exact ⟨rfl, fun _ _ => Or.inl rfl⟩
  · exact hsf _ (Or.inl e1)
  · rw [e2]
    refine ⟨by simp, ?_⟩
    intro p hp
    simp only [List.mem_singleton] at hp
    subst hp
    exact ⟨show ['a', 'd'] ∈ words 2 by decide, hE⟩
  · rw [e1, e2, e3]
    unfold Near
    decide
  · exact hsf _ (Or.inr (e2 _))
  · intro d hd
    simp only [List.head?_cons, Option.mem_def, Option.some.injEq] at hd
    subst hd
    exact hD.trans hA.symm
  · rw [e1, hA]
  · rw [e1, e2, e3]
    rfl
  · rw [e1, hA]
  · rw [e1, e2, e3]
    rfl

end Pywt
