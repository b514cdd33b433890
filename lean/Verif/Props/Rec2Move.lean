import Verif.Proof.Rec2Move
import Verif.Props.RecRoll

/-!
# C93: reconstruction of images from rolled and transposed coefficients
-/

namespace Pywt

open Finset Spec

set_option autoImplicit false
set_option linter.unusedSectionVars false

variable {R M : Type} [CommRing R] [AddCommGroup M] [Module R M]

/-- **C93 (roll).** `waverec2` of coefficients with any values along a transformed axis with `mode='periodization'`: if the
approximation and the coarsest details are rolled by `c` and the details of each finer level by twice as much as those before, the
image is rolled by `2^l·c`. -/
theorem C93_waverec2_roll {A : Arr M} {ps : List (Arr M × Arr M × Arr M)} {wavelet : PerAxis (Wavelet R)} {mode : PerAxis Mode}
    {axes : List ℤ} {s t : Stage R} (hr : Resolves A.ndim wavelet mode (some axes) [s, t]) (hst : s.1 ≠ t.1)
    (hp : ∀ p ∈ ps, p.2.1.shape = p.1.shape ∧ p.2.2.shape = p.1.shape) (hf : RecnFits [s, t] (ps.map tripleDict) A.shape)
    {ax : ℕ} (ha : ax < A.ndim) (hm : ax = s.1 ∨ ax = t.1) (hper : ∀ u ∈ [s, t], u.1 = ax → u.2.2 = .periodization)
    (he : ExactAlong [s, t] ax (ps.map tripleDict) A.shape) (c : ℤ) :
    ∃ y, waverec2 (.arr A :: ps.map Item.ofTriple) wavelet mode axes = .ok (.arr y) ∧
      waverec2 (rollLevels ax c (.arr A :: ps.map Item.ofTriple)) wavelet mode axes =
        .ok (.arr (Spec.Arr.roll ax (2 ^ ps.length * c) y)) := by
  have hf' := (recnFits_tripleDict rfl ps _ hp).mp hf
  have hm' : ax ∈ ([s, t] : List (Stage R)).map (·.1) := by simpa using hm
  obtain ⟨h1, h2⟩ := waverecnCascade_roll hper c ha hf' (exactAlong_tripleDict ps _ hp he)
  simp only [if_pos hm', List.length_map] at h1 h2
  rw [mapIdx_dict3 (fun i => Spec.Arr.roll ax (2 ^ i * c))] at h1 h2
  refine ⟨_, waverec2_values rfl hr (by simpa using hst) hf', ?_⟩
  have hx : (Spec.Arr.roll ax c A).ndim = A.ndim := by unfold Arr.ndim; rw [shape_roll]
  have := waverec2_values (A := Spec.Arr.roll ax c A) (ps := ps.mapIdx fun i p => map3 (Spec.Arr.roll ax (2 ^ i * c)) p)
    (wavelet := wavelet) (mode := mode) (axes := axes) (st := [s, t]) rfl (by rw [hx]; exact hr) (by simpa using hst)
    (by rw [shape_roll]; exact h1)
  rw [h2] at this
  rw [← this, rollLevels]
  congr 2
  exact List.ext_getElem (by simp) fun i _ _ => by
    simp only [List.getElem_mapIdx, List.getElem_map]
    rfl

/-- **C93 (transpose).** `waverec2` of transposed coefficients with any values along the same axes, which have other numbers now:
the image is transposed. -/
theorem C93_waverec2_transpose {A : Arr M} {ps : List (Arr M × Arr M × Arr M)} {π : Equiv.Perm ℕ}
    (hπ : ∀ j, π j < A.ndim ↔ j < A.ndim) {wavelet : PerAxis (Wavelet R)} {mode : PerAxis Mode} {axes axes' : List ℤ}
    {s t : Stage R} (hr : Resolves A.ndim wavelet mode (some axes) [s, t])
    (hr' : Resolves A.ndim wavelet mode (some axes') [tStage π s, tStage π t]) (hst : s.1 ≠ t.1)
    (hp : ∀ p ∈ ps, p.2.1.shape = p.1.shape ∧ p.2.2.shape = p.1.shape) (hf : RecnFits [s, t] (ps.map tripleDict) A.shape) :
    ∃ y, waverec2 (.arr A :: ps.map Item.ofTriple) wavelet mode axes = .ok (.arr y) ∧
      waverec2 (.arr (Spec.Arr.transpose π A) :: ps.map fun p => Item.ofTriple (map3 (Spec.Arr.transpose π) p)) wavelet mode
        axes' = .ok (.arr (Spec.Arr.transpose π y)) := by
  have hf' := (recnFits_tripleDict rfl ps _ hp).mp hf
  obtain ⟨h1, h2⟩ := waverecnCascade_transpose hπ hf'
  have hd : (ps.map dict3).map (mapDict (Spec.Arr.transpose π)) = (ps.map (map3 (Spec.Arr.transpose π))).map dict3 := by
    rw [List.map_map, List.map_map]
    rfl
  rw [hd] at h1 h2
  refine ⟨_, waverec2_values rfl hr (by simpa using hst) hf', ?_⟩
  have hx : (Spec.Arr.transpose π A).ndim = A.ndim := tShape_length π A.shape
  have := waverec2_values (A := Spec.Arr.transpose π A) (ps := ps.map (map3 (Spec.Arr.transpose π)))
    (st := [tStage π s, tStage π t]) rfl (by rw [hx]; exact hr') (by simpa [tStage] using hst) h1
  rw [show waverecnCascade [tStage π s, tStage π t] _ _ = _ from h2, List.map_map] at this
  exact this

/-- **C93 (order of the axes).** `waverec2` along the same two axes named in the other order gives the same image, if horizontal
and vertical details are exchanged. -/
theorem C93_waverec2_axes_order {A : Arr M} {ps : List (Arr M × Arr M × Arr M)} {wavelet wavelet' : PerAxis (Wavelet R)}
    {mode mode' : PerAxis Mode} {axes axes' : List ℤ} {s t : Stage R} (hr : Resolves A.ndim wavelet mode (some axes) [s, t])
    (hr' : Resolves A.ndim wavelet' mode' (some axes') [t, s]) (hst : s.1 ≠ t.1)
    (hp : ∀ p ∈ ps, p.2.1.shape = p.1.shape ∧ p.2.2.shape = p.1.shape) (hf : RecnFits [s, t] (ps.map tripleDict) A.shape) :
    ∃ y, waverec2 (.arr A :: ps.map Item.ofTriple) wavelet mode axes = .ok (.arr y) ∧
      waverec2 (.arr A :: ps.map fun p => Item.ofTriple (p.2.1, p.1, p.2.2)) wavelet' mode' axes' = .ok (.arr y) := by
  have hf' := (recnFits_tripleDict rfl ps _ hp).mp hf
  obtain ⟨h1, h2⟩ := waverecnCascade_comm hp hf'
  refine ⟨_, waverec2_values rfl hr (by simpa using hst) hf', ?_⟩
  have := waverec2_values (ps := ps.map flip3) (st := [t, s]) rfl hr' (by simpa using Ne.symm hst) h1
  rw [h2, List.map_map] at this
  exact this

/-- **C93 (transposed images).** With one wavelet and one mode for both axes: if the approximation and the diagonal details are
transposed, and horizontal and vertical details are transposed and exchanged, `waverec2` gives the transposed image. -/
theorem C93_waverec2_transpose_image {A : Arr M} {ps : List (Arr M × Arr M × Arr M)} {w : Wavelet R} {mode : Mode} {axes : List ℤ}
    {s t : Stage R} (hr : Resolves A.ndim (.one w) (.one mode) (some axes) [s, t]) (hst : s.1 ≠ t.1) (hs : s.1 < A.ndim)
    (ht : t.1 < A.ndim)
    (hp : ∀ p ∈ ps, p.2.1.shape = p.1.shape ∧ p.2.2.shape = p.1.shape) (hf : RecnFits [s, t] (ps.map tripleDict) A.shape) :
    ∃ y, waverec2 (.arr A :: ps.map Item.ofTriple) (.one w) (.one mode) axes = .ok (.arr y) ∧
      waverec2 (.arr (Spec.Arr.transpose (Equiv.swap s.1 t.1) A) :: ps.map fun p => Item.ofTriple
        (Spec.Arr.transpose (Equiv.swap s.1 t.1) p.2.1, Spec.Arr.transpose (Equiv.swap s.1 t.1) p.1,
          Spec.Arr.transpose (Equiv.swap s.1 t.1) p.2.2)) (.one w) (.one mode) axes =
        .ok (.arr (Spec.Arr.transpose (Equiv.swap s.1 t.1) y)) := by
  have hf' := (recnFits_tripleDict rfl ps _ hp).mp hf
  have h2 : s.2 = t.2 := stage_same hr
  have hx : (Spec.Arr.transpose (Equiv.swap s.1 t.1) A).ndim = A.ndim := tShape_length _ A.shape
  obtain ⟨h3, h4⟩ := waverecnCascade_transpose (π := Equiv.swap s.1 t.1) (swap_axes_lt hs ht) hf'
  have hd : (ps.map dict3).map (mapDict (Spec.Arr.transpose (Equiv.swap s.1 t.1))) =
      (ps.map (map3 (Spec.Arr.transpose (Equiv.swap s.1 t.1)))).map dict3 := by
    rw [List.map_map, List.map_map]
    rfl
  rw [hd, tStages_swap h2] at h3 h4
  obtain ⟨h5, h6⟩ := waverecnCascade_comm (A := Spec.Arr.transpose (Equiv.swap s.1 t.1) A) (by
    intro p hpm
    obtain ⟨q, hq, rfl⟩ := List.mem_map.mp hpm
    exact ⟨congrArg (tShape _) (hp q hq).1, congrArg (tShape _) (hp q hq).2⟩) h3
  refine ⟨_, waverec2_values rfl hr (by simpa using hst) hf', ?_⟩
  have := waverec2_values (A := Spec.Arr.transpose (Equiv.swap s.1 t.1) A)
    (ps := (ps.map (map3 (Spec.Arr.transpose (Equiv.swap s.1 t.1)))).map flip3) (st := [s, t]) rfl
    (by rw [hx]; exact hr) (by simpa using hst) h5
  rw [h6, h4, List.map_map, List.map_map] at this
  exact this

/-- The hypotheses are met by two levels of edited coefficients of shapes 2×3 and 4×6 with the 5/3 bank. -/
example (A : Arr ℚ) (p q : Arr ℚ × Arr ℚ × Arr ℚ) (hA : A.shape = [2, 3]) (hp : tripleShape p = ([2, 3], [2, 3], [2, 3]))
    (hq : tripleShape q = ([4, 6], [4, 6], [4, 6])) :
    ∃ s t : Stage ℚ, Resolves A.ndim (.one legallQ) (.one .periodization) (some [-2, -1]) [s, t] ∧
    Resolves A.ndim (.one legallQ) (.one .periodization) (some [-1, -2]) [t, s] ∧
    s.1 ≠ t.1 ∧ s.1 < A.ndim ∧ t.1 < A.ndim ∧ (∀ r ∈ [p, q], r.2.1.shape = r.1.shape ∧ r.2.2.shape = r.1.shape) ∧
    RecnFits [s, t] ([p, q].map tripleDict) A.shape ∧ ExactAlong [s, t] s.1 ([p, q].map tripleDict) A.shape ∧
    (∀ u ∈ [s, t], u.1 = s.1 → u.2.2 = .periodization) := by
  simp only [tripleShape, Prod.mk.injEq] at hp hq
  obtain ⟨p1, p2, p3⟩ := hp
  obtain ⟨q1, q2, q3⟩ := hq
  have hn : A.ndim = 2 := by unfold Arr.ndim; rw [hA]; rfl
  have hsf : ∀ S : List ℕ, S = [2, 3] ∨ S = [4, 6] →
      SynthFits ([(0, legallQ, .periodization), (1, legallQ, .periodization)] : List (Stage ℚ)) S := by
    intro S hS
    refine ⟨by decide, fun s hs => ?_⟩
    simp only [List.mem_cons, List.not_mem_nil, or_false] at hs
    rcases hS with rfl | rfl <;> rcases hs with rfl | rfl <;> exact ⟨by decide, legallQ_ok, by decide⟩
  have e1 : ∀ sh, detailShape (tripleDict p) sh = [2, 3] := fun _ => p2
  have e2 : ∀ sh, detailShape (tripleDict q) sh = [4, 6] := fun _ => q2
  have e3 : synthShape ([(0, legallQ, .periodization), (1, legallQ, .periodization)] : List (Stage ℚ)) [2, 3] = [4, 6] := by decide
  have hok : ∀ (r : Arr ℚ × Arr ℚ × Arr ℚ) S, r.1.shape = S → r.2.1.shape = S → r.2.2.shape = S → DictOk (tripleDict r) 2 S := by
    intro r S r1 r2 r3
    refine ⟨by simp [tripleDict], fun v hv => ?_⟩
    simp only [tripleDict, List.mem_cons, List.not_mem_nil, or_false] at hv
    rcases hv with rfl | rfl | rfl
    · exact ⟨by simp [words], r2⟩
    · exact ⟨by simp [words], r1⟩
    · exact ⟨by simp [words], r3⟩
  refine ⟨(0, legallQ, .periodization), (1, legallQ, .periodization), ?_, ?_, by decide, by rw [hn]; decide, by rw [hn]; decide,
    ?_, ⟨?_, ?_, ?_, ?_, ?_, ?_, trivial⟩, ⟨?_, ?_, trivial⟩, by simp⟩
  · rw [hn]; exact ⟨rfl, rfl, rfl⟩
  · rw [hn]; exact ⟨rfl, rfl, rfl⟩
  · intro r hr
    simp only [List.mem_cons, List.not_mem_nil, or_false] at hr
    rcases hr with rfl | rfl
    · exact ⟨p2.trans p1.symm, p3.trans p1.symm⟩
    · exact ⟨q2.trans q1.symm, q3.trans q1.symm⟩
  · rw [e1]; exact hok p _ p1 p2 p3
  · rw [e1, hA]; exact ⟨rfl, fun j _ => .inl rfl⟩
  · rw [e1]; exact hsf _ (.inl rfl)
  · rw [e2]; exact hok q _ q1 q2 q3
  · rw [e1, e2, e3]; exact ⟨rfl, fun j _ => .inl rfl⟩
  · rw [e2]; exact hsf _ (.inr rfl)
  · rw [e1, hA]
  · rw [e1, e2, e3]

end Pywt
