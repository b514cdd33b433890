import Verif.Proof.Swt2Move

/-!
# C91: the stationary image transforms of rolled and transposed images
-/

namespace Pywt

open Finset Spec

set_option autoImplicit false
set_option linter.unusedSectionVars false

variable {R M : Type} [CommRing R] [AddCommGroup M] [Module R M]

/-- **C91.** `swt2` of an image rolled by any number of samples along any axis: every coefficient array is rolled. -/
theorem C91_swt2_roll {wavelet : PerAxis (Wavelet R)} {axes : List ℤ} {norm : Option R} {st : List (SStage R)} {x : Arr M}
    (hl : st.length = 2) (hr : SwtResolves x.ndim wavelet (some axes) norm st) {l m : ℕ} (hf : SwtnFits st (m + l) x.shape)
    {ax : ℕ} (ha : ax < x.ndim) (c : ℤ) (trim : Bool) {r : Swt2 M} (h : swt2 x wavelet (l : ℤ) (m : ℤ) axes trim norm = .ok r) :
    swt2 (Spec.Arr.roll ax c x) wavelet (l : ℤ) (m : ℤ) axes trim norm =
      .ok (mapSwt2 (Spec.Arr.roll ax c) (mapTriple (Spec.Arr.roll ax c)) r) := by
  have hx : (Spec.Arr.roll ax c x).ndim = x.ndim := by unfold Arr.ndim; rw [shape_roll]
  have hb : ∀ s ∈ st, s.1 < x.shape.length := fun s hs => (hf.2 s hs).1
  rw [swt2_ok hl hr hf, Except.ok.injEq] at h
  rw [swt2_ok hl (by rw [hx]; exact hr) (by rw [shape_roll]; exact hf), ← h, Except.ok.injEq]
  cases trim with
  | true =>
    simp only [if_true, mapSwt2, List.map_reverse, List.map_map]
    rw [(swtnApprox_roll c m hb ha l).2]
    congr 2
    exact List.map_congr_left fun j _ => swt2Det_roll c m hb ha j
  | false =>
    simp only [Bool.false_eq_true, if_false, mapSwt2, List.map_reverse, List.map_map]
    congr 2
    refine List.map_congr_left fun j _ => ?_
    rw [Function.comp_apply, (swtnApprox_roll c m hb ha (j + 1)).2, swt2Det_roll c m hb ha j]

/-- **C91.** `swt2` of the transposed image, with the same wavelet for both axes: the approximations and the diagonal details are
transposed, horizontal and vertical details are transposed and change places. -/
theorem C91_swt2_transpose {w : Wavelet R} {axes : List ℤ} {norm : Option R} {s t : SStage R} {x : Arr M}
    (hr : SwtResolves x.ndim (.one w) (some axes) norm [s, t]) {l m : ℕ} (hf : SwtnFits [s, t] (m + l) x.shape) (trim : Bool)
    {r : Swt2 M} (h : swt2 x (.one w) (l : ℤ) (m : ℤ) axes trim norm = .ok r) :
    swt2 (Spec.Arr.transpose (Equiv.swap s.1 t.1) x) (.one w) (l : ℤ) (m : ℤ) axes trim norm =
      .ok (mapSwt2 (Spec.Arr.transpose (Equiv.swap s.1 t.1)) (flipTriple (Spec.Arr.transpose (Equiv.swap s.1 t.1))) r) := by
  have hs : s.1 < x.shape.length := (hf.2 s (by simp)).1
  have ht : t.1 < x.shape.length := (hf.2 t (by simp)).1
  have hst : s.1 ≠ t.1 := by simpa using hf.1
  have h2 : s.2 = t.2 := by
    obtain ⟨-, ws, h1, h2⟩ := hr
    simp [PerAxis.expand, List.replicate] at h1
    subst h1
    simp at h2
    rw [h2.1, h2.2]
  have hx : (Spec.Arr.transpose (Equiv.swap s.1 t.1) x).ndim = x.ndim := tShape_length _ x.shape
  have hf' : SwtnFits [s, t] (m + l) (tShape (Equiv.swap s.1 t.1) x.shape) := by
    have := swtnFits_transpose (swap_axes_lt hs ht) hf
    rw [tSStages_swap h2] at this
    refine ⟨hf.1, fun u hu => this.2 u ?_⟩
    simp only [List.mem_cons, List.not_mem_nil, or_false] at hu ⊢
    exact hu.symm
  rw [swt2_ok rfl hr hf, Except.ok.injEq] at h
  rw [swt2_ok rfl (by rw [hx]; exact hr) hf', ← h, Except.ok.injEq]
  cases trim with
  | true =>
    simp only [if_true, mapSwt2, List.map_reverse, List.map_map]
    rw [(swtnApprox_swap hst h2 m hs ht l).2]
    congr 2
    exact List.map_congr_left fun j _ => swt2Det_swap hst h2 m hs ht j
  | false =>
    simp only [Bool.false_eq_true, if_false, mapSwt2, List.map_reverse, List.map_map]
    congr 2
    refine List.map_congr_left fun j _ => ?_
    rw [Function.comp_apply, (swtnApprox_swap hst h2 m hs ht (j + 1)).2, swt2Det_swap hst h2 m hs ht j]

variable [Invertible (2 : R)]

/-- **C91.** `iswt2` of coefficients with any values, all rolled: the result is rolled. -/
theorem C91_iswt2_roll {wavelet : PerAxis (Wavelet R)} {axes : List ℤ} {norm : Option R} {st : List (SStage R)} {A : Arr M}
    {ps : List (Arr M × Arr M × Arr M)} (hl : st.length = 2) (hr : SwtResolves A.ndim wavelet (some axes) norm st)
    (hf : SwtnFits st ps.length A.shape) (hne : ps ≠ [])
    (hs : ∀ p ∈ ps, p.1.shape = A.shape ∧ p.2.1.shape = A.shape ∧ p.2.2.shape = A.shape) {ax : ℕ} (ha : ax < A.ndim) (c : ℤ) :
    ∃ y, iswt2 (.trimmed A ps) wavelet norm axes = .ok y ∧
      iswt2 (mapSwt2 (Spec.Arr.roll ax c) (mapTriple (Spec.Arr.roll ax c)) (.trimmed A ps)) wavelet norm axes =
        .ok (Spec.Arr.roll ax c y) := by
  have hx : (Spec.Arr.roll ax c A).ndim = A.ndim := by unfold Arr.ndim; rw [shape_roll]
  refine ⟨_, (C46_iswt2_values hl hr hf hne hs).1, ?_⟩
  have hd : ∀ d ∈ ps.map dict3, DictOk d st.length A.shape := by
    intro d hd
    obtain ⟨p, hp, rfl⟩ := List.mem_map.mp hd
    rw [hl]
    exact dict3_ok (hs p hp).1 (hs p hp).2.1 (hs p hp).2.2
  rw [← iswtnCascade_roll c hd (fun s hs => (hf.2 s hs).1) ha, mapSwt2,
    (C46_iswt2_values hl (by rw [hx]; exact hr) (by rw [shape_roll, List.length_map]; exact hf) (by simpa using hne) ?_).1]
  · rw [List.map_map, List.map_map]
    rfl
  · intro p hp
    obtain ⟨q, hq, rfl⟩ := List.mem_map.mp hp
    simp only [mapTriple, shape_roll]
    exact hs q hq

/-- **C91.** `iswt2` of coefficients with any values, all transposed, horizontal and vertical details exchanged, with the same
wavelet for both axes: the result is transposed. -/
theorem C91_iswt2_transpose {w : Wavelet R} {axes : List ℤ} {norm : Option R} {s t : SStage R} {A : Arr M}
    {ps : List (Arr M × Arr M × Arr M)} (hr : SwtResolves A.ndim (.one w) (some axes) norm [s, t])
    (hf : SwtnFits [s, t] ps.length A.shape) (hne : ps ≠ [])
    (hs : ∀ p ∈ ps, p.1.shape = A.shape ∧ p.2.1.shape = A.shape ∧ p.2.2.shape = A.shape) :
    ∃ y, iswt2 (.trimmed A ps) (.one w) norm axes = .ok y ∧
      iswt2 (mapSwt2 (Spec.Arr.transpose (Equiv.swap s.1 t.1)) (flipTriple (Spec.Arr.transpose (Equiv.swap s.1 t.1)))
        (.trimmed A ps)) (.one w) norm axes = .ok (Spec.Arr.transpose (Equiv.swap s.1 t.1) y) := by
  have h1 : s.1 < A.shape.length := (hf.2 s (by simp)).1
  have h3 : t.1 < A.shape.length := (hf.2 t (by simp)).1
  have hst : s.1 ≠ t.1 := by simpa using hf.1
  have h2 : s.2 = t.2 := by
    obtain ⟨-, ws, h1, h2⟩ := hr
    simp [PerAxis.expand, List.replicate] at h1
    subst h1
    simp at h2
    rw [h2.1, h2.2]
  have hx : (Spec.Arr.transpose (Equiv.swap s.1 t.1) A).ndim = A.ndim := tShape_length _ A.shape
  have hf' : SwtnFits [s, t] ps.length (tShape (Equiv.swap s.1 t.1) A.shape) := by
    have := swtnFits_transpose (swap_axes_lt h1 h3) hf
    rw [tSStages_swap h2] at this
    refine ⟨hf.1, fun u hu => this.2 u ?_⟩
    simp only [List.mem_cons, List.not_mem_nil, or_false] at hu ⊢
    exact hu.symm
  refine ⟨_, (C46_iswt2_values rfl hr hf hne hs).1, ?_⟩
  rw [← iswtnCascade_swap hst h2 h1 h3 hs, mapSwt2,
    (C46_iswt2_values rfl (by rw [hx]; exact hr) (by rw [List.length_map]; exact hf') (by simpa using hne) ?_).1]
  intro p hp
  obtain ⟨q, hq, rfl⟩ := List.mem_map.mp hp
  simp only [flipTriple, shape_transpose, (hs q hq).1, (hs q hq).2.1, (hs q hq).2.2, and_self]

/-- The hypotheses are met by 4×4 images, two levels of the 5/3 bank, and their edited coefficients. -/
example (x H : Arr ℚ) (hx : x.shape = [4, 4]) (hH : H.shape = [4, 4]) : ∃ s t : SStage ℚ,
    SwtResolves x.ndim (.one legallQ) (some [-2, -1]) none [s, t] ∧ SwtnFits [s, t] (0 + 2) x.shape ∧ s.1 = 0 ∧ t.1 = 1 ∧
    (∃ r, swt2 x (.one legallQ) ((2 : ℕ) : ℤ) ((0 : ℕ) : ℤ) [-2, -1] false none = .ok r) ∧
    ∀ p ∈ [(H, x, H), (x, H, x)], p.1.shape = x.shape ∧ p.2.1.shape = x.shape ∧ p.2.2.shape = x.shape := by
  have hr : SwtResolves x.ndim (.one legallQ) (some [-2, -1]) none [(0, legallQ), (1, legallQ)] := by
    unfold Arr.ndim
    rw [hx]
    exact ⟨rfl, [legallQ, legallQ], rfl, rfl⟩
  have hf : SwtnFits [(0, legallQ), (1, legallQ)] (0 + 2) x.shape := by
    rw [hx]
    refine ⟨by simp, fun s hs => ?_⟩
    simp only [List.mem_cons, List.not_mem_nil, or_false] at hs
    rcases hs with rfl | rfl
    · exact ⟨by simp, legallQ_ok, by simp, by norm_num⟩
    · exact ⟨by simp, legallQ_ok, by simp, by norm_num⟩
  refine ⟨_, _, hr, hf, rfl, rfl, ⟨_, swt2_ok rfl hr hf false⟩, ?_⟩
  intro p hp
  simp only [List.mem_cons, List.not_mem_nil, or_false] at hp
  rcases hp with rfl | rfl <;> simp [hx, hH]

end Pywt
