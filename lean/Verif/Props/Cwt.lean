import Verif.Proof.Cwt
import Mathlib.RingTheory.RootsOfUnity.Complex
import Mathlib.Data.Rat.Floor

/-!
# Property C40: the continuous wavelet transform

`psi` is the integrated wavelet on the grid from `x0` to `xl` with the given step; `sqrt` is the square root.
-/

namespace Pywt

open Finset Spec

set_option autoImplicit false

variable {K E M : Type} [Field K] [LinearOrder K] [IsStrictOrderedRing K] [FloorRing K] [Field E] [AddCommGroup M]
  [Module E M]

/-- C40.  For positive scales whose wavelet has at least two samples, `cwt` returns for each scale, in order, an array
holding along the axis, for every line of the data, the correlations of the line with the differences of the sampled
integrated wavelet, times the square root of the scale; with both methods. -/
theorem C40_values {method : CwtMethod E} (hm : MethodOk method) {psi : List E} {x0 xl step : K} (hstep : 0 < step)
    (sqrt : K → E) {data : Arr M} {axis : ℤ} {ax : ℕ} (hax : AxisIs data.ndim axis ax)
    (hn : 1 ≤ data.shape.getD ax 0) {g : K → List E} {scales : List K}
    (hs : ∀ s ∈ scales, 0 < s ∧ SampledAt psi x0 xl step s (g s) ∧ 2 ≤ (g s).length) :
    cwt method psi x0 xl step sqrt data axis scales =
      .ok (scales.map fun s => data.along ax (data.shape.getD ax 0) (cwtLine (sqrt s) (g s))) :=
  cwt_ok hm hstep (Or.inl hax) rfl hn hs

/-- C40.  Every positive scale has exactly one list of samples; it has two or more exactly when
`1 < scale·step·size`. -/
theorem C40_samples {psi : List E} {x0 xl step s : K} (hs : 0 < s) (hstep : 0 < step) (hx : x0 < xl) :
    ∃ g : List E, SampledAt psi x0 xl step s g ∧ (∀ g', SampledAt psi x0 xl step s g' → g' = g) ∧
      (2 ≤ g.length ↔ 1 < s * step * psi.length) := by
  obtain ⟨g, h, -⟩ := sampledAt_indices psi hs hstep (x0 := x0) (xl := xl)
  exact ⟨g, h, fun g' h' => h'.unique h, h.two hs hstep hx⟩

/-- C40.  On a line that is not empty, `cwt` returns a value exactly when every scale is positive and satisfies
`1 < scale·step·size`, and raises `ValueError` otherwise.  The value has one array per scale, each of the shape
of the data. -/
theorem C40_accepts {method : CwtMethod E} (hm : MethodOk method) {psi : List E} (hpsi : psi ≠ [])
    {x0 xl step : K} (hstep : 0 < step) (hx : x0 < xl) (sqrt : K → E) {data : Arr M} {axis : ℤ} {ax : ℕ}
    (hax : AxisIs data.ndim axis ax) (hn : 1 ≤ data.shape.getD ax 0) (scales : List K) :
    ((∀ s ∈ scales, 0 < s ∧ 1 < s * step * psi.length) ∧
      ∃ out, cwt method psi x0 xl step sqrt data axis scales = .ok out ∧ out.length = scales.length ∧
        ∀ a ∈ out, a.shape = data.shape) ∨
    ((∃ s ∈ scales, s ≤ 0 ∨ s * step * psi.length ≤ 1) ∧
      cwt method psi x0 xl step sqrt data axis scales = .error .value) := by
  have hpl : 1 ≤ psi.length := by
    cases psi with
    | nil => exact absurd rfl hpsi
    | cons => simp
  by_cases hp : ∀ s ∈ scales, 0 < s
  · have hg : ∀ s, ∃ g : List E, 0 < s → SampledAt psi x0 xl step s g := by
      intro s
      by_cases h : 0 < s
      · obtain ⟨g, h1, -⟩ := sampledAt_indices psi h hstep (x0 := x0) (xl := xl)
        exact ⟨g, fun _ => h1⟩
      · exact ⟨[], fun h' => absurd h' h⟩
    choose g hg using hg
    by_cases hall : ∀ s ∈ scales, 1 < s * step * psi.length
    · left
      refine ⟨fun s h => ⟨hp s h, hall s h⟩, _,
        C40_values hm hstep sqrt hax hn (g := g) (fun s h => ⟨hp s h, hg s (hp s h),
          ((hg s (hp s h)).two (hp s h) hstep hx).mpr (hall s h)⟩), by simp, ?_⟩
      intro a ha
      obtain ⟨s, -, rfl⟩ := List.mem_map.mp ha
      change data.shape.set ax _ = _
      have hlt : ax < data.shape.length := hax.2
      rw [List.getD_eq_getElem _ _ hlt, List.set_getElem_self]
    · right
      push Not at hall
      obtain ⟨s, h1, h2⟩ := hall
      refine ⟨⟨s, h1, Or.inr h2⟩, ?_⟩
      refine cwt_small hm hstep (Or.inl hax) rfl hn (g := g) (fun s h => ⟨hp s h, hg s (hp s h),
        (hg s (hp s h)).pos (hp s h) hpl hx.le⟩) ⟨s, h1, ?_⟩
      by_contra h3
      have := ((hg s (hp s h1)).two (hp s h1) hstep hx).mp (by omega)
      exact absurd h2 (not_le.mpr this)
  · right
    push Not at hp
    obtain ⟨s, h1, h2⟩ := hp
    refine ⟨⟨s, h1, Or.inl h2⟩, ?_⟩
    unfold cwt
    rw [if_pos]
    rw [List.any_eq_true]
    exact ⟨s, h1, by simpa using h2⟩

/-- C40.  Unknown methods, and axes that do not exist in data of two or more dimensions, are rejected; so is an empty
line. -/
theorem C40_rejects (psi : List E) (x0 xl step : K) (sqrt : K → E) (data : Arr M) (axis : ℤ)
    (scales : List K) :
    cwt (.other : CwtMethod E) psi x0 xl step sqrt data axis scales = .error .value ∧
    (∀ method : CwtMethod E, method ≠ .other → (∀ s ∈ scales, 0 < s) → 1 < data.ndim →
      ¬ (-(data.ndim : ℤ) ≤ axis ∧ axis < data.ndim) →
      cwt method psi x0 xl step sqrt data axis scales = .error .axis) ∧
    (∀ (method : CwtMethod E) (ax : ℕ), method ≠ .other → (∀ s ∈ scales, 0 < s) → 1 < data.ndim →
      AxisIs data.ndim axis ax → data.shape.getD ax 0 = 0 →
      cwt method psi x0 xl step sqrt data axis scales = .error .value) := by
  have hrun : ∀ method : CwtMethod E, method ≠ .other → (∀ s ∈ scales, 0 < s) →
      cwt method psi x0 xl step sqrt data axis scales = cwtRun method psi x0 xl step sqrt data axis scales := by
    intro method hm hs
    unfold cwt
    have : (scales.any fun s => decide (s ≤ 0)) = false := by
      rw [List.any_eq_false]
      intro s h
      simpa using hs s h
    rw [this]
    cases method with
    | conv => rfl
    | fft root => rfl
    | other => exact absurd rfl hm
  refine ⟨?_, ?_, ?_⟩
  · unfold cwt
    split_ifs <;> rfl
  · intro method hm hs h1 hbad
    rw [hrun method hm hs]
    unfold cwtRun
    rw [if_pos h1]
    have : normAxis data.ndim axis = .error .axis := by
      unfold normAxis
      simp only
      rw [if_neg]
      split_ifs <;> omega
    rw [this]
    rfl
  · intro method ax hm hs h1 hax h0
    rw [hrun method hm hs]
    unfold cwtRun
    rw [if_pos h1]
    have hlast : (data.swapaxes (data.ndim - 1) ax).shape.getD (data.ndim - 1) 0 = 0 := by
      rw [Arr.swapaxes_shape, swapShape_getD _ (by unfold Arr.ndim at *; omega), Equiv.swap_apply_left, h0]
    simp only [hax.normAxis, Py_bind_ok, hlast]
    rfl

/-- C40.  The transform of a combination of two arrays is the same combination of their transforms. -/
theorem C40_linear {method : CwtMethod E} (hm : MethodOk method) {psi : List E} {x0 xl step : K} (hstep : 0 < step)
    (hx : x0 < xl) (sqrt : K → E) {a b c : Arr M} {α β : E} (hab : b.shape = a.shape) (hca : c.shape = a.shape)
    (hc : ∀ idx, InB a.shape idx → c.get idx = α • a.get idx + β • b.get idx) {axis : ℤ} {ax : ℕ}
    (hax : AxisIs a.ndim axis ax) (hn : 1 ≤ a.shape.getD ax 0) {scales : List K}
    (hs : ∀ s ∈ scales, 0 < s ∧ 1 < s * step * psi.length) :
    ∃ A B C : List (Arr M), cwt method psi x0 xl step sqrt a axis scales = .ok A ∧
      cwt method psi x0 xl step sqrt b axis scales = .ok B ∧ cwt method psi x0 xl step sqrt c axis scales = .ok C ∧
      A.length = scales.length ∧ B.length = scales.length ∧ C.length = scales.length ∧
      ∀ (i : ℕ) (hA : i < A.length) (hB : i < B.length) (hC : i < C.length) (idx : ℕ → ℕ), InB a.shape idx →
        C[i].get idx = α • A[i].get idx + β • B[i].get idx := by
  have hg : ∀ s, ∃ g : List E, 0 < s → SampledAt psi x0 xl step s g := by
    intro s
    by_cases h : 0 < s
    · obtain ⟨g, h1, -⟩ := sampledAt_indices psi h hstep (x0 := x0) (xl := xl)
      exact ⟨g, fun _ => h1⟩
    · exact ⟨[], fun h' => absurd h' h⟩
  choose g hg using hg
  have hs' : ∀ s ∈ scales, 0 < s ∧ SampledAt psi x0 xl step s (g s) ∧ 2 ≤ (g s).length := fun s h =>
    ⟨(hs s h).1, hg s (hs s h).1, ((hg s (hs s h).1).two (hs s h).1 hstep hx).mpr (hs s h).2⟩
  have hb : AxisIs b.ndim axis ax := by unfold Arr.ndim at *; rw [hab]; exact hax
  have hcx : AxisIs c.ndim axis ax := by unfold Arr.ndim at *; rw [hca]; exact hax
  refine ⟨_, _, _, C40_values hm hstep sqrt hax hn hs', C40_values hm hstep sqrt hb (by rw [hab]; exact hn) hs',
    C40_values hm hstep sqrt hcx (by rw [hca]; exact hn) hs', by simp, by simp, by simp, ?_⟩
  intro i hA hB hC idx hidx
  simp only [List.getElem_map, hab, hca]
  exact cwtLine_along_lin hab hca hc hax.2 rfl _ _ hidx

/-- C40.  Both methods return the same coefficients, however many scales share a padded size. -/
theorem C40_methods_agree {root : ℕ → E}
    (hroot : ∀ k, IsPrimitiveRoot (root (2 ^ k)) (2 ^ k) ∧ ((2 ^ k : ℕ) : E) ≠ 0) {psi : List E} (hpsi : psi ≠ [])
    {x0 xl step : K} (hstep : 0 < step) (hx : x0 < xl) (sqrt : K → E) {data : Arr M} {axis : ℤ} {ax : ℕ}
    (hax : AxisIs data.ndim axis ax) (hn : 1 ≤ data.shape.getD ax 0) (scales : List K) :
    cwt (.fft root) psi x0 xl step sqrt data axis scales = cwt .conv psi x0 xl step sqrt data axis scales := by
  by_cases h : ∀ s ∈ scales, 0 < s ∧ 1 < s * step * psi.length
  · have hg : ∀ s, ∃ g : List E, 0 < s → SampledAt psi x0 xl step s g := by
      intro s
      by_cases h : 0 < s
      · obtain ⟨g, h1, -⟩ := sampledAt_indices psi h hstep (x0 := x0) (xl := xl)
        exact ⟨g, fun _ => h1⟩
      · exact ⟨[], fun h' => absurd h' h⟩
    choose g hg using hg
    have hs' : ∀ s ∈ scales, 0 < s ∧ SampledAt psi x0 xl step s (g s) ∧ 2 ≤ (g s).length := fun s hm =>
      ⟨(h s hm).1, hg s (h s hm).1, ((hg s (h s hm).1).two (h s hm).1 hstep hx).mpr (h s hm).2⟩
    rw [C40_values (method := .fft root) hroot hstep sqrt hax hn hs',
      C40_values (method := .conv) trivial hstep sqrt hax hn hs']
  · have hbad : ∃ s ∈ scales, s ≤ 0 ∨ s * step * psi.length ≤ 1 := by
      push Not at h
      obtain ⟨s, h1, h2⟩ := h
      refine ⟨s, h1, ?_⟩
      by_cases h0 : 0 < s
      · exact Or.inr (h2 h0)
      · exact Or.inl (not_lt.mp h0)
    have : ∀ method : CwtMethod E, MethodOk method →
        cwt method psi x0 xl step sqrt data axis scales = .error .value := by
      intro method hm
      rcases C40_accepts hm hpsi hstep hx sqrt hax hn scales with ⟨h', -⟩ | ⟨-, h'⟩
      · exact absurd h' h
      · exact h'
    rw [this (.fft root) hroot, this .conv trivial]

/-- C40, a limit of the checks: for 1-D data the axis is ignored, so an axis that does not exist is accepted. -/
theorem C40_axis_ignored {method : CwtMethod E} (psi : List E) (x0 xl step : K) (sqrt : K → E) {data : Arr M}
    (hd : data.ndim = 1) (axis axis' : ℤ) (scales : List K) :
    cwt method psi x0 xl step sqrt data axis scales = cwt method psi x0 xl step sqrt data axis' scales := by
  unfold cwt cwtRun
  rw [hd]
  simp

/-- The complex roots of unity satisfy the hypothesis on `root`. -/
example : MethodOk (.fft fun n => Complex.exp (2 * Real.pi * Complex.I / n)) := by
  intro k
  exact ⟨Complex.isPrimitiveRoot_exp _ (by positivity), by exact_mod_cast (by positivity : (2 ^ k : ℕ) ≠ 0)⟩

/-- A 2×3 array, transformed along its rows at the scales 1 and 2 for a triangle-shaped integrated wavelet. -/
example : (cwt (K := ℚ) (E := ℚ) (M := ℚ) .conv [0, 1, 2, 1, 0] 0 2 (1 / 2) (fun s => s) ⟨[2, 3], [1, 2, 4, 3, 0, 5], rfl⟩
    (-1) [1, 2]) = .ok [⟨[2, 3], [-2, -2, -4, -6, 6, -10], by decide⟩, ⟨[2, 3], [-6, -10, -2, -6, -4, -4], by decide⟩] := by
  decide +kernel

example : (cwt (K := ℚ) (E := ℚ) (M := ℚ) .conv [0, 1, 2, 1, 0] 0 2 (1 / 2) (fun s => s) ⟨[2, 3], [1, 2, 4, 3, 0, 5], rfl⟩
    0 [1 / 4, 1]) = .error .value := by
  decide +kernel

end Pywt
