import Verif.Spec.Bank
import Mathlib.Analysis.Real.Sqrt
import Mathlib.Analysis.SpecialFunctions.Trigonometric.Basic

/-!
# Specification: sampled scaling functions and wavelets

A list `f` of samples stands for the function on the integers that is `f[m]` at `m` and zero outside (`tap f m`).  At
level `l` the position `m` stands for the point `m / 2^l`.
-/

namespace Pywt
namespace Spec

/-- The samples `f` have `m / 2^l` as their grid. -/
def DyadicGrid (l : ℕ) (x : List ℝ) : Prop := ∀ m < x.length, x.getD m 0 = m / 2 ^ l

/-- Two-scale equation: the samples `f` at level `l+1` are those of `√2 Σ_k h_k φ(2x-k)`, where `φ` has the samples
`phi` at level `l`.  (At the point `m/2^(l+1)`, `2x-k` is `(m - 2^l k)/2^l`.) -/
def TwoScale (h : List ℝ) (l : ℕ) (f phi : List ℝ) : Prop :=
  ∀ m : ℤ, tap f m = √2 * ∑ k ∈ Finset.range h.length, h.getD k 0 * tap phi (m - 2 ^ l * k)

/-- Riemann sum of the integral of a function with the samples `f` at level `l`. -/
noncomputable def integral (l : ℕ) (f : List ℝ) : ℝ := f.sum / 2 ^ l

/-- Riemann sum of the inner product of `f` with `g` translated by the integer `k`. -/
noncomputable def innerShift (l : ℕ) (f g : List ℝ) (k : ℤ) : ℝ :=
  (∑ m ∈ Finset.range f.length, f.getD m 0 * tap g (m - 2 ^ l * k)) / 2 ^ l

/-- The sum of all translates of `f` by integers, at the point `r / 2^l`. -/
noncomputable def translates (l : ℕ) (f : List ℝ) (r : ℤ) : ℝ :=
  ∑ m ∈ Finset.range f.length, if (2 ^ l : ℤ) ∣ m - r then f.getD m 0 else 0

/-- The even and the odd taps of a low-pass filter both sum to `1/√2`. -/
def SumRules (h : List ℝ) : Prop :=
  ∀ p < 2, (∑ k ∈ Finset.range h.length, if k % 2 = p then h.getD k 0 else 0) = 1 / √2

/-- The discrete Fourier transform of the samples, at the frequency with `k` cycles. -/
noncomputable def dft (psi : List ℂ) (k : ℕ) : ℂ :=
  ∑ i ∈ Finset.range psi.length, Complex.exp (-(2 * Real.pi * Complex.I * k * i / psi.length)) * psi.getD i 0

/-- `k` is the first of the frequencies other than zero at which the transform has the largest absolute value. -/
def FirstPeak (psi : List ℂ) (k : ℕ) : Prop :=
  1 ≤ k ∧ k < psi.length ∧ ∀ j, 1 ≤ j → j < psi.length → ‖dft psi j‖ ≤ ‖dft psi k‖ ∧ (j < k → ‖dft psi j‖ < ‖dft psi k‖)

/-- Cumulative sums times the step. -/
def IsIntegral {V : Type} [AddCommGroup V] [Module ℝ V] (psi : List V) (step : ℝ) (I : List V) : Prop :=
  I.length = psi.length ∧ ∀ i < psi.length, I.getD i 0 = step • ∑ j ∈ Finset.range (i + 1), psi.getD j 0

end Spec
end Pywt
