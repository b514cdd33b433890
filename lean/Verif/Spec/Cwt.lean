import Verif.Spec.Bank
import Verif.Model.Cwt
import Mathlib.RingTheory.RootsOfUnity.PrimitiveRoots
import Mathlib.Algebra.Order.Floor.Ring

/-!
# Specification: continuous wavelet transform at one scale
-/

namespace Pywt
namespace Spec

variable {K E M : Type}

/-- `g` are the samples at scale `s` of a function tabulated as `psi` on the grid from `x0` to `xl` with the given
step: sample `i` is the table entry at position `⌊i/(s·step)⌋`, for all `i < s·(xl-x0)+1` for which there is such
an entry. -/
def SampledAt [Field K] [LinearOrder K] [FloorRing K] [Zero E] (psi : List E) (x0 xl step s : K) (g : List E) : Prop :=
  (∀ i : ℕ, i < g.length ↔ ((i : K) < s * (xl - x0) + 1 ∧ ⌊(i : K) / (s * step)⌋ < psi.length)) ∧
  ∀ i : ℕ, i < g.length → g.getD i 0 = psi.getD ⌊(i : K) / (s * step)⌋.toNat 0

/-- Coefficient `n` of the transform of `x` for the samples `g` of the integrated wavelet: the correlation of the
signal with the differences of the samples, centred at `n`, times `√s`. -/
def cwtCoeff [Ring E] [AddCommGroup M] [Module E M] (rt : E) (g : List E) (x : List M) (n : ℕ) : M :=
  rt • ∑ m ∈ Finset.range x.length,
    (tap g ((m : ℤ) - n + (g.length - 1 : ℕ) / 2 + 1) - tap g ((m : ℤ) - n + (g.length - 1 : ℕ) / 2)) • x.getD m 0

/-- The row of all coefficients. -/
def cwtLine [Ring E] [AddCommGroup M] [Module E M] (rt : E) (g : List E) (x : List M) : List M :=
  (List.range x.length).map fun n : ℕ => cwtCoeff rt g x n

/-- The method is `conv`, or `fft` with primitive roots of unity for the powers of two. -/
def MethodOk [Field E] (method : CwtMethod E) : Prop :=
  match method with
  | .conv => True
  | .fft root => ∀ k, IsPrimitiveRoot (root (2 ^ k)) (2 ^ k) ∧ ((2 ^ k : ℕ) : E) ≠ 0
  | .other => False

end Spec
end Pywt
