import Verif.Spec.Bank
import Mathlib.Logic.Function.Iterate

/-!
# Specification: the multilevel 1-D transform (Mallat's cascade)
-/

namespace Pywt
namespace Spec

variable {R M : Type} [Semiring R] [AddCommGroup M] [Module R M]

/-- Approximation coefficients of level `n`: the low-pass analysis step applied `n` times. -/
def approx (mode : Mode) (lo : List R) (n : ℕ) (x : List M) : List M :=
  (analysis mode lo)^[n] x

/-- Detail coefficients of level `n+1`: the high-pass analysis step applied to the approximation of
level `n`. -/
def detail (mode : Mode) (lo hi : List R) (n : ℕ) (x : List M) : List M :=
  analysis mode hi (approx mode lo n x)

/-- The cascade: `[cA_n, cD_n, …, cD_1]`. -/
def cascade (mode : Mode) (lo hi : List R) (n : ℕ) (x : List M) : List (List M) :=
  approx mode lo n x :: ((List.range n).map fun j => detail mode lo hi j x).reverse

/-- Length of the level-`n` approximation of a signal of `N` samples. -/
def approxLen (mode : Mode) (F N : ℕ) (n : ℕ) : ℕ := (fun N => coeffLen mode N F)^[n] N

/-- The signal lengths for which `n` levels can be computed: the arrays that are transformed at each
level are acceptable. -/
def LevelsOk (mode : Mode) (F N n : ℕ) : Prop := ∀ j < n, LenOk mode (approxLen mode F N j)

instance (mode : Mode) (F N n : ℕ) : Decidable (LevelsOk mode F N n) := by
  unfold LevelsOk; infer_instance

/-- Full upsampled convolution with zero padding: all `2L+F-2` positions computed by `upcoef`. -/
def upConvFull (f : List R) (c : List M) : List M :=
  (List.range (2 * c.length + f.length - 2)).map fun n : ℕ => conv f (upsample (ext .zero c)) n

end Spec
end Pywt
