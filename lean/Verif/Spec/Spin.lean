import Verif.Spec.Swt
import Verif.Spec.Multi

/-!
# Specification: decimation of stationary coefficients, and editing of coefficients
-/

namespace Pywt
namespace Spec

variable {M : Type} [AddCommGroup M]

/-- Every `2^j`-th sample of `x`, starting with sample `r`; indices are taken circularly. -/
def decimate (j : ℕ) (r : ℤ) (x : List M) : List M :=
  (List.range (x.length / 2 ^ j)).map fun k : ℕ => at' x ((r + 2 ^ j * k) % x.length)

/-- Details listed from the coarsest level on: the array followed by `n` others has level `n + 1`, and is
decimated by `2^(n+1)`. -/
def decimateDetails (r : ℤ) : List (List M) → List (List M)
  | [] => []
  | d :: ds => decimate (ds.length + 1) r d :: decimateDetails r ds

/-- An approximation and details listed from the coarsest level on, all decimated with offset `r`. -/
def decimateAll (r : ℤ) : List (List M) → List (List M)
  | [] => []
  | a :: ds => decimate ds.length r a :: decimateDetails r ds

/-- Coefficient arrays edited sample by sample, array `i` with the function `g i`. -/
def editAll (g : ℕ → M → M) (cs : List (List M)) : List (List M) := cs.mapIdx fun i c => c.map (g i)

end Spec
end Pywt
