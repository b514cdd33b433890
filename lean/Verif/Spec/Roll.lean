import Verif.Spec.Swt

/-!
# Words used by property C83
-/

namespace Pywt.Spec

variable {M : Type} [AddCommGroup M]

/-- An approximation and details listed from the coarsest level on, shifted circularly: the approximation and the coarsest
details by `c`, the next details by `2c`, the next by `4c`, and so on. -/
def shiftAll (c : ℤ) : List (List M) → List (List M)
  | [] => []
  | a :: ds => shift c a :: ds.mapIdx fun i d => shift (2 ^ i * c) d

end Pywt.Spec
