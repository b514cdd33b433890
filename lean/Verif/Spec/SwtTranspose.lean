import Verif.Spec.SwtRoll
import Verif.Spec.SwtN
import Verif.Spec.Transpose

/-!
# Words used by property C88
-/

namespace Pywt.Spec

variable {R : Type}

/-- The number that axis `a` of the array has in the transposed array, with the same wavelet. -/
def tSStage (π : Equiv.Perm ℕ) (s : SStage R) : SStage R := (π.symm s.1, s.2)

end Pywt.Spec
