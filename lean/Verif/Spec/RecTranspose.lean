import Verif.Spec.RecN
import Verif.Spec.Transpose

/-!
# Words used by property C89
-/

namespace Pywt.Spec

variable {M : Type} [AddCommGroup M]

/-- A dict with all its arrays changed by `f`. -/
def mapDict (f : Arr M → Arr M) (d : List (List Char × Arr M)) : List (List Char × Arr M) := d.map fun p => (p.1, f p.2)

end Pywt.Spec
