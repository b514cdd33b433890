import Verif.Spec.Rec2
import Verif.Spec.RecRoll
import Verif.Spec.RecTranspose

/-!
# Words used by property C93
-/

namespace Pywt.Spec

variable {M : Type} [AddCommGroup M]

/-- `(cH, cV, cD)` with all its arrays changed by `f`. -/
def map3 (f : Arr M → Arr M) (p : Arr M × Arr M × Arr M) : Arr M × Arr M × Arr M := (f p.1, f p.2.1, f p.2.2)

end Pywt.Spec
