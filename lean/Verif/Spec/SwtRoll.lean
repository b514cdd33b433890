import Verif.Spec.RollN
import Verif.Model.SwtN

/-!
# Words used by property C87
-/

namespace Pywt.Spec

variable {M : Type} [AddCommGroup M]

/-- Every array of a result of `swtn` is changed by `f`. -/
def mapSwtN (f : Arr M → Arr M) : SwtN M → SwtN M
  | .dicts l => .dicts (l.map fun d => d.map fun p => (p.1, f p.2))
  | .trimmed a l => .trimmed (f a) (l.map fun d => d.map fun p => (p.1, f p.2))

end Pywt.Spec
