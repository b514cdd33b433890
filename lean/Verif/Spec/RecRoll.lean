import Verif.Spec.RecN
import Verif.Spec.RollN

/-!
# Words used by property C90
-/

namespace Pywt.Spec

variable {R M : Type} [Ring R] [AddCommGroup M] [Module R M]

/-- Along the axis `ax` the approximation has the extent of the details at every level, so that nothing is cut off there. -/
def ExactAlong (st : List (Stage R)) (ax : ℕ) : List (List (List Char × Arr M)) → List ℕ → Prop
  | [], _ => True
  | d :: ds, sh => (detailShape d sh).getD ax 0 = sh.getD ax 0 ∧ ExactAlong st ax ds (synthShape st (detailShape d sh))

end Pywt.Spec
