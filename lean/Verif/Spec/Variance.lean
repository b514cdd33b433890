import Verif.Spec.SwtN
import Verif.Props.DwtIdwt

/-!
# Words used by property C76
-/

namespace Pywt.Spec

variable {K : Type} [Field K]

/-- The variance of some numbers (`numpy.var`): the mean of the squares minus the square of the mean. -/
def variance (u : List K) : K := energy u / u.length - (u.sum / u.length) ^ 2

/-- Every wavelet of the argument is an orthogonal filter bank. -/
def AllOrthogonal : PerAxis (Wavelet K) → Prop
  | .one w => OrthogonalBank w
  | .many ws => ∀ w ∈ ws, OrthogonalBank w

end Pywt.Spec
