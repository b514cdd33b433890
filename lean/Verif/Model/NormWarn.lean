import Verif.Model.Objects
import Verif.Model.Swt

/-!
# The warning of `swt` with `norm=True`
-/

namespace Pywt

variable {R M : Type} [Mul R] [Zero R] [Zero M] [Add M] [Neg M] [Sub M] [SMul ℕ M] [SMul R M]

/-- `pywt.swt` on 1-D data (_swt.py L28-153) for a `Wavelet` object, with the warning "the wavelet is not orthogonal: The conditions
for energy preservation are not satisfied" (L134-138).  (A warning before an exception is not recorded.) -/
def swtWarn (o : WaveletObj R) (level : Option Int) (start_level : Int) (trim_approx : Bool) (norm : Option R) (data : List M) :
    Py (SwtCoeffs (List M) × Bool) := do
  let warned := match norm with
    | none => false
    | some _ => !o.orthogonal
  let r ← swt o.w level start_level trim_approx norm data
  pure (r, warned)

end Pywt
