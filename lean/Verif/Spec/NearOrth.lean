import Verif.Spec.Builtin
import Verif.Spec.Edit

/-!
# Specification: filter banks that are orthogonal up to a tolerance
-/

namespace Pywt
namespace Spec

/-- The analysis filters are the reversed synthesis filters, and the bank reconstructs up to `ε`. -/
def NearOrthogonal (ε : ℝ) (w : Wavelet ℝ) : Prop :=
  w.Ok ∧ w.dec_lo = w.rec_lo.reverse ∧ w.dec_hi = w.rec_hi.reverse ∧
    PRWithin ε w.dec_lo w.dec_hi w.rec_lo w.rec_hi

/-- The Euclidean distance of two signals of the same length. -/
noncomputable def distance (x y : List ℝ) : ℝ := √(dist2 x y)

/-- The Euclidean norm of a signal. -/
noncomputable def norm2 (x : List ℝ) : ℝ := √((x.map fun v => v * v).sum)

end Spec
end Pywt
