import Verif.Spec.Packet
import Verif.Spec.Transpose

/-!
# Words used by property C92
-/

namespace Pywt.Spec

/-- The part of a 2-D node of the transposed image: horizontal and vertical details change places. -/
def swapHV (c : Char) : Char := if c = 'h' then 'v' else if c = 'v' then 'h' else c

end Pywt.Spec
