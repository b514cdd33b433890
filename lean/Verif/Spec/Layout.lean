import Verif.Model.AxisPy

/-!
# Specification: arrays with arbitrary strides
-/

namespace Pywt

variable {M : Type} [AddCommGroup M]

/-- The C-ordered copy of an array in memory. -/
def Mem.copy (c : Mem M) : Arr M := Arr.ofFn c.info.shape c.get

end Pywt
