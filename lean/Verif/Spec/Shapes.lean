import Verif.Model.Shapes
import Verif.Spec.MultilevelN

/-!
# Specification: shapes and sizes of coefficient lists
-/

namespace Pywt

variable {M : Type}

/-- What `wavedecn_shapes` says about a coefficient: the shape of each array in place of the array
(`None` has no shape). -/
def Item.shapes : Item M → ShapeItem
  | .arr a => .shape a.shape
  | .dict d => .dict (d.filterMap fun p => p.2.map fun a => (p.1, a.shape))
  | _ => .shape []

/-- Number of samples held by an entry of a coefficient list. -/
def Item.count : Item M → ℕ
  | .null => 0
  | .arr a => a.data.length
  | .dict d => (d.map fun p => (p.2.map fun a => a.data.length).getD 0).sum
  | .tup l => (l.map fun p => (p.map fun a => a.data.length).getD 0).sum

end Pywt
