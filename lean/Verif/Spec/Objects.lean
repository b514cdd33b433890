import Verif.Spec.Ext

/-!
# Specification: names of the extension modes, arguments given once or per axis, filter banks

Independent of the model of the code.
-/

namespace Pywt
namespace Spec

/-- The documented name of each mode. -/
def Mode.docName : Mode → String
  | .zero => "zero"
  | .symmetric => "symmetric"
  | .constant => "constant"
  | .smooth => "smooth"
  | .periodic => "periodic"
  | .periodization => "periodization"
  | .reflect => "reflect"
  | .antisymmetric => "antisymmetric"
  | .antireflect => "antireflect"

/-- The deprecated three-letter names. -/
def Mode.oldName : Mode → Option String
  | .zero => some "zpd"
  | .constant => some "cpd"
  | .symmetric => some "sym"
  | .periodic => some "ppd"
  | .smooth => some "sp1"
  | .periodization => some "per"
  | _ => none

/-- How a sequence `l` given for `n` axes is used: one item serves all axes, otherwise there is one item
per axis. -/
inductive UsedFor {α : Type} : List α → ℕ → List α → Prop
  | same (a : α) (n : ℕ) : UsedFor [a] n (List.replicate n a)
  | each (l : List α) (h : l.length ≠ 1) : UsedFor l l.length l

/-- The number of axes a call transforms. -/
def axesCount (ndim : ℕ) (axes : Option (List Int)) : ℕ := (axes.map List.length).getD ndim

/-- A filter padded with one zero to even length. -/
def padEven {R : Type} [Zero R] (f : List R) : List R := if f.length % 2 = 1 then f ++ [0] else f

end Spec
end Pywt
