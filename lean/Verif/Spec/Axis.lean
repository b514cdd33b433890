import Verif.Model.AxisPy
import Mathlib.Logic.Function.Basic

/-!
# Specification of operations along one axis of an n-D array

A *line* of an array along an axis is the list of the elements whose other coordinates are fixed.
A 1-D operation is applied along an axis by applying it to every line.
-/

namespace Pywt

variable {M : Type} [Zero M]

/-- The line of `a` along `axis` through the index `idx` (`idx axis` is irrelevant). -/
def Arr.line (a : Arr M) (axis : ℕ) (idx : ℕ → ℕ) : List M :=
  (List.range (a.shape.getD axis 0)).map fun j : ℕ => a.get (Function.update idx axis j)

/-- `g` applied to every line of `a` along `axis`; `n` is the length of its results. -/
def Arr.along (axis n : ℕ) (g : List M → List M) (a : Arr M) : Arr M :=
  Arr.ofFn (a.shape.set axis n) fun idx => (g (a.line axis idx)).getD (idx axis) 0

/-- `g` applied to every pair of corresponding lines of `a` and `b`. -/
def Arr.along2 (axis n : ℕ) (g : List M → List M → List M) (a b : Arr M) : Arr M :=
  Arr.ofFn (a.shape.set axis n) fun idx =>
    (g (a.line axis idx) (b.line axis idx)).getD (idx axis) 0

end Pywt
