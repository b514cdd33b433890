import Verif.Spec.Roll
import Verif.Spec.MultilevelN

/-!
# Words used by property C84
-/

namespace Pywt.Spec

variable {M : Type} [AddCommGroup M]

/-- `np.roll(x, c, axis)`: every line along the axis is shifted circularly. -/
def Arr.roll (axis : ℕ) (c : ℤ) (x : Arr M) : Arr M := x.along axis (x.shape.getD axis 0) (shift c)

/-- Every array of an entry of a coefficient list is changed by `f`. -/
def mapItem (f : Arr M → Arr M) : Item M → Item M
  | .null => .null
  | .arr a => .arr (f a)
  | .dict d => .dict (d.map fun p => (p.1, p.2.map f))
  | .tup l => .tup (l.map (Option.map f))

/-- Coefficients `[cA_l, details of level l, …, details of level 1]` with `cA_l` and the details of level `l` rolled by `c` along
an axis, the details of the next level by `2c`, the next by `4c`, and so on. -/
def rollLevels (axis : ℕ) (c : ℤ) : List (Item M) → List (Item M)
  | [] => []
  | a :: ds => mapItem (Arr.roll axis c) a :: ds.mapIdx fun i d => mapItem (Arr.roll axis (2 ^ i * c)) d

end Pywt.Spec
