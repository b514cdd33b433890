import Verif.Model.Pad
import Verif.Model.Arr

/-!
# Model of `pad` (`pywt/_dwt.py` L404-516) for n-D arrays

`numpy.pad` is not part of the code; it is modelled in its documented meaning: it extends one axis after another, in the
order of the axes.
-/

namespace Pywt

variable {M : Type}

/-- The argument `pad_widths` for integers: a number, a sequence of numbers or a sequence of rows. -/
inductive PadWidths
  | int (k : ℤ)
  | row (l : List ℤ)
  | rows (l : List (List ℤ))

/-- All numbers in `pad_widths`. -/
def PadWidths.values : PadWidths → List ℤ
  | .int k => [k]
  | .row l => l
  | .rows l => l.flatten

/-- A row broadcast to two columns. -/
def broadcastRow : List ℤ → Py (ℤ × ℤ)
  | [a] => .ok (a, a)
  | [a, b] => .ok (a, b)
  | _ => .error .value

/-- `np.broadcast_to(pad_widths, (x.ndim, 2)).tolist()` (_dwt.py L442, L446); `np.array` raises for rows of different
lengths. -/
def PadWidths.broadcast (ndim : ℕ) : PadWidths → Py (List (ℤ × ℤ))
  | .int k => .ok (List.replicate ndim (k, k))
  | .row l => do
      let p ← broadcastRow l
      .ok (List.replicate ndim p)
  | .rows l => do
      if l.any fun row => row.length ≠ (l.headD []).length then throw .value
      let ps ← l.mapM broadcastRow
      match ps with
      | [p] => .ok (List.replicate ndim p)
      | ps => if ps.length = ndim then .ok ps else .error .value

/-- The elements of `a` along the axis through `idx`. -/
def Arr.vec [Zero M] (a : Arr M) (axis : ℕ) (idx : ℕ → ℕ) : List M :=
  (List.range (a.shape.getD axis 0)).map fun j : ℕ => a.get fun k => if k = axis then j else idx k

/-- `numpy.pad` of one axis: an axis without elements cannot be extended by anything but zeros. -/
def npPadAxis [AddCommGroup M] (m : NpMode) (axis l r : ℕ) (a : Arr M) : Py (Arr M) :=
  let n := a.shape.getD axis 0
  if n = 0 ∧ m ≠ .constant ∧ (0 < l ∨ 0 < r) then .error .value
  else
    let m := if n = 1 ∧ (m = .symmetric ∨ m = .reflect ∨ m = .reflectOdd) then .edge else m
    .ok (Arr.ofFn (a.shape.set axis (l + n + r)) fun idx =>
      npAt m (a.vec axis idx) (2 * (l + n + r) + 2) ((idx axis : ℤ) - l))

/-- The loop of `numpy.pad` over the axes `k, k+1, …`. -/
def npPadLoop [AddCommGroup M] (m : NpMode) : ℕ → List (ℕ × ℕ) → Arr M → Py (Arr M)
  | _, [], a => .ok a
  | k, (l, r) :: ws, a => do
      let a ← npPadAxis m k l r a
      npPadLoop m (k + 1) ws a

/-- `np.pad(x, pad_widths, mode)` for `pad_widths` with one pair for each axis.  Without axes `pad_widths` is an empty
list, which is an array of floats for NumPy and raises `TypeError`. -/
def npPadN [AddCommGroup M] (m : NpMode) (x : Arr M) (ws : List (ℕ × ℕ)) : Py (Arr M) :=
  if ws = [] then .error .type else npPadLoop m 0 ws x

/-- `np.pad` calling a function on all vectors along one axis: the function changes the vectors in place, one after
another in the order of the other indices. -/
def funAxis [Zero M] (f : List M → ℕ → ℕ → Py (List M)) (axis l r : ℕ) (a : Arr M) : Py (Arr M) := do
  let others := a.shape.set axis 1
  let vs ← (List.range others.prod).mapM fun p => f (a.vec axis (unravelIx others others.length p)) l r
  .ok (Arr.ofFn a.shape fun idx =>
    (vs.getD (ravelIx others (fun k => if k = axis then 0 else idx k) others.length) []).getD (idx axis) 0)

/-- The loop over the axes. -/
def funLoop [Zero M] (f : List M → ℕ → ℕ → Py (List M)) : ℕ → List (ℕ × ℕ) → Arr M → Py (Arr M)
  | _, [], a => .ok a
  | k, (l, r) :: ws, a => do
      let a ← funAxis f k l r a
      funLoop f (k + 1) ws a

/-- `np.pad(x, pad_widths, function)`: the array between zeros, then the function on all vectors of every axis, also
on those in the part that is still zero. -/
def npPadFun [AddCommGroup M] (f : List M → ℕ → ℕ → Py (List M)) (x : Arr M) (ws : List (ℕ × ℕ)) : Py (Arr M) := do
  let padded ← npPadN .constant x ws
  funLoop f 0 ws padded

/-- The choice by mode (_dwt.py L448-515). -/
def padModeN [AddCommGroup M] (x : Arr M) (ws : List (ℕ × ℕ)) (mode : String) : Py (Arr M) :=
  if mode = "symmetric" then npPadN .symmetric x ws
  else if mode = "reflect" then npPadN .reflect x ws
  else if mode = "periodic" then npPadN .wrap x ws
  else if mode = "periodization" then do
    let x ← npPadN .edge x (x.shape.map fun n => (0, n % 2))
    npPadN .wrap x ws
  else if mode = "zero" then npPadN .constant x ws
  else if mode = "constant" then npPadN .edge x ws
  else if mode = "smooth" then npPadFun padSmooth x ws
  else if mode = "antisymmetric" then npPadFun padAntisymmetric x ws
  else if mode = "antireflect" then npPadN .reflectOdd x ws
  else .error .value

/-- `pad` (_dwt.py L404-516).  `pad_widths` that are not integers, which the code rounds, are not modelled; the minimum
of no numbers is a `ValueError`. -/
def padN [AddCommGroup M] (x : Arr M) (pad_widths : PadWidths) (mode : String) : Py (Arr M) := do
  if pad_widths.values = [] then throw .value
  if pad_widths.values.any (· < 0) then throw .value
  let ws ← pad_widths.broadcast x.ndim
  padModeN x (ws.map fun p => (p.1.toNat, p.2.toNat)) mode

end Pywt
