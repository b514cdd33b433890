import Verif.Model.MultilevelN

/-!
# Model of `wavedecn_shapes`, `wavedecn_size` and `dwtn_max_level` (`pywt/_multilevel.py`)
-/

namespace Pywt

variable {R M : Type} [Zero R] [Zero M] [Add M] [Neg M] [Sub M] [SMul ℕ M] [SMul R M]

/-- An entry of the list returned by `wavedecn_shapes`. -/
inductive ShapeItem
  | shape (s : List Nat)
  | dict (d : List (Key × List Nat))
  deriving DecidableEq, Repr

/-- `l[i] = v` for an `i` that may be negative. -/
def pySet {α : Type} (l : List α) (i : Int) (v : α) : Py (List α) :=
  if 0 ≤ i then
    if i.toNat < l.length then pure (l.set i.toNat v) else throw .index
  else if -i ≤ l.length then pure (l.set (l.length - (-i).toNat) v) else throw .index

/-- `for k in detail_keys: new_shapes[k][axis] = s` (_multilevel.py L937-938). -/
def setAll (axis : Int) (s : Nat) : List (Key × List Nat) → Py (List (Key × List Nat))
  | [] => pure []
  | (k, sh) :: rest => do
      let sh ← pySet sh axis s
      let rest ← setAll axis s rest
      pure ((k, sh) :: rest)

/-- `shape[axis]` -/
def shapeAt (shape : List Nat) (axis : Int) : Py Nat :=
  match pyIndex shape axis with
  | none => throw .index
  | some n => pure n

/-- `for axis, wav, mode in zip(axes, wavelets, modes)` (_multilevel.py L935-938). -/
def shapesStep (shape : List Nat) : List (Int × Wavelet R × Mode) → List (Key × List Nat) →
    Py (List (Key × List Nat))
  | [], ns => pure ns
  | (axis, w, mode) :: rest, ns => do
      let n ← shapeAt shape axis
      let s ← dwtCoeffLen n w.dec_len mode
      let ns ← setAll axis s ns
      shapesStep shape rest ns

/-- The loop over the levels (_multilevel.py L932-942). -/
def shapesLoop (stages : List (Int × Wavelet R × Mode)) (naxes : Nat) :
    Nat → List Nat → List (List (Key × List Nat)) → Py (List Nat × List (List (Key × List Nat)))
  | 0, shape, acc => pure (shape, acc)
  | n + 1, shape, acc => do
      let ns ← shapesStep shape stages ((words naxes).map fun k => (k, shape))
      let a ← lookupKey ns (aKey naxes)
      shapesLoop stages naxes n a (acc ++ [eraseKey ns (aKey naxes)])

/-- `min(l)` of a non-empty list; `ValueError` otherwise. -/
def pyMin (l : List Nat) : Py Nat :=
  match l.min? with
  | none => throw .value
  | some n => pure n

/-- `max(l)` of a non-empty list; `ValueError` otherwise. -/
def pyMax (l : List Nat) : Py Nat :=
  match l.max? with
  | none => throw .value
  | some n => pure n

/-- `wavedecn_shapes` (_multilevel.py L890-945). -/
def wavedecnShapes (shape : List Nat) (wavelet : PerAxis (Wavelet R)) (mode : PerAxis Mode)
    (level : Option Int) (axes : Option (List Int)) : Py (List ShapeItem) := do
  let (axes, axes_shapes) ← prepAxes shape axes
  let wavelets ← wavelet.expand axes.length
  let modes ← mode.expand axes.length
  let m ← pyMin axes_shapes
  let f ← pyMax (wavelets.map (·.dec_len))
  let level ← checkLevel [m] [f] level
  let (a, ds) ← shapesLoop (zipStages axes wavelets modes) axes.length level shape []
  pure (.shape a :: (ds.map ShapeItem.dict).reverse)

/-- The loop of `wavedecn_size` on shapes (_multilevel.py L981-987). -/
def sizeShapes : List ShapeItem → Nat → Py Nat
  | [], n => pure n
  | .shape _ :: _, _ => throw .attr
  | .dict d :: rest, n => sizeShapes rest (d.foldl (fun n p => n + p.2.prod) n)

/-- `wavedecn_size` of a list of shapes (_multilevel.py L948-988). -/
def wavedecnSizeShapes : List ShapeItem → Py Nat
  | [] => throw .index
  | .dict _ :: _ => throw .type
  | .shape s :: ds => sizeShapes ds s.prod

/-- The inner loop of `wavedecn_size` on arrays (_multilevel.py L982-987). -/
def sizeDict : CDict M → Nat → Py Nat
  | [], n => pure n
  | (_, none) :: _, _ => throw .value
  | (_, some a) :: rest, n => sizeDict rest (n + a.data.length)

/-- The outer loop of `wavedecn_size` on arrays (_multilevel.py L981-987). -/
def sizeDicts : List (Item M) → Nat → Py Nat
  | [], n => pure n
  | .dict d :: rest, n => do
      let n ← sizeDict d n
      sizeDicts rest n
  | _ :: _, _ => throw .attr

/-- `wavedecn_size` of a list of coefficient arrays (_multilevel.py L948-988).  A first entry that is
neither an array nor a shape is not modelled further. -/
def wavedecnSize : List (Item M) → Py Nat
  | [] => throw .index
  | .arr a :: ds => sizeDicts ds a.data.length
  | _ :: _ => throw .type

/-- `dwtn_max_level` (_multilevel.py L991-1031). -/
def dwtnMaxLevel (shape : List Nat) (wavelet : PerAxis (Wavelet R)) (axes : Option (List Int)) :
    Py Nat := do
  let (axes, axes_shapes) ← prepAxes shape axes
  let wavelets ← wavelet.expand axes.length
  let ls ← (axes_shapes.zip wavelets).mapM fun p => dwtMaxLevel p.1 p.2.dec_len
  pyMin ls

end Pywt
