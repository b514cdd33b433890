import Verif.Model.Pack
import Mathlib.Data.List.Sort
import Mathlib.Data.List.Lex
import Mathlib.Data.Char

/-!
# Model of `ravel_coeffs` and `unravel_coeffs` (`pywt/_multilevel.py`)

A raveled array is a list of samples.  Not modelled: dtypes, an `arr` argument that is not 1-D.
-/

namespace Pywt

variable {M : Type} [Zero M]

/-- `arr[sl]` for a 1-D array. -/
def getRange (arr : List M) (sl : Slice) : List M :=
  (arr.drop (sl.lo arr.length)).take (sl.len arr.length)

/-- `arr[sl] = v` for 1-D arrays; a `v` of one element is broadcast. -/
def setRange (arr : List M) (sl : Slice) (v : List M) : Py (List M) :=
  let lo := sl.lo arr.length
  let n := sl.len arr.length
  if v.length = n then pure (arr.take lo ++ v ++ arr.drop (lo + n))
  else match v with
    | [x] => pure (arr.take lo ++ List.replicate n x ++ arr.drop (lo + n))
    | _ => throw .value

/-- `v.reshape(shape)` -/
def reshape (v : List M) (shape : List Nat) : Py (Arr M) :=
  if h : v.length = shape.prod then pure ⟨shape, v, h⟩ else throw .value

/-- An entry of `coeff_slices`. -/
inductive RSlice
  | one (s : Slice)
  | dict (d : List (Key × Slice))
  deriving DecidableEq, Repr

/-- `sorted(coeff_dict.keys())`, with the values (_multilevel.py L1107): strings are compared
lexicographically by code points.  The order of equal keys is irrelevant, the keys of a dict are
distinct. -/
def sortItems {α : Type} (c : List (Key × α)) : List (Key × α) :=
  c.insertionSort fun p q => p.1 ≤ q.1

/-- `for key in keys` (_multilevel.py L1108-1114). -/
def ravelDict : CDict M → Nat → List M → List (Key × Slice) → List (Key × List Nat) →
    Py (Nat × List M × List (Key × Slice) × List (Key × List Nat))
  | [], offset, arr, sls, shs => pure (offset, arr, sls, shs)
  | (_, none) :: _, _, _, _, _ => throw .attr
  | (key, some d) :: rest, offset, arr, sls, shs => do
      let sl : Slice := ⟨offset, some (offset + d.data.length)⟩
      let arr ← setRange arr sl d.data
      ravelDict rest (offset + d.data.length) arr (sls ++ [(key, sl)]) (shs ++ [(key, d.shape)])

/-- The loop over the dicts of details (_multilevel.py L1099-1114). -/
def ravelLoop : List (Item M) → Nat → List M → List RSlice → List ShapeItem →
    Py (List M × List RSlice × List ShapeItem)
  | [], _, arr, sls, shs => pure (arr, sls, shs)
  | .dict c :: ds, offset, arr, sls, shs => do
      if c.any fun p => p.2.isNone then throw .value
      let (offset, arr, sl, sh) ← ravelDict (sortItems c) offset arr [] []
      ravelLoop ds offset arr (sls ++ [.dict sl]) (shs ++ [.dict sh])
  | _ :: _, _, _, _, _ => throw .attr

/-- `ravel_coeffs` (_multilevel.py L1034-1116).  `junk` is the contents of the memory returned by
`np.empty`. -/
def ravelCoeffs (coeffs : List (Item M)) (axes : Option (List Int)) (junk : Nat → M) :
    Py (List M × List RSlice × List ShapeItem) := do
  let (a, ds) ← headArr coeffs
  let ds ← detailsToN ds
  match ds with
  | [] => pure (a.data, [.one ⟨0, some a.data.length⟩], [.shape a.shape])
  | d0 :: ds' => do
      let ndim_transform ← firstKeyLen (d0 :: ds')
      let _ ← packAxes a.ndim ndim_transform axes
      let arr_size ← wavedecnSize (.arr a :: d0 :: ds')
      let arr := (List.range arr_size).map junk
      let a_slice : Slice := ⟨0, some a.data.length⟩
      let arr ← setRange arr a_slice a.data
      ravelLoop (d0 :: ds') a.data.length arr [.one a_slice] [.shape a.shape]

/-- `arr[sl].reshape(shape)` -/
def readReshape (arr : List M) (sl : Slice) (shape : List Nat) : Py (Arr M) :=
  reshape (getRange arr sl) shape

/-- `{k: arr[v].reshape(shape_dict[k]) for k, v in …}` (_multilevel.py L1183-1186). -/
def unravelDict (arr : List M) (sh : List (Key × List Nat)) : List (Key × Slice) → Py (CDict M)
  | [] => pure []
  | (k, sl) :: rest => do
      let s ← lookupKey sh k
      let v ← readReshape arr sl s
      let rest ← unravelDict arr sh rest
      pure ((k, some v) :: rest)

/-- `arr[slice_dict[k]].reshape(shape_dict[k])` -/
def unravelKey (arr : List M) (d : List (Key × Slice)) (sh : List (Key × List Nat)) (k : Key) :
    Py (Arr M) := do
  let sl ← lookupKey d k
  let s ← lookupKey sh k
  readReshape arr sl s

/-- The body of the loop of `unravel_coeffs` (_multilevel.py L1172-1190).  `'swt'`, `'swt2'` and
`'swtn'` are treated like the corresponding `wavedec` formats. -/
def unravelItem (arr : List M) (fmt : OutFormat) : RSlice → ShapeItem → Py (Item M)
  | .dict d, .dict sh =>
      match fmt with
      | .other => throw .value
      | .wavedec => do
          let v ← unravelKey arr d sh ['d']
          pure (.arr v)
      | .wavedec2 => do
          let da ← unravelKey arr d sh ['d', 'a']
          let ad ← unravelKey arr d sh ['a', 'd']
          let dd ← unravelKey arr d sh ['d', 'd']
          pure (.tup [some da, some ad, some dd])
      | .wavedecn => do
          let c ← unravelDict arr sh d
          pure (.dict c)
  | _, _ => throw .type

/-- The loop of `unravel_coeffs`. -/
def unravelLoop (arr : List M) (fmt : OutFormat) : List RSlice → List ShapeItem → Py (List (Item M))
  | sl :: sls, sh :: shs => do
      let c ← unravelItem arr fmt sl sh
      let rest ← unravelLoop arr fmt sls shs
      pure (c :: rest)
  | _, _ => pure []

/-- `unravel_coeffs` (_multilevel.py L1119-1191). -/
def unravelCoeffs (arr : List M) (slices : List RSlice) (shapes : List ShapeItem)
    (fmt : OutFormat) : Py (List (Item M)) :=
  if slices.length = 0 then throw .value
  else if shapes.length = 0 then throw .value
  else if shapes.length ≠ slices.length then throw .value
  else match slices, shapes with
    | .one sl :: sls, .shape s :: shs => do
        let a ← readReshape arr sl s
        let ds ← unravelLoop arr fmt sls shs
        pure (.arr a :: ds)
    | _, _ => throw .type

end Pywt
