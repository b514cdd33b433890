import Verif.Model.Shapes

/-!
# Model of `coeffs_to_array` and `array_to_coeffs` (`pywt/_multilevel.py`)

Not modelled here: dtypes (`dtype=a_coeffs.dtype` for the packed array, see `Verif.Model.DType`), subclasses, and `coeffs` that is
not a list.
-/

namespace Pywt

variable {M : Type} [Zero M]

/-- `slice(start, stop)` with non-negative bounds; `stop = none` is `None`. -/
structure Slice where
  start : Nat
  stop : Option Nat
  deriving DecidableEq, Repr

/-- `slice(None)` -/
def Slice.full : Slice := ⟨0, none⟩

/-- First position selected by a slice of an axis of length `n`. -/
def Slice.lo (s : Slice) (n : Nat) : Nat := min s.start n

/-- Number of positions selected by a slice of an axis of length `n`. -/
def Slice.len (s : Slice) (n : Nat) : Nat := min (s.stop.getD n) n - s.lo n

/-- Shape of `a[slices]`. -/
def sliceShape (shape : List Nat) (sl : List Slice) : List Nat :=
  shape.mapIdx fun k n => (sl.getD k .full).len n

/-- Position of the first element of `a[slices]`. -/
def sliceLo (shape : List Nat) (sl : List Slice) (k : Nat) : Nat :=
  (sl.getD k .full).lo (shape.getD k 0)

/-- `a[slices]`; axes without a slice are taken entirely, too many slices are an `IndexError`. -/
def Arr.getSlices (a : Arr M) (sl : List Slice) : Py (Arr M) :=
  if a.ndim < sl.length then throw .index
  else pure (Arr.ofFn (sliceShape a.shape sl) fun idx => a.get fun k => sliceLo a.shape sl k + idx k)

/-- NumPy's broadcasting rule for assigning an array of shape `v` to a region of shape `region`.
Simplification: NumPy also drops leading axes of length one from `v`. -/
def bcastOk (region v : List Nat) : Bool :=
  decide (v.length ≤ region.length) &&
    (List.range v.length).all fun k =>
      decide (v.getD k 0 = 1) || decide (v.getD k 0 = region.getD (region.length - v.length + k) 0)

/-- The index of `v` that is assigned to the index `idx` of the region. -/
def bcastIx (region v : List Nat) (idx : Nat → Nat) (k : Nat) : Nat :=
  if v.getD k 0 = 1 then 0 else idx (region.length - v.length + k)

/-- Does the region selected by the slices contain the index? -/
def inSlices (shape : List Nat) (sl : List Slice) (idx : Nat → Nat) : Bool :=
  (List.range shape.length).all fun k =>
    decide (sliceLo shape sl k ≤ idx k) &&
      decide (idx k < sliceLo shape sl k + (sliceShape shape sl).getD k 0)

/-- `a[slices] = v` -/
def Arr.setSlices (a : Arr M) (sl : List Slice) (v : Arr M) : Py (Arr M) :=
  if a.ndim < sl.length then throw .index
  else if !bcastOk (sliceShape a.shape sl) v.shape then throw .value
  else pure (Arr.ofFn a.shape fun idx =>
    if inSlices a.shape sl idx then
      v.get (bcastIx (sliceShape a.shape sl) v.shape fun k => idx k - sliceLo a.shape sl k)
    else a.get idx)

/-- `_coeffs_wavedec_to_wavedecn` (_multilevel.py L581-592), on the entries after the first. -/
def wavedecToN : List (Item M) → Py (List (Item M))
  | [] => pure []
  | .null :: rest => do
      let r ← wavedecToN rest
      pure (.null :: r)
  | .arr a :: rest => do
      if a.ndim ≠ 1 then throw .value
      let r ← wavedecToN rest
      pure (.dict [(['d'], some a)] :: r)
  | .dict _ :: _ => throw .attr
  | .tup _ :: _ => throw .attr

/-- `_coeffs_wavedec2_to_wavedecn` (_multilevel.py L595-609), on the entries after the first. -/
def wavedec2ToN : List (Item M) → Py (List (Item M))
  | [] => pure []
  | .tup [some da, some ad, some dd] :: rest => do
      let r ← wavedec2ToN rest
      pure (.dict [(['a', 'd'], some ad), (['d', 'a'], some da), (['d', 'd'], some dd)] :: r)
  | _ :: _ => throw .value

/-- The conversion of the entries after the first in `_prepare_coeffs_axes`
(_multilevel.py L643-652). -/
def detailsToN : List (Item M) → Py (List (Item M))
  | [] => pure []
  | .null :: _ => throw .value
  | .arr a :: rest => wavedecToN (.arr a :: rest)
  | .dict d :: rest => pure (.dict d :: rest)
  | .tup t :: rest => wavedec2ToN (.tup t :: rest)

/-- The axes used by `_prepare_coeffs_axes` (_multilevel.py L658-671), given the number
`ndim_transform` of letters of a key. -/
def packAxes (ndim ndim_transform : Nat) (axes : Option (List Int)) : Py (List Int) := do
  if axes.isNone ∧ ndim_transform < ndim then throw .value
  let axes := axes.getD (rangeAxes ndim)
  if axes.length ≠ ndim_transform then throw .value
  pure axes

/-- Number of letters of the first key of `coeffs[1]` (_multilevel.py L659). -/
def firstKeyLen : List (Item M) → Py Nat
  | .dict ((k, _) :: _) :: _ => pure k.length
  | .dict [] :: _ => throw .index
  | _ => throw .attr

/-- `coeffs[0]` as checked by `_prepare_coeffs_axes` (_multilevel.py L633-640). -/
def headArr : List (Item M) → Py (Arr M × List (Item M))
  | .arr a :: rest => pure (a, rest)
  | _ => throw .value

/-- `d['d'*n]` (an array): `None` has no attribute `shape`. -/
def allDetail (n : Nat) : Item M → Py (Arr M)
  | .dict d => do
      match ← lookupKey d (List.replicate n 'd') with
      | none => throw .attr
      | some a => pure a
  | .arr _ => throw .index
  | _ => throw .type

/-- `arr_shape[axes] += d_shape[axes]`: every entry is read from the original. -/
def addAt (orig d : List Nat) : List Int → List Nat → Py (List Nat)
  | [], cur => pure cur
  | ax :: axes, cur => do
      let m ← shapeAt orig ax
      let n ← shapeAt d ax
      let cur ← pySet cur ax (m + n)
      addAt orig d axes cur

/-- `for k, v in d.items(): ncoeffs += v.size` (_multilevel.py L619-620). -/
def countDict : CDict M → Nat → Py Nat
  | [], n => pure n
  | (_, none) :: _, _ => throw .attr
  | (_, some a) :: rest, n => countDict rest (n + a.data.length)

/-- The loop of `_determine_coeff_array_shape` (_multilevel.py L617-620). -/
def arrShapeLoop (axes : List Int) : List (Item M) → List Nat → Nat → Py (List Nat × Nat)
  | [], arr_shape, ncoeffs => pure (arr_shape, ncoeffs)
  | d :: ds, arr_shape, ncoeffs => do
      let dd ← allDetail axes.length d
      let arr_shape ← addAt arr_shape dd.shape axes arr_shape
      match d with
      | .dict c => do
          let ncoeffs ← countDict c ncoeffs
          arrShapeLoop axes ds arr_shape ncoeffs
      | _ => throw .attr

/-- The loop over the letters of a key (_multilevel.py L781-789); `sl` is `slice_array`. -/
def keySlices (a_shape d_shape : List Nat) : List Char → List Int → List Slice → Py (List Slice)
  | [], _, sl => pure sl
  | _ :: _, [], _ => throw .index
  | c :: key, ax :: axes, sl =>
      if c = 'a' then do
        let n ← shapeAt d_shape ax
        let sl ← pySet sl ax ⟨0, some n⟩
        keySlices a_shape d_shape key axes sl
      else if c = 'd' then do
        let m ← shapeAt a_shape ax
        let n ← shapeAt d_shape ax
        let sl ← pySet sl ax ⟨m, some (m + n)⟩
        keySlices a_shape d_shape key axes sl
      else throw .value

/-- An entry of `coeff_slices`. -/
inductive SliceItem
  | tup (l : List Slice)
  | dict (d : List (Key × List Slice))
  deriving DecidableEq, Repr

/-- `for key in coeff_dict` (_multilevel.py L778-792). -/
def packDict (ndim : Nat) (axes : List Int) (a_shape : List Nat) :
    CDict M → Arr M → List (Key × List Slice) → Py (Arr M × List (Key × List Slice))
  | [], arr, acc => pure (arr, acc)
  | (_, none) :: _, _, _ => throw .value
  | (key, some d) :: rest, arr, acc => do
      let sl ← keySlices a_shape d.shape key axes (List.replicate ndim .full)
      let arr ← arr.setSlices sl d
      packDict ndim axes a_shape rest arr (acc ++ [(key, sl)])

/-- `[a_shape[n] + d_shape[n] for n in range(ndim)]` (_multilevel.py L793). -/
def addShapes (ndim : Nat) (a d : List Nat) : Py (List Nat) :=
  if ndim ≤ a.length ∧ ndim ≤ d.length then
    pure ((List.range ndim).map fun n => a.getD n 0 + d.getD n 0)
  else throw .index

/-- The loop over the dicts of details (_multilevel.py L771-793). -/
def packLoop (ndim : Nat) (axes : List Int) :
    List (Item M) → List Nat → Arr M → List SliceItem → Py (Arr M × List SliceItem)
  | [], _, arr, acc => pure (arr, acc)
  | .dict c :: ds, a_shape, arr, acc => do
      if c.any fun p => p.2.isNone then throw .value
      let dd ← allDetail axes.length (.dict c)
      let (arr, sls) ← packDict ndim axes a_shape c arr []
      let a_shape ← addShapes ndim a_shape dd.shape
      packLoop ndim axes ds a_shape arr (acc ++ [.dict sls])
  | _ :: _, _, _, _ => throw .attr

/-- `np.full(arr_shape, padding)`, or `np.empty(arr_shape)` if `padding` is `None`: the values of
fresh memory, which are arbitrary, are the argument `junk`. -/
def packInit (padding : Option M) (tight : Bool) (junk : Nat → M) (arr_shape : List Nat) :
    Py (Arr M) :=
  match padding with
  | none =>
    if !tight then throw .value
    else pure ⟨arr_shape, (List.range arr_shape.prod).map junk, by simp⟩
  | some p => pure ⟨arr_shape, List.replicate arr_shape.prod p, by simp⟩

/-- `coeffs_to_array` (_multilevel.py L674-798). -/
def coeffsToArray (coeffs : List (Item M)) (padding : Option M) (axes : Option (List Int))
    (junk : Nat → M) : Py (Arr M × List SliceItem) := do
  let (a, ds) ← headArr coeffs
  let ds ← detailsToN ds
  match ds with
  | [] => pure (a, [.tup (List.replicate a.ndim .full)])
  | d0 :: ds' => do
      let ndim_transform ← firstKeyLen (d0 :: ds')
      let axes ← packAxes a.ndim ndim_transform axes
      let (arr_shape, ncoeffs) ← arrShapeLoop axes (d0 :: ds') a.shape a.data.length
      let arr ← packInit padding (decide (arr_shape.prod = ncoeffs)) junk arr_shape
      let a_slices : List Slice := a.shape.map fun s => ⟨0, some s⟩
      let arr ← arr.setSlices a_slices a
      packLoop a.ndim axes (d0 :: ds') a.shape arr [.tup a_slices]

/-- `output_format` of `array_to_coeffs` and `unravel_coeffs`; other strings are rejected. -/
inductive OutFormat
  | wavedec | wavedec2 | wavedecn | other
  deriving DecidableEq, Repr

/-- `{k: arr[v] for k, v in …}` -/
def unpackDict (arr : Arr M) : List (Key × List Slice) → Py (CDict M)
  | [] => pure []
  | (k, sl) :: rest => do
      let v ← arr.getSlices sl
      let rest ← unpackDict arr rest
      pure ((k, some v) :: rest)

/-- The body of the loop of `array_to_coeffs` (_multilevel.py L869-886). -/
def unpackItem (arr : Arr M) (fmt : OutFormat) (s : SliceItem) : Py (Item M) :=
  match fmt, s with
  | .other, _ => throw .value
  | _, .tup _ => throw .type
  | .wavedec, .dict d => do
      let v ← arr.getSlices (← lookupKey d ['d'])
      pure (.arr v)
  | .wavedec2, .dict d => do
      let da ← arr.getSlices (← lookupKey d ['d', 'a'])
      let ad ← arr.getSlices (← lookupKey d ['a', 'd'])
      let dd ← arr.getSlices (← lookupKey d ['d', 'd'])
      pure (.tup [some da, some ad, some dd])
  | .wavedecn, .dict d => do
      let c ← unpackDict arr d
      pure (.dict c)

/-- The loop of `array_to_coeffs`. -/
def unpackLoop (arr : Arr M) (fmt : OutFormat) : List SliceItem → Py (List (Item M))
  | [] => pure []
  | s :: rest => do
      let c ← unpackItem arr fmt s
      let rest ← unpackLoop arr fmt rest
      pure (c :: rest)

/-- `array_to_coeffs` (_multilevel.py L801-887). -/
def arrayToCoeffs (arr : Arr M) (slices : List SliceItem) (fmt : OutFormat) : Py (List (Item M)) :=
  match slices with
  | [] => throw .value
  | .dict _ :: _ => throw .index
  | .tup sl :: rest => do
      let a ← arr.getSlices sl
      let ds ← unpackLoop arr fmt rest
      pure (.arr a :: ds)

end Pywt
