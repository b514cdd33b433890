import Verif.Model.AxisMulti

/-!
# Model of the fully separable transform (`fswavedecn`, `fswaverecn`, `FswavedecnResult`)

Not modelled: dtypes, and index tuples with floating-point entries.  Modes are kept as modes: the
code converts them to integers and back to names.
-/

namespace Pywt

variable {R M : Type} [Ring R] [AddCommGroup M] [Module R M]

/-- `np.concatenate(arrays, axis)`: the arrays agree on all other axes, and every line of the result
is the concatenation of the lines. -/
def concatAxis (axis : Int) : List (Arr M) → Py (Arr M)
  | [] => throw .value
  | c :: cs => do
      let ax ← normAxis c.ndim axis
      if cs.any fun b => b.shape.set ax 0 ≠ c.shape.set ax 0 then throw .value
      let n := ((c :: cs).map fun b => b.shape.getD ax 0).sum
      pure (Arr.ofFn (c.shape.set ax n) fun idx =>
        ((c :: cs).flatMap fun b => (List.range (b.shape.getD ax 0)).map fun j =>
          b.get fun k => if k = ax then j else idx k).getD (idx ax) 0)

/-- `[slice(c_offsets[d], c_offsets[d+1]) for d in range(len(c_shapes))]` with the cumulative sums of
the lengths as offsets (_multilevel.py L1476-1479). -/
def offsetSlices : List Nat → Nat → List Slice
  | [], _ => []
  | n :: ns, off => ⟨off, some (off + n)⟩ :: offsetSlices ns (off + n)

/-- `[c.shape[ax] for c in coeffs]` -/
def shapesAt (axis : Int) : List (Arr M) → Py (List Nat)
  | [] => pure []
  | c :: cs => do
      let n ← shapeAt c.shape axis
      let r ← shapesAt axis cs
      pure (n :: r)

/-- `FswavedecnResult` (_multilevel.py L1204-1378).  Its type checks of wavelets and modes are
ineffective (`np.all` of a generator). -/
structure FsResult (R M : Type) where
  coeffs : Arr M
  slices : List (List Slice)
  wavelets : List (Wavelet R)
  modes : List Mode
  axes : List Int

/-- `_check_fswavedecn_axes` (_multilevel.py L1194-1201): `AxisError` in both cases. -/
def checkFsAxes (shape : List Nat) (axes : List Int) : Py Unit := do
  if ¬ axes.Nodup then throw .axis
  let _ ← axesShapes shape axes
  pure ()

/-- The loop of `fswavedecn` (_multilevel.py L1466-1484). -/
def fsLoop : List (Int × Option Int × Wavelet R × Mode) → Arr M → List (List Slice) →
    Py (Arr M × List (List Slice))
  | [], arr, sls => pure (arr, sls)
  | (ax, lev, wav, mode) :: rest, arr, sls => do
      let coeffs ← wavedecA wav mode lev ax arr
      let c_shapes ← shapesAt ax coeffs
      let arr ← concatAxis ax coeffs
      fsLoop rest arr (sls ++ [offsetSlices c_shapes 0])

/-- `levels` as a list (_multilevel.py L1456-1459): `None` or a number is repeated, a sequence must
have the length of `axes`. -/
def fsLevels (levels : PerAxis (Option Int)) (n : Nat) : Py (List (Option Int)) :=
  match levels with
  | .one l => pure (List.replicate n l)
  | .many l => if l.length ≠ n then throw .value else pure l

/-- `fswavedecn` (_multilevel.py L1381-1491). -/
def fswavedecn (data : Arr M) (wavelet : PerAxis (Wavelet R)) (mode : PerAxis Mode)
    (levels : PerAxis (Option Int)) (axes : Option (List Int)) : Py (FsResult R M) := do
  let axes := axes.getD (rangeAxes data.ndim)
  checkFsAxes data.shape axes
  let levels ← fsLevels levels axes.length
  let modes ← mode.expand axes.length
  let wavelets ← wavelet.expand axes.length
  let (arr, sls) ← fsLoop (axes.zip (levels.zip (wavelets.zip modes))) data []
  pure ⟨arr, sls, wavelets, modes, axes⟩

/-- `csl[ax] = sl` for an array with all other slices full, then `arr[tuple(csl)]`
(_multilevel.py L1557-1558). -/
def sliceAlong (arr : Arr M) (axis : Int) (sl : Slice) : Py (Arr M) := do
  let csl ← pySet (List.replicate arr.ndim Slice.full) axis sl
  arr.getSlices csl

/-- `for sl in coeff_slices[ax_count]` (_multilevel.py L1556-1558). -/
def sliceAll (arr : Arr M) (axis : Int) : List Slice → Py (List (Option (Arr M)))
  | [] => pure []
  | sl :: sls => do
      let c ← sliceAlong arr axis sl
      let r ← sliceAll arr axis sls
      pure (some c :: r)

/-- The loop of `fswaverecn` (_multilevel.py L1553-1561), in the order of `axes`.  The iteration
stops at the end of the shortest list. -/
def fsRecLoop : List (List Slice × Int × Wavelet R × Mode) → Arr M → Py (Arr M)
  | [], arr => pure arr
  | (sls, ax, wav, mode) :: rest, arr => do
      let coeffs ← sliceAll arr ax sls
      match ← waverecA wav mode ax coeffs with
      | none => throw .attr
      | some arr => fsRecLoop rest arr

/-- `fswaverecn` (_multilevel.py L1494-1562). -/
def fswaverecn (r : FsResult R M) : Py (Arr M) := do
  checkFsAxes r.coeffs.shape r.axes
  if r.axes.length ≠ r.slices.length then throw .value
  fsRecLoop (r.slices.zip (r.axes.zip (r.wavelets.zip r.modes))) r.coeffs

namespace FsResult

/-- `levels` (_multilevel.py L1260-1262) -/
def levels (r : FsResult R M) : List Nat := r.slices.map fun s => s.length - 1

/-- The loop of `_get_coef_sl` (_multilevel.py L1281-1285). -/
def coefSl : List (Int × List Slice × Nat) → List Slice → Py (List Slice)
  | [], sl => pure sl
  | (ax, sls, lev) :: rest, sl => do
      match sls[lev]? with
      | none => throw .index
      | some s => do
          let sl ← pySet sl ax s
          coefSl rest sl

/-- `_get_coef_sl` (_multilevel.py L1281-1285). -/
def getCoefSl (r : FsResult R M) (levels : List Nat) : Py (List Slice) :=
  coefSl (r.axes.zip (r.slices.zip levels)) (List.replicate r.coeffs.ndim Slice.full)

/-- `_validate_index` (_multilevel.py L1302-1320) for integers. -/
def validateIndex (r : FsResult R M) (levels : List Int) : Py Unit := do
  if levels.length ≠ r.axes.length then throw .value
  if levels.any fun l => l < 0 then throw .value
  if (levels.zip r.levels).any fun p => p.1 > p.2 then throw .value
  pure ()

/-- `__getitem__` (_multilevel.py L1322-1333). -/
def getItem (r : FsResult R M) (levels : List Int) : Py (Arr M) := do
  r.validateIndex levels
  let sl ← r.getCoefSl (levels.map Int.toNat)
  r.coeffs.getSlices sl

/-- `__setitem__` (_multilevel.py L1335-1356). -/
def setItem (r : FsResult R M) (levels : List Int) (x : Arr M) : Py (FsResult R M) := do
  r.validateIndex levels
  let sl ← r.getCoefSl (levels.map Int.toNat)
  let cur ← r.coeffs.getSlices sl
  if cur.shape ≠ x.shape then throw .value
  let coeffs ← r.coeffs.setSlices sl x
  pure { r with coeffs := coeffs }

/-- `approx` (_multilevel.py L1287-1291). -/
def approx (r : FsResult R M) : Py (Arr M) := do
  let sl ← r.getCoefSl (List.replicate r.coeffs.ndim 0)
  r.coeffs.getSlices sl

/-- The setter of `coeffs` (_multilevel.py L1237-1242). -/
def setCoeffs (r : FsResult R M) (c : Arr M) : Py (FsResult R M) :=
  if c.shape ≠ r.coeffs.shape then throw .value else pure { r with coeffs := c }

/-- `itertools.product(*ranges)` in lexicographic order. -/
def prodRanges : List Nat → List (List Nat)
  | [] => [[]]
  | n :: ns => (List.range (n + 1)).flatMap fun i => (prodRanges ns).map (i :: ·)

/-- `detail_keys` (_multilevel.py L1358-1367).  `itertools.product` already yields the tuples in
increasing order, so `sorted` changes nothing. -/
def detailKeys (r : FsResult R M) : List (List Nat) :=
  (prodRanges r.levels).erase (List.replicate r.axes.length 0)

end FsResult

end Pywt
