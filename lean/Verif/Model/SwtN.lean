import Verif.Model.AxisMulti
import Verif.Model.MultilevelN
import Verif.Model.Swt

/-!
# Model of the n-D part of `pywt/_swt.py` and of `swt_axis` in `pywt/_extensions/_swt.pyx`

Not modelled here: dtypes (see `Verif.Model.DType`; object arrays, casting to a common dtype), warnings, the branches for builds
without C99 complex numbers.
-/

namespace Pywt

variable {R M : Type} [Ring R] [AddCommGroup M] [Module R M]

/-! ### Forward transform -/

/-- The loop of `swt_axis` (_swt.pyx L200-326): levels `i, i+1, …, i+n-1`; collects the `(cA, cD)`. -/
def swtAxisLoop (w : Wavelet R) (axis : Nat) : Nat → Nat → Mem M → List (Arr M × Arr M) →
    Py (List (Arr M × Arr M))
  | 0, _, _, ret => .ok ret
  | n + 1, i, data, ret => do
      let cA ← downcoefAxisCall w axis true (.swt i) data data.info.shape
      let cD ← downcoefAxisCall w axis false (.swt i) data data.info.shape
      swtAxisLoop w axis n (i + 1) cA.toMem (ret ++ [(cA, cD)])

/-- `swt_axis` (_swt.pyx L161-326) for data in any memory layout and an axis inside its dimension (the
callers have checked it).  Simplification: as in `swtC`, both outputs are collected and with
`trim_approx` the approximations are dropped afterwards. -/
def swtAxisMem (w : Wavelet R) (level start_level axis : Nat) (trim_approx : Bool) (data : Mem M) :
    Py (SwtCoeffs (Arr M)) := do
  if data.info.shape.getD axis 0 % 2 ≠ 0 then throw .value
  if data.info.shape.getD axis 0 < 1 then throw .value
  if level < 1 then throw .value
  if start_level ≥ swtMaxLevelC (data.info.shape.getD axis 0) then throw .value
  if start_level + level > swtMaxLevelC (data.info.shape.getD axis 0) then throw .value
  let ret ← swtAxisLoop w axis level (start_level + 1) data []
  if trim_approx then
    match ret.getLast? with
    | some last => pure (.trimmed (ret.map (·.2) ++ [last.1]).reverse)
    | none => throw .runtime            -- unreachable: `level ≥ 1`
  else
    pure (.pairs ret.reverse)

/-- The 1-D results as arrays. -/
def SwtCoeffs.toArr : SwtCoeffs (List M) → SwtCoeffs (Arr M)
  | .pairs l => .pairs (l.map fun p => (Arr.of1 p.1, Arr.of1 p.2))
  | .trimmed l => .trimmed (l.map Arr.of1)

/-- The level argument of `swt` (_swt.py L144-145) as the `size_t` the C code receives. -/
def swtLevel (level : Option Int) (n : Nat) : Py Nat :=
  match level with
  | none => swtMaxLevel n
  | some l => if l < 0 then .error .overflow else .ok l.toNat

/-- `pywt.swt` on n-D data (_swt.py L28-153); on 1-D data it calls `_swt`. -/
def swtA (w : Wavelet R) (level : Option Int) (start_level : Int) (trim_approx : Bool)
    (norm : Option R) (axis : Int) (data : Arr M) : Py (SwtCoeffs (Arr M)) := do
  let w := w.normed norm
  let axis ← normAxis data.ndim axis
  let level ← swtLevel level (data.shape.getD axis 0)
  if start_level < 0 then throw .overflow
  if data.ndim = 1 then do
    let r ← swtC w data.data level start_level.toNat trim_approx
    pure r.toArr
  else swtAxisMem w level start_level.toNat axis trim_approx data.toMem

/-- The call of `_swt_axis` in `swtn` and its `[0]` (_swt.py L661-662). -/
def swtOne (w : Wavelet R) (i : Int) (axis : Nat) (x : Arr M) : Py (Arr M × Arr M) := do
  if i < 0 then throw .overflow
  match ← swtAxisMem w 1 i.toNat axis false x.toMem with
  | .pairs (p :: _) => pure p
  | _ => throw .index                   -- unreachable: one level gives one pair

/-- The body of the loop of `swtn` over the axes (_swt.py L659-664). -/
def swtnStep (i : Int) (axis : Nat) (w : Wavelet R) : List (Key × Arr M) → Py (List (Key × Arr M))
  | [] => pure []
  | (subband, x) :: rest => do
      let (cA, cD) ← swtOne w i axis x
      let rest ← swtnStep i axis w rest
      pure ((subband ++ ['a'], cA) :: (subband ++ ['d'], cD) :: rest)

/-- The loop of `swtn` over `zip(axes, wavelets)` (_swt.py L658-665). -/
def swtnAxes (i : Int) : List (Nat × Wavelet R) → List (Key × Arr M) → Py (List (Key × Arr M))
  | [], coeffs => pure coeffs
  | (axis, w) :: rest, coeffs => do
      let coeffs ← swtnStep i axis w coeffs
      swtnAxes i rest coeffs

/-- A dict of arrays with string keys. -/
abbrev ADict (M : Type) := List (Key × Arr M)

/-- `d.pop(key)`: the value and the dict without the key. -/
def ADict.pop (d : ADict M) (key : Key) : Py (Arr M × ADict M) :=
  match d.lookup key with
  | none => .error .key
  | some v => .ok (v, d.filter fun p => p.1 ≠ key)

/-- The loop of `swtn` over the levels `i, …, i + n - 1` (_swt.py L656-674): the dicts in the order of
computation, and the last approximation. -/
def swtnLoop (st : List (Nat × Wavelet R)) (trim_approx : Bool) :
    Nat → Int → Arr M → List (ADict M) → Py (List (ADict M) × Arr M)
  | 0, _, data, ret => .ok (ret, data)
  | n + 1, i, data, ret => do
      let coeffs ← swtnAxes i st [([], data)]
      let data ← lookupKey coeffs (aKey st.length)
      if trim_approx then do
        let p ← ADict.pop coeffs (aKey st.length)
        swtnLoop st trim_approx n (i + 1) data (ret ++ [p.2])
      else swtnLoop st trim_approx n (i + 1) data (ret ++ [coeffs])

/-- The two output conventions of `swtn`: a list of dicts, or with `trim_approx` an array and a list of
dicts. -/
inductive SwtN (M : Type)
  | dicts (l : List (ADict M))
  | trimmed (a : Arr M) (l : List (ADict M))
  deriving DecidableEq

/-- `pywt.swtn` (_swt.py L540-677).  `range(start_level, start_level + level)` is empty for a level that
is not positive. -/
def swtn (data : Arr M) (wavelet : PerAxis (Wavelet R)) (level start_level : Int)
    (axes : Option (List Int)) (trim_approx : Bool) (norm : Option R) : Py (SwtN M) := do
  if data.ndim < 1 then throw .value
  let axes := normAxes data.ndim (axes.getD (rangeAxes data.ndim))
  if axes.any fun a => decide (a < 0 ∨ a ≥ data.ndim) then throw .axis
  if ¬ axes.Nodup then throw .value
  let wavelets ← wavelet.expand axes.length
  let wavelets := wavelets.map fun w => w.normed norm
  let r ← swtnLoop ((axes.map Int.toNat).zip wavelets) trim_approx level.toNat start_level data []
  if trim_approx then pure (.trimmed r.2 r.1.reverse)
  else pure (.dicts r.1.reverse)

/-- What `swt2` returns: `[(cA, (cH, cV, cD)), …]`, or with `trim_approx` `cA` and `[(cH, cV, cD), …]`. -/
inductive Swt2 (M : Type)
  | pairs (l : List (Arr M × (Arr M × Arr M × Arr M)))
  | trimmed (a : Arr M) (l : List (Arr M × Arr M × Arr M))
  deriving DecidableEq

/-- `(c['da'], c['ad'], c['dd'])` -/
def swt2Details (c : ADict M) : Py (Arr M × Arr M × Arr M) := do
  let da ← lookupKey c ['d', 'a']
  let ad ← lookupKey c ['a', 'd']
  let dd ← lookupKey c ['d', 'd']
  pure (da, ad, dd)

/-- `(c['aa'], (c['da'], c['ad'], c['dd']))` -/
def swt2Pair (c : ADict M) : Py (Arr M × (Arr M × Arr M × Arr M)) := do
  let aa ← lookupKey c ['a', 'a']
  let d ← swt2Details c
  pure (aa, d)

/-- `pywt.swt2` (_swt.py L272-378). -/
def swt2 (data : Arr M) (wavelet : PerAxis (Wavelet R)) (level start_level : Int) (axes : List Int)
    (trim_approx : Bool) (norm : Option R) : Py (Swt2 M) := do
  if axes.length ≠ 2 then throw .value
  if ¬ axes.Nodup then throw .value
  if data.ndim < numUnique axes then throw .value
  match ← swtn data wavelet level start_level (some axes) trim_approx norm with
  | .trimmed a cs => do
      let l ← cs.mapM swt2Details
      pure (.trimmed a l)
  | .dicts cs => do
      let l ← cs.mapM swt2Pair
      pure (.pairs l)

/-! ### Inverse transform -/

/-- A slice object of the inverse transforms: `slice(None)` or `slice(first, stop, step)`. -/
inductive Stride
  | all
  | by (first stop step : Nat)
  deriving DecidableEq

/-- The number of positions a slice selects on an axis of length `n`. -/
def Stride.len : Stride → Nat → Nat
  | .all, n => n
  | .by first stop step, n => (min stop n - first + step - 1) / step

/-- The `i`-th position a slice selects. -/
def Stride.pos : Stride → Nat → Nat
  | .all, i => i
  | .by first _ step, i => first + i * step

/-- Which of the selected positions `p` is, if any. -/
def Stride.find : Stride → Nat → Option Nat
  | .all, p => some p
  | .by first stop step, p =>
      if first ≤ p ∧ p < stop ∧ (p - first) % step = 0 then some ((p - first) / step) else none

/-- The shape of `a[slices]`. -/
def strideShape (shape : List Nat) (sl : List Stride) : List Nat :=
  (List.range shape.length).map fun k => (sl.getD k .all).len (shape.getD k 0)

/-- `a[tuple(slices)]`: too many slices are an `IndexError`, missing ones select everything. -/
def Arr.getStrides (a : Arr M) (sl : List Stride) : Py (Arr M) :=
  if sl.length > a.ndim then .error .index
  else .ok (Arr.ofFn (strideShape a.shape sl) fun idx => a.get fun k => (sl.getD k .all).pos (idx k))

/-- Whether the slices select the element at `idx`. -/
def strideHas (sl : List Stride) (ndim : Nat) (idx : Nat → Nat) : Bool :=
  (List.range ndim).all fun k => ((sl.getD k .all).find (idx k)).isSome

/-- The position of the element among the selected ones. -/
def strideIdx (sl : List Stride) (idx : Nat → Nat) : Nat → Nat :=
  fun k => ((sl.getD k .all).find (idx k)).getD 0

/-- The selected elements changed by `f`, which receives their position among the selected ones. -/
def Arr.updStrides (a : Arr M) (sl : List Stride) (f : (Nat → Nat) → M → M) : Arr M :=
  Arr.ofFn a.shape fun idx =>
    if strideHas sl a.shape.length idx then f (strideIdx sl idx) (a.get idx) else a.get idx

/-- `a[tuple(slices)] += x`.  Simplification: `x` must have the shape of the selection; NumPy would also
broadcast axes of length one. -/
def Arr.addStrides (a : Arr M) (sl : List Stride) (x : Arr M) : Py (Arr M) :=
  if x.shape ≠ strideShape a.shape sl then .error .value
  else .ok (a.updStrides sl fun c v => v + x.get c)

/-- `np.roll(x, 1, axis)` -/
def Arr.roll1 (axis : Nat) (x : Arr M) : Arr M :=
  Arr.ofFn x.shape fun idx =>
    x.get (Function.update idx axis ((idx axis + x.shape.getD axis 0 - 1) % x.shape.getD axis 0))

/-- `itertools.product(l, repeat=m)` -/
def product {α : Type} (l : List α) : Nat → List (List α)
  | 0 => [[]]
  | m + 1 => l.flatMap fun a => (product l m).map (a :: ·)

/-- `l[i]` for a list of length `n`: the position that a Python index stands for. -/
def listIx (n : Nat) (i : Int) : Py Nat :=
  if 0 ≤ i ∧ i < n then .ok i.toNat
  else if i < 0 ∧ -(n : Int) ≤ i then .ok (i + n).toNat
  else .error .index

/-- `slices[ax] = s` for `zip(axes, values)`, on a list of `slice(None)`.  (The code reuses the lists of
slices; the entries of all transformed axes are written every time.) -/
def placeSlices (ndim : Nat) (axs : List Nat) (vals : List Stride) : List Stride :=
  (axs.zip vals).foldl (fun l p => l.set p.1 p.2) (List.replicate ndim .all)

/-- The slices of one combination of even (0) and odd (1) positions (_swt.py L790-792, L799-803). -/
def oddEven (step : Nat) (firsts sh odds : List Nat) : List Stride :=
  (odds.zip (firsts.zip sh)).map fun p =>
    if p.1 ≠ 0 then .by (p.2.1 + step) p.2.2 (2 * step) else .by p.2.1 p.2.2 (2 * step)

/-- `for o, ax in zip(odds, axes): if o: x = np.roll(x, 1, axis=ax)` (_swt.py L814-817). -/
def rollOdds (axs odds : List Nat) (x : Arr M) : Arr M :=
  (odds.zip axs).foldl (fun x p => if p.1 ≠ 0 then x.roll1 p.2 else x) x

/-- `{key: value[slices] for key, value in details.items()}` -/
def sliceDict (sl : List Stride) : ADict M → Py (ADict M)
  | [] => pure []
  | (k, v) :: d => do
      let v ← v.getStrides sl
      let d ← sliceDict sl d
      pure ((k, v) :: d)

/-- What stays the same in the loops of one call of `iswtn`. -/
structure IswtnArgs (R : Type) where
  /-- the axes after `a + ndim if a < 0` -/
  axes : List Int
  /-- the list positions they stand for -/
  axs : List Nat
  wavelets : List (Wavelet R)
  ndim : Nat
  /-- `ndim_transform` -/
  m : Nat

/-- One iteration of the loop over `odds` (_swt.py L798-819). -/
def iswtnOdd (c : IswtnArgs R) (step : Nat) (firsts sh : List Nat) (details : ADict M)
    (approx output : Arr M) (odds : List Nat) : Py (Arr M) := do
  let sl := placeSlices c.ndim c.axs (oddEven step firsts sh odds)
  let ds ← sliceDict sl details
  let a ← approx.getStrides sl
  let all := dictSet ds (aKey c.m) a
  match ← idwtn (all.map fun p => (p.1, some p.2)) (.many c.wavelets) (.one .periodization)
      (some c.axes) with
  | none => throw .attr                 -- unreachable: all arrays are present
  | some x =>
      output.addStrides
        (placeSlices c.ndim c.axs ((firsts.zip sh).map fun p => .by p.1 p.2 step))
        (rollOdds c.axs odds x)

variable [Invertible (2 : R)]

/-- One iteration of the loop over `firsts` (_swt.py L786-820). -/
def iswtnFirst (c : IswtnArgs R) (step : Nat) (sh : List Nat) (details : ADict M) (output : Arr M)
    (firsts : List Nat) : Py (Arr M) := do
  let sl := placeSlices c.ndim c.axs ((firsts.zip sh).map fun p => .by p.1 p.2 step)
  let r ← (product [0, 1] c.m).foldlM (iswtnOdd c step firsts sh details output)
    (output.updStrides sl fun _ _ => 0)
  pure (r.updStrides sl fun _ v => ((⅟2 : R) ^ c.m) • v)

/-- One level of `iswtn` without the bookkeeping of the dict (_swt.py L771-820): `axes` of the shapes are
looked up in the first detail array, then in the lists of slices. -/
def iswtnLevel (axes : List Int) (wavelets : List (Wavelet R)) (m step : Nat) (details : ADict M)
    (output : Arr M) : Py (Arr M) := do
  match details with
  | [] => throw .runtime
  | (_, d0) :: _ =>
    if details.any fun p => p.2.shape ≠ d0.shape then throw .runtime
    let pos ← axes.mapM (listIx d0.ndim)
    let sh := pos.map fun ax => d0.shape.getD ax 0
    let axs ← axes.mapM (listIx output.ndim)
    (product (List.range step) m).foldlM
      (iswtnFirst ⟨axes, axs, wavelets, output.ndim, m⟩ step sh details) output

/-- The loop of `iswtn` over the levels (_swt.py L764-824).  The dicts belong to the caller: `done` are
those already visited, and the second component of the result is what all of them have become.  Without
`trim_approx` the approximation is popped from the dict and put back at the end. -/
def iswtnLoop (trim_approx : Bool) (axes : List Int) (wavelets : List (Wavelet R)) (m : Nat) :
    List (ADict M) → List (ADict M) → Arr M → Py (Arr M) × List (ADict M)
  | done, [], output => (.ok output, done)
  | done, d :: rest, output =>
    if trim_approx then
      match iswtnLevel axes wavelets m (2 ^ rest.length) d output with
      | .error e => (.error e, done ++ d :: rest)
      | .ok output => iswtnLoop trim_approx axes wavelets m (done ++ [d]) rest output
    else
      match ADict.pop d (aKey m) with
      | .error e => (.error e, done ++ d :: rest)
      | .ok (a, details) =>
        match iswtnLevel axes wavelets m (2 ^ rest.length) details output with
        | .error e => (.error e, done ++ details :: rest)
        | .ok output =>
          iswtnLoop trim_approx axes wavelets m (done ++ [dictSet details (aKey m) a]) rest output

/-- `max(len(key) for key in d)` -/
def maxKeyLen (d : ADict M) : Py Nat :=
  match d with
  | [] => .error .value
  | _ => .ok ((d.map fun p => p.1.length).foldl max 0)

/-- `max(len(key) for key in a)` for an array: its "keys" are its rows. -/
def maxRowLen (a : Arr M) : Py Nat :=
  match a.shape with
  | [] => .error .type
  | [n] => if n = 0 then .error .value else .error .type
  | n :: k :: _ => if n = 0 then .error .value else .ok k

/-- `ndim_transform` (_swt.py L719): the keys of the last entry. -/
def swtnKeyLen : SwtN M → Py Nat
  | .dicts [] => .error .index
  | .dicts (d :: l) => maxKeyLen ((d :: l).getLast?.getD d)
  | .trimmed a [] => maxRowLen a
  | .trimmed _ (d :: l) => maxKeyLen ((d :: l).getLast?.getD d)

/-- `cA` (_swt.py L721). -/
def swtnApprox0 (m : Nat) : SwtN M → Py (Arr M)
  | .dicts [] => .error .index
  | .dicts (d :: _) => lookupKey d (aKey m)
  | .trimmed a _ => .ok a

/-- The checks of `iswtn` before the loop (_swt.py L718-758): the number of transformed dimensions, the
first approximation, the axes and the wavelets. -/
def iswtnPrep (coeffs : SwtN M) (wavelet : PerAxis (Wavelet R)) (axes : Option (List Int))
    (norm : Option R) : Py (Nat × Arr M × List Int × List (Wavelet R)) := do
  let m ← swtnKeyLen coeffs
  let cA ← swtnApprox0 m coeffs
  let axes := normAxes cA.ndim (axes.getD (rangeAxes cA.ndim))
  if ¬ axes.Nodup then throw .value
  if m ≠ axes.length then throw .value
  let wavelets ← wavelet.expand axes.length
  pure (m, cA, axes, wavelets.map fun w => w.normed norm)

/-- `pywt.iswtn` (_swt.py L680-825): the result, and the coefficients as the caller finds them
afterwards. -/
def iswtnFull (coeffs : SwtN M) (wavelet : PerAxis (Wavelet R)) (axes : Option (List Int))
    (norm : Option R) : Py (Arr M) × SwtN M :=
  match iswtnPrep coeffs wavelet axes norm with
  | .error e => (.error e, coeffs)
  | .ok (m, cA, axes, wavelets) =>
    match coeffs with
    | .dicts l =>
        let r := iswtnLoop false axes wavelets m [] l cA
        (r.1, .dicts r.2)
    | .trimmed a l =>
        let r := iswtnLoop true axes wavelets m [] l cA
        (r.1, .trimmed a r.2)

/-- `pywt.iswtn`: the result. -/
def iswtn (coeffs : SwtN M) (wavelet : PerAxis (Wavelet R)) (axes : Option (List Int))
    (norm : Option R) : Py (Arr M) := (iswtnFull coeffs wavelet axes norm).1

/-- `coeffs_nd` of `iswt` (_swt.py L195-198).  The list of details may be empty, the list of pairs not. -/
def iswtToN : SwtCoeffs (Arr M) → Py (SwtN M)
  | .trimmed [] => .error .index
  | .pairs [] => .error .index
  | .trimmed (a :: ds) => .ok (.trimmed a (ds.map fun d => [(['d'], d)]))
  | .pairs l => .ok (.dicts (l.map fun p => [(['a'], p.1), (['d'], p.2)]))

/-- The dimension of `cA` (_swt.py L190-192). -/
def swtCoeffsDim : SwtCoeffs (Arr M) → Py Nat
  | .trimmed [] => .error .index
  | .pairs [] => .error .index
  | .trimmed (a :: _) => .ok a.ndim
  | .pairs (p :: _) => .ok p.1.ndim

/-- The coefficients of `iswt` on 1-D data. -/
def SwtCoeffs.toLists : SwtCoeffs (Arr M) → SwtCoeffs (List M)
  | .pairs l => .pairs (l.map fun p => (p.1.data, p.2.data))
  | .trimmed l => .trimmed (l.map fun a => a.data)

/-- `pywt.iswt` with an axis (_swt.py L156-269).  Simplification: if the first approximation is 1-D, all
arrays are. -/
def iswtA (w : Wavelet R) (norm : Option R) (axis : Int) (coeffs : SwtCoeffs (Arr M)) : Py (Arr M) := do
  let ndim ← swtCoeffsDim coeffs
  if ndim > 1 then do
    let c ← iswtToN coeffs
    iswtn c (.one w) (some [axis]) norm
  else if axis ≠ 0 ∧ axis ≠ -1 then throw .axis
  else if ndim ≠ 1 then throw .value
  else do
    let r ← iswt w norm coeffs.toLists
    pure (Arr.of1 r)

/-- `coeffs_nd` of `iswt2` (_swt.py L438-443). -/
def iswt2ToN : Swt2 M → SwtN M
  | .trimmed a l => .trimmed a (l.map fun p => [(['d', 'a'], p.1), (['a', 'd'], p.2.1), (['d', 'd'], p.2.2)])
  | .pairs l => .dicts (l.map fun p => [(['a', 'a'], p.1), (['d', 'a'], p.2.1), (['a', 'd'], p.2.2.1),
      (['d', 'd'], p.2.2.2)])

/-- `idwt2((output[h, w], (cH[h, w], cV[h, w], cD[h, w])), wavelets, 'periodization')` of `iswt2`
(_swt.py L508-527). -/
def iswt2Part (ws : List (Wavelet R)) (output cH cV cD : Arr M) (h w : Stride) : Py (Arr M) := do
  let a ← output.getStrides [h, w]
  let cH ← cH.getStrides [h, w]
  let cV ← cV.getStrides [h, w]
  let cD ← cD.getStrides [h, w]
  match ← idwt2 (some a, (some cH, some cV, some cD)) (.many ws) (.one .periodization) [-2, -1] with
  | none => throw .attr                 -- unreachable
  | some x => pure x

/-- One iteration of the loops over `first_h`, `first_w` (_swt.py L495-535); sums of arrays of different
shapes raise. -/
def iswt2Phase (ws : List (Wavelet R)) (step : Nat) (cH cV cD output : Arr M) (first : Nat × Nat) :
    Py (Arr M) := do
  let H := cH.shape.getD 0 0
  let W := cH.shape.getD 1 0
  let even_h := Stride.by first.1 H (2 * step)
  let even_w := Stride.by first.2 W (2 * step)
  let odd_h := Stride.by (first.1 + step) H (2 * step)
  let odd_w := Stride.by (first.2 + step) W (2 * step)
  let x1 ← iswt2Part ws output cH cV cD even_h even_w
  let x2 ← iswt2Part ws output cH cV cD even_h odd_w
  let x3 ← iswt2Part ws output cH cV cD odd_h even_w
  let x4 ← iswt2Part ws output cH cV cD odd_h odd_w
  let x2 := x2.roll1 1
  let x3 := x3.roll1 0
  let x4 := (x4.roll1 0).roll1 1
  if x1.shape ≠ x2.shape ∨ x1.shape ≠ x3.shape ∨ x1.shape ≠ x4.shape then throw .value
  let sl := [Stride.by first.1 H step, Stride.by first.2 W step]
  if x1.shape ≠ strideShape output.shape sl then throw .value
  pure (output.updStrides sl fun c _ =>
    ((⅟2 : R) ^ 2) • (x1.get c + x2.get c + x3.get c + x4.get c))

/-- The loop over the levels of `iswt2` (_swt.py L474-535).  Detail arrays that are not 2-D make
`cH.shape[1]` or the indexing fail. -/
def iswt2Loop (ws : List (Wavelet R)) : List (Arr M × Arr M × Arr M) → Arr M → Py (Arr M)
  | [], output => .ok output
  | (cH, cV, cD) :: rest, output => do
      if cH.shape ≠ cV.shape ∨ cH.shape ≠ cD.shape then throw .runtime
      if cH.ndim < 2 then throw .index
      let step := 2 ^ rest.length
      let output ← ((List.range step).flatMap fun h => (List.range step).map fun w => (h, w)).foldlM
        (iswt2Phase ws step cH cV cD) output
      iswt2Loop ws rest output

/-- `cA` and the details of `iswt2` (_swt.py L433-434, L459-460). -/
def swt2Parts : Swt2 M → Py (Arr M × List (Arr M × Arr M × Arr M))
  | .trimmed a l => .ok (a, l)
  | .pairs [] => .error .index
  | .pairs (p :: l) => .ok (p.1, (p :: l).map (·.2))

/-- `pywt.iswt2` (_swt.py L381-537).  `axes` is a tuple; anything but `(-2, -1)` goes to `iswtn`. -/
def iswt2 (coeffs : Swt2 M) (wavelet : PerAxis (Wavelet R)) (norm : Option R) (axes : List Int) :
    Py (Arr M) := do
  let p ← swt2Parts coeffs
  if p.1.ndim ≠ 2 ∨ axes ≠ [-2, -1] then iswtn (iswt2ToN coeffs) wavelet (some axes) norm
  else do
    let wavelets ← wavelet.expand 2
    iswt2Loop (wavelets.map fun w => w.normed norm) p.2 p.1

end Pywt
