import Verif.Model.MultiDim
import Verif.Model.Multilevel

/-!
# Model of the n-D part of `pywt/_multilevel.py`: `wavedecn`, `waverecn`, `wavedec2`, `waverec2`

Coefficient lists are lists of `Item`s, so that lists of a wrong format are values of the model too.
Not modelled: warnings, dtypes, array-likes that are not arrays, `coeffs` that is not a list.
-/

namespace Pywt

variable {R M : Type} [Zero R] [Zero M] [Add M] [Neg M] [Sub M] [SMul ℕ M] [SMul R M]

/-- An entry of a coefficient list: `None`, an array, a dict (`wavedecn`) or a tuple
(`wavedec2`). -/
inductive Item (M : Type)
  | null
  | arr (a : Arr M)
  | dict (d : CDict M)
  | tup (l : List (Option (Arr M)))
  deriving DecidableEq

/-- `l[i]` for an `i` that may be negative. -/
def pyIndex (l : List Nat) (i : Int) : Option Nat :=
  if 0 ≤ i then l[i.toNat]? else if -i ≤ l.length then l[l.length - (-i).toNat]? else none

/-- `[shape[ax] for ax in axes]` with `IndexError` turned into `AxisError`
(_multilevel.py L353-356). -/
def axesShapes (shape : List Nat) : List Int → Py (List Nat)
  | [] => pure []
  | ax :: rest =>
    match pyIndex shape ax with
    | none => throw .axis
    | some n => do
      let r ← axesShapes shape rest
      pure (n :: r)

/-- `_prep_axes_wavedecn` (_multilevel.py L340-358); `ndim_transform` is the length of the list of
axes. -/
def prepAxes (shape : List Nat) (axes : Option (List Int)) : Py (List Int × List Nat) := do
  if shape.length < 1 then throw .value
  let axes := axes.getD (rangeAxes shape.length)
  if ¬ axes.Nodup then throw .value
  let s ← axesShapes shape axes
  pure (axes, s)

/-- `'a' * n` -/
def aKey (n : Nat) : Key := List.replicate n 'a'

/-- The dict without a key. -/
def eraseKey {α : Type} (c : List (Key × α)) (k : Key) : List (Key × α) := c.filter fun p => p.1 ≠ k

/-- The loop of `wavedecn` (_multilevel.py L430-440): the last approximation and the list of the
dicts of details, in the order in which they were computed. -/
def wavedecnLoop (wavelet : PerAxis (Wavelet R)) (mode : PerAxis Mode) (axes : List Int) :
    Nat → Arr M → List (List (Key × Arr M)) → Py (Arr M × List (List (Key × Arr M)))
  | 0, a, coeffs_list => pure (a, coeffs_list)
  | n + 1, a, coeffs_list => do
      let coeffs ← dwtn a wavelet mode (some axes)
      let a ← lookupKey coeffs (aKey axes.length)
      wavedecnLoop wavelet mode axes n a (coeffs_list ++ [eraseKey coeffs (aKey axes.length)])

/-- A dict without `None`s as an entry of a coefficient list. -/
def Item.ofDict (c : List (Key × Arr M)) : Item M := .dict (c.map fun p => (p.1, some p.2))

/-- `wavedecn` (_multilevel.py L360-442). -/
def wavedecn (data : Arr M) (wavelet : PerAxis (Wavelet R)) (mode : PerAxis Mode)
    (level : Option Int) (axes : Option (List Int)) : Py (List (Item M)) := do
  let (axes, axes_shapes) ← prepAxes data.shape axes
  let wavelets ← wavelet.expand axes.length
  let level ← checkLevel axes_shapes (wavelets.map (·.dec_len)) level
  let (a, ds) ← wavedecnLoop wavelet mode axes level data []
  pure (.arr a :: (ds.map Item.ofDict).reverse)

/-- `a[tuple(slice(s) for s in shape)]` for extents `shape` not larger than those of `a`. -/
def Arr.crop (a : Arr M) (shape : List Nat) : Arr M := Arr.ofFn shape a.get

/-- The size test of `_match_coeff_dims` (_multilevel.py L454-455); shapes of different lengths
cannot be subtracted. -/
def sizesMatch (a d : List Nat) : Bool :=
  a.length == d.length && (a.zip d).all fun p => decide (p.1 = p.2) || decide (p.1 = p.2 + 1)

/-- `_match_coeff_dims` (_multilevel.py L445-458). -/
def matchCoeffDims (a : Option (Arr M)) (d : List (Key × Arr M)) : Py (Option (Arr M)) :=
  match a, d with
  | none, _ => pure none
  | some a, [] => pure (some a)
  | some a, (_, v) :: _ =>
      if sizesMatch a.shape v.shape then pure (some (a.crop v.shape)) else throw .value

/-- `d[k] = v` -/
def dictSet {α : Type} (c : List (Key × α)) (k : Key) (v : α) : List (Key × α) :=
  match c with
  | [] => [(k, v)]
  | (k', v') :: rest => if k' = k then (k, v) :: rest else (k', v') :: dictSet rest k v

/-- `_fix_coeffs` (_multidim.py L193-216). -/
def fixCoeffs (c : CDict M) : Py (List (Key × Arr M)) :=
  if c.any fun p => p.2.isNone then throw .value
  else if !keysOk (c.map (·.1)) then throw .value
  else pure (dropNone c)

/-- `list(map(_fix_coeffs, ds))` after the check that all entries are dicts
(_multilevel.py L522-530). -/
def fixAll : List (Item M) → Py (List (List (Key × Arr M)))
  | [] => pure []
  | .dict c :: rest => do
      let c ← fixCoeffs c
      let rest ← fixAll rest
      pure (c :: rest)
  | _ :: _ => throw .value

/-- Is the entry a dict? -/
def Item.isDict : Item M → Bool
  | .dict _ => true
  | _ => false

/-- `if idx > 0: a = _match_coeff_dims(a, d)` -/
def matchIf (first : Bool) (a : Option (Arr M)) (d : List (Key × Arr M)) : Py (Option (Arr M)) :=
  if first then pure a else matchCoeffDims a d

/-- The loop of `waverecn` (_multilevel.py L564-576); `first` is `idx == 0`. -/
def waverecnLoop (wavelet : PerAxis (Wavelet R)) (mode : PerAxis Mode) (axes : List Int) :
    Bool → Option (Arr M) → List (List (Key × Arr M)) → Py (Option (Arr M))
  | _, a, [] => pure a
  | first, a, d :: ds => do
      if a.isNone ∧ d.isEmpty then waverecnLoop wavelet mode axes false a ds
      else do
        let a ← matchIf first a d
        let a ← idwtn (dictSet (d.map fun p => (p.1, some p.2)) (aKey axes.length) a) wavelet mode
          (some axes)
        waverecnLoop wavelet mode axes false a ds

/-- `None` or an array as an entry of a coefficient list. -/
def Item.ofOption : Option (Arr M) → Item M
  | some a => .arr a
  | none => .null

/-- `coeffs[0]` as an array or `None`; that the first entry is something else is not modelled
further. -/
def Item.toOption : Item M → Py (Option (Arr M))
  | .null => pure none
  | .arr a => pure (some a)
  | _ => throw .type

/-- The numbers of dimensions compared by `waverecn` (_multilevel.py L539-544). -/
def coeffNdims (a : Option (Arr M)) (ds : List (List (Key × Arr M))) : List Nat :=
  (a.map Arr.ndim).toList ++ ds.flatMap fun d => d.map fun p => p.2.ndim

/-- `waverecn` (_multilevel.py L461-578). -/
def waverecn (coeffs : List (Item M)) (wavelet : PerAxis (Wavelet R)) (mode : PerAxis Mode)
    (axes : Option (List Int)) : Py (Item M) := do
  match coeffs with
  | [] => throw .value
  | c0 :: items =>
    if ¬ items.all Item.isDict then throw .value
    let ds ← fixAll items
    if ds.isEmpty then pure c0
    else do
      let a ← c0.toOption
      if a.isNone ∧ ds.all List.isEmpty then throw .value
      match coeffNdims a ds with
      | [] => throw .value
      | ndim :: rest =>
        if rest.any (· ≠ ndim) then throw .value
        let axes := axes.getD (rangeAxes ndim)
        if ¬ axes.Nodup then throw .value
        let r ← waverecnLoop wavelet mode axes true a ds
        pure (.ofOption r)

/-- The loop of `wavedec2` (_multilevel.py L244-251). -/
def wavedec2Loop (wavelet : PerAxis (Wavelet R)) (mode : PerAxis Mode) (axes : List Int) :
    Nat → Arr M → List (Arr M × Arr M × Arr M) → Py (Arr M × List (Arr M × Arr M × Arr M))
  | 0, a, coeffs_list => pure (a, coeffs_list)
  | n + 1, a, coeffs_list => do
      let (a, ds) ← dwt2 a wavelet mode axes
      wavedec2Loop wavelet mode axes n a (coeffs_list ++ [ds])

/-- A triple of arrays as an entry of a coefficient list. -/
def Item.ofTriple (t : Arr M × Arr M × Arr M) : Item M := .tup [some t.1, some t.2.1, some t.2.2]

/-- `wavedec2` (_multilevel.py L179-253). -/
def wavedec2 (data : Arr M) (wavelet : PerAxis (Wavelet R)) (mode : PerAxis Mode)
    (level : Option Int) (axes : List Int) : Py (List (Item M)) := do
  if data.ndim < 2 then throw .value
  if axes.length ≠ 2 then throw .value
  if ¬ axes.Nodup then throw .value
  let axes_sizes ← axesShapes data.shape axes
  let wavelets ← wavelet.expand axes.length
  let level ← checkLevel axes_sizes (wavelets.map (·.dec_len)) level
  let (a, ds) ← wavedec2Loop wavelet mode axes level data []
  pure (.arr a :: (ds.map Item.ofTriple).reverse)

/-- Extents of `a[idxs]` in `waverec2` (_multilevel.py L332-333): one less where `a` is longer than
the details by one. -/
def trimShape : List Nat → List Nat → List Nat
  | a :: as, d :: ds => (if a = d + 1 then a - 1 else a) :: trimShape as ds
  | as, _ => as

/-- `a[idxs]` in `waverec2` (_multilevel.py L322-334).  `np.asarray(None)` is a 0-d array which
gives `None` again when indexed with `()` and raises when indexed with two slices. -/
def waverec2Trim (a : Option (Arr M)) (d : List (Option (Arr M))) : Py (Option (Arr M)) :=
  match d.filterMap id with
  | [] =>
    match a with
    | none => throw .index
    | some a => if a.ndim < 2 then throw .index else pure (some a)
  | d0 :: rest =>
    if rest.any fun v => v.shape ≠ d0.shape then throw .value
    else pure (a.map fun a => a.crop (trimShape a.shape d0.shape))

/-- The loop of `waverec2` (_multilevel.py L313-335). -/
def waverec2Loop (wavelet : PerAxis (Wavelet R)) (mode : PerAxis Mode) (axes : List Int) :
    Option (Arr M) → List (Item M) → Py (Option (Arr M))
  | a, [] => pure a
  | a, .tup [x, y, z] :: ds => do
      let a ← waverec2Trim a [x, y, z]
      let a ← idwt2 (a, (x, y, z)) wavelet mode axes
      waverec2Loop wavelet mode axes a ds
  | _, _ :: _ => throw .value

/-- `waverec2` (_multilevel.py L256-337). -/
def waverec2 (coeffs : List (Item M)) (wavelet : PerAxis (Wavelet R)) (mode : PerAxis Mode)
    (axes : List Int) : Py (Item M) := do
  if ¬ axes.Nodup then throw .value
  match coeffs with
  | [] => throw .value
  | [c0] => pure c0
  | c0 :: ds => do
      let a ← c0.toOption
      let r ← waverec2Loop wavelet mode axes a ds
      pure (.ofOption r)

end Pywt
