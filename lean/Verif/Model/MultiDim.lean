import Verif.Model.AxisPy

/-!
# Model of `pywt/_multidim.py` and of the per-axis arguments of `pywt/_utils.py`

Not modelled here: dtypes (see `Verif.Model.DType`; `object` arrays, upcasting of float32), and the branch for builds without C99
complex numbers, which transforms real and imaginary parts separately.
-/

namespace Pywt

variable {R M : Type} [Zero R] [Zero M] [Add M] [Neg M] [Sub M] [SMul ℕ M] [SMul R M]

/-- An argument that is one object or a sequence of objects. -/
inductive PerAxis (α : Type)
  | one (a : α)
  | many (l : List α)

/-- `_wavelets_per_axis` (_utils.py L36-69) and `_modes_per_axis` (_utils.py L72-104), after the
names have been resolved to objects. -/
def PerAxis.expand {α : Type} (p : PerAxis α) (naxes : Nat) : Py (List α) :=
  match p with
  | .one a => .ok (List.replicate naxes a)
  | .many [a] => .ok (List.replicate naxes a)
  | .many l => if l.length ≠ naxes then .error .value else .ok l

/-- A subband name: a string over `a` and `d`. -/
abbrev Key := List Char

/-- `''.join(c) for c in itertools.product('ad', repeat=n)`. -/
def words : Nat → List Key
  | 0 => [[]]
  | n + 1 => (words n).map ('a' :: ·) ++ (words n).map ('d' :: ·)

/-- `dwt_axis` called from Python: the parameter is an `unsigned int`, so a negative number is an
`OverflowError`. -/
def dwtAxisU (w : Wavelet R) (mode : Mode) (axis : Int) (x : Arr M) : Py (Arr M × Arr M) :=
  if axis < 0 then .error .overflow else dwtAxis w mode axis.toNat x

/-- The body of the loop of `dwtn` (_multidim.py L184-189). -/
def dwtnStep (axis : Int) (w : Wavelet R) (mode : Mode) :
    List (Key × Arr M) → Py (List (Key × Arr M))
  | [] => pure []
  | (subband, x) :: rest => do
      let (cA, cD) ← dwtAxisU w mode axis x
      let rest ← dwtnStep axis w mode rest
      pure ((subband ++ ['a'], cA) :: (subband ++ ['d'], cD) :: rest)

/-- The loop of `dwtn` over `zip(axes, wavelets, modes)` (_multidim.py L182-189). -/
def dwtnLoop : List (Int × Wavelet R × Mode) → List (Key × Arr M) → Py (List (Key × Arr M))
  | [], coeffs => pure coeffs
  | (axis, w, mode) :: rest, coeffs => do
      let coeffs ← dwtnStep axis w mode coeffs
      dwtnLoop rest coeffs

/-- `[a + ndim if a < 0 else a for a in axes]` -/
def normAxes (ndim : Nat) (axes : List Int) : List Int :=
  axes.map fun a => if a < 0 then a + ndim else a

/-- `zip(axes, wavelets, modes)` -/
def zipStages (axes : List Int) (ws : List (Wavelet R)) (ms : List Mode) :
    List (Int × Wavelet R × Mode) :=
  axes.zip (ws.zip ms)

/-- `range(n)` -/
def rangeAxes (n : Nat) : List Int := (List.range n).map Int.ofNat

/-- `dwtn` (_multidim.py L119-190).  The dict is the list of its items. -/
def dwtn (data : Arr M) (wavelet : PerAxis (Wavelet R)) (mode : PerAxis Mode)
    (axes : Option (List Int)) : Py (List (Key × Arr M)) := do
  if data.ndim < 1 then throw .value
  let axes := normAxes data.ndim (axes.getD (rangeAxes data.ndim))
  let modes ← mode.expand axes.length
  let wavelets ← wavelet.expand axes.length
  dwtnLoop (zipStages axes wavelets modes) [([], data)]

/-- A dict of coefficient arrays; the value `none` is `None`. -/
abbrev CDict (M : Type) := List (Key × Option (Arr M))

/-- `coeffs.get(key, None)` -/
def CDict.get (c : CDict M) (k : Key) : Option (Arr M) := (c.lookup k).join

/-- The body of the loop of `idwtn` (_multidim.py L293-309). -/
def idwtnStep (axis : Nat) (w : Wavelet R) (mode : Mode) (coeffs : CDict M) :
    List Key → Py (CDict M)
  | [] => pure []
  | key :: rest => do
      let r ← idwtAxis w mode axis (CDict.get coeffs (key ++ ['a']))
        (CDict.get coeffs (key ++ ['d']))
      let rest ← idwtnStep axis w mode coeffs rest
      pure ((key, r) :: rest)

/-- The loop of `idwtn` over `reversed(list(enumerate(zip(axes, wavelets, modes))))`
(_multidim.py L288-309); the argument is the reversed list. -/
def idwtnLoop (ndim : Nat) : List (Int × Wavelet R × Mode) → CDict M → Py (CDict M)
  | [], coeffs => pure coeffs
  | (axis, w, mode) :: rest, coeffs => do
      if axis < 0 ∨ axis ≥ ndim then throw .axis
      let coeffs ← idwtnStep axis.toNat w mode coeffs (words rest.length)
      idwtnLoop ndim rest coeffs

/-- `{k: v for k, v in coeffs.items() if v is not None}` -/
def dropNone (c : CDict M) : List (Key × Arr M) :=
  c.filterMap fun p => p.2.map fun v => (p.1, v)

/-- The key checks of `_fix_coeffs` (_multidim.py L193-216); `None` values have been dropped or are
checked by the caller. -/
def keysOk (keys : List Key) : Bool :=
  keys.all (fun k => k.all fun c => c = 'a' || c = 'd') &&
    keys.all (fun k => k.length = (keys.headD []).length)

/-- `coeffs['']` at the end of `idwtn`. -/
def lookupKey {α : Type} (c : List (Key × α)) (k : Key) : Py α :=
  match c.lookup k with
  | none => .error .key
  | some v => .ok v

/-- `ndim` of `idwtn` (_multidim.py L279-283). -/
def idwtnDim (axes : Option (List Int)) (ndim_transform dataDim : Nat) : Nat :=
  match axes with
  | none => ndim_transform
  | some _ => dataDim

/-- `idwtn` (_multidim.py L219-311). -/
def idwtn (coeffs : CDict M) (wavelet : PerAxis (Wavelet R)) (mode : PerAxis Mode)
    (axes : Option (List Int)) : Py (Option (Arr M)) := do
  let cs := dropNone coeffs
  if !keysOk (cs.map (·.1)) then throw .value
  match cs with
  | [] => throw .value
  | (k0, v0) :: _ =>
    if cs.any fun p => p.2.shape ≠ v0.shape then throw .value
    let ndim := idwtnDim axes k0.length v0.shape.length
    let axes := normAxes ndim (axes.getD (rangeAxes k0.length))
    let modes ← mode.expand axes.length
    let wavelets ← wavelet.expand axes.length
    let r ← idwtnLoop ndim (zipStages axes wavelets modes).reverse
      (cs.map fun p => (p.1, some p.2))
    lookupKey r []

/-- `len(np.unique(axes))` -/
def numUnique (axes : List Int) : Nat := axes.dedup.length

/-- `dwt2` (_multidim.py L22-72). -/
def dwt2 (data : Arr M) (wavelet : PerAxis (Wavelet R)) (mode : PerAxis Mode)
    (axes : List Int) : Py (Arr M × (Arr M × Arr M × Arr M)) := do
  if axes.length ≠ 2 then throw .value
  if data.ndim < numUnique axes then throw .value
  let c ← dwtn data wavelet mode (some axes)
  let aa ← lookupKey c ['a', 'a']
  let da ← lookupKey c ['d', 'a']
  let ad ← lookupKey c ['a', 'd']
  let dd ← lookupKey c ['d', 'd']
  pure (aa, (da, ad, dd))

/-- `idwt2` (_multidim.py L75-116). -/
def idwt2 (coeffs : Option (Arr M) × (Option (Arr M) × Option (Arr M) × Option (Arr M)))
    (wavelet : PerAxis (Wavelet R)) (mode : PerAxis Mode) (axes : List Int) :
    Py (Option (Arr M)) := do
  let (LL, (HL, LH, HH)) := coeffs
  if axes.length ≠ 2 then throw .value
  idwtn [(['a', 'a'], LL), (['d', 'a'], HL), (['a', 'd'], LH), (['d', 'd'], HH)] wavelet mode
    (some axes)

end Pywt
