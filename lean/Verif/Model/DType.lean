import Verif.Model.SwtN
import Verif.Model.Pack
import Verif.Model.Ravel

/-!
# Model of the data types of the transforms

The other model files compute with one type of samples.  Here arrays carry a NumPy dtype, and the
code that inspects and changes dtypes is modelled: `_check_dtype`, `np.asarray(x, dtype)` and `astype`,
the promotion of unequal dtypes, and the choice of the C function by dtype.

The samples are complex numbers of an abstract kind `M` with a real-part function `re`; an array of a
real dtype holds samples of `M` too.  Simplifications:
* a cast from a complex to a real dtype applies `re`, every other cast keeps the values: the rounding
  of a cast to a lower precision and of integers to floats is not modelled (its occurrence shows in the
  dtype);
* arrays of Python objects, structured and string dtypes are not modelled.
-/

namespace Pywt

/-- The NumPy dtypes of numeric arrays. -/
inductive DType
  | bool
  /-- signed or unsigned integers of a number of bytes -/
  | int (signed : Bool) (bytes : Nat)
  | f16 | f32 | f64 | f128
  | c64 | c128 | c256
  deriving DecidableEq, Repr

namespace DType

/-- `dtype.kind == 'c'` -/
def isComplex : DType → Bool
  | .c64 | .c128 | .c256 => true
  | _ => false

/-- `dtype.itemsize` -/
def itemsize : DType → Nat
  | .bool => 1
  | .int _ b => b
  | .f16 => 2
  | .f32 => 4
  | .f64 => 8
  | .f128 => 16
  | .c64 => 8
  | .c128 => 16
  | .c256 => 32

/-- `_check_dtype` (_pywt.pyx L1033-1050) of an array: the dtype itself if there are C functions for
it, otherwise the one the data is converted to. -/
def check : DType → DType
  | .f64 => .f64
  | .f32 => .f32
  | .c64 => .c64
  | .c128 => .c128
  | .f16 => .f32
  | .c256 => .c128
  | _ => .f64

/-- The dtype to which two arrays of unequal dtypes are cast (_dwt.py L266-271, _swt.py L235-241,
_multidim.py L299-305). -/
def upcast (a d : DType) : DType :=
  if a.isComplex || d.isComplex then .c128 else .f64

/-- The number of bits of the floating point numbers that NumPy's promotion rules ask for. -/
def bits : DType → Nat
  | .bool => 16
  | .int _ b => if b ≤ 1 then 16 else if b ≤ 2 then 32 else 64
  | .f16 => 16
  | .f32 => 32
  | .f64 => 64
  | .f128 => 128
  | .c64 => 32
  | .c128 => 64
  | .c256 => 128

/-- `np.result_type` of a floating point or complex dtype of at least single precision and others. -/
def resultType (d : DType) (ds : List DType) : DType :=
  let b := (ds.map bits).foldl max d.bits
  let c := ds.foldl (fun c e => c || e.isComplex) d.isComplex
  if b ≤ 32 then (if c then .c64 else .f32)
  else if b ≤ 64 then (if c then .c128 else .f64)
  else (if c then .c256 else .f128)

end DType

/-- An array with its dtype: `val` is the list or the n-D array of its values. -/
structure Typed (α : Type) where
  dtype : DType
  val : α
  deriving DecidableEq, Repr

/-- One value cast from one dtype to another. -/
def castVal {M : Type} (re : M → M) (src dst : DType) (v : M) : M :=
  if src.isComplex && !dst.isComplex then re v else v

/-- `x.astype(dt)` of a 1-D array. -/
def Typed.astype {M : Type} (re : M → M) (x : Typed (List M)) (dt : DType) : Typed (List M) :=
  ⟨dt, x.val.map (castVal re x.dtype dt)⟩

/-- All elements of an array changed by `f`. -/
def Arr.mapEl {M : Type} (f : M → M) (a : Arr M) : Arr M := ⟨a.shape, a.data.map f, by simp [a.ok]⟩

/-- `x.astype(dt)` of an n-D array. -/
def Typed.astypeN {M : Type} (re : M → M) (x : Typed (Arr M)) (dt : DType) : Typed (Arr M) :=
  ⟨dt, x.val.mapEl (castVal re x.dtype dt)⟩

/-- An argument that may be an array or a Python sequence of numbers; `inferred` is the dtype that
`np.asarray(x)` chooses for the sequence. -/
inductive Like (M : Type)
  | arr (a : Typed (List M))
  | seq (inferred : DType) (vals : List M)

/-- `_check_dtype` (_pywt.pyx L1033-1050): a sequence has no attribute `dtype`. -/
def Like.check {M : Type} : Like M → DType
  | .arr a => a.dtype.check
  | .seq _ _ => .f64

/-- `np.asarray(x, dtype=dt)`: Python's complex numbers are not converted to real ones. -/
def Like.asarray {M : Type} (re : M → M) (x : Like M) (dt : DType) : Py (Typed (List M)) :=
  match x with
  | .arr a => .ok (a.astype re dt)
  | .seq inferred vals =>
      if inferred.isComplex && !dt.isComplex then .error .type else .ok ⟨dt, vals⟩

/-- `np.asarray(x)` -/
def Like.asarray' {M : Type} : Like M → Typed (List M)
  | .arr a => a
  | .seq inferred vals => ⟨inferred, vals⟩

/-- A call of the C function for samples of type `T` with arrays whose dtypes are `ds`: an array of
another dtype is memory of another layout, and the function reads garbage or beyond its end. -/
def kern {β : Type} (T : DType) (ds : List DType) (k : Py β) : Py β :=
  if ds.all fun d => d = T then k else .error (.c .oob)

/-- `if dtype == np.float64: … elif dtype == np.float32: … ` (_dwt.pyx L35-80, L117-176, L201-243,
L287-336, and the fused type `cdata_t`): one branch per supported dtype. -/
def dispatch {β : Type} (d : DType) (branch : DType → Py β) : Py β :=
  if d = .f64 then branch .f64
  else if d = .f32 then branch .f32
  else if d = .c128 then branch .c128
  else if d = .c64 then branch .c64
  else .error .type

section OneD

variable {R M : Type} [Ring R] [AddCommGroup M] [Module R M] (re : M → M)

/-- `dwt_single` (_dwt.pyx L26-82): the outputs are allocated with the dtype of the branch. -/
def tdwtSingle (w : Wavelet R) (mode : Mode) (data : Typed (List M)) :
    Py (Typed (List M) × Typed (List M)) :=
  dispatch data.dtype fun T => kern T [data.dtype] do
    let r ← dwtSingle w mode data.val
    pure (⟨T, r.1⟩, ⟨T, r.2⟩)

/-- `pywt.dwt` on 1-D data (_dwt.py L170-188). -/
def tdwt (w : Wavelet R) (mode : Mode) (data : Like M) : Py (Typed (List M) × Typed (List M)) := do
  let dt := data.check
  let data ← data.asarray re dt
  let (cA, cD) ← tdwtSingle w mode data
  pure (cA.astype re dt, cD.astype re dt)

/-- `idwt_single` (_dwt.pyx L182-243). -/
def tidwtSingle (w : Wavelet R) (mode : Mode) (cA cD : Typed (List M)) : Py (Typed (List M)) := do
  if cA.val.length ≠ cD.val.length then throw .value
  if cA.dtype ≠ cD.dtype then throw .value
  dispatch cA.dtype fun T => kern T [cA.dtype, cD.dtype] do
    let r ← idwtSingle w mode cA.val cD.val
    pure ⟨T, r⟩

/-- `pywt.idwt` on 1-D coefficients (_dwt.py L251-292). -/
def tidwt (w : Wavelet R) (mode : Mode) (cA cD : Option (Like M)) : Py (Typed (List M)) := do
  match cA, cD with
  | none, none => throw .value
  | some a, some d => do
      let a ← a.asarray re a.check
      let d ← d.asarray re d.check
      if a.dtype ≠ d.dtype then
        let dtype := a.dtype.upcast d.dtype
        tidwtSingle w mode (a.astype re dtype) (d.astype re dtype)
      else tidwtSingle w mode a d
  | none, some d => do
      let d ← d.asarray re d.check
      tidwtSingle w mode ⟨d.dtype, zeros d.val.length⟩ d
  | some a, none => do
      let a ← a.asarray re a.check
      tidwtSingle w mode a ⟨a.dtype, zeros a.val.length⟩

/-- `pywt.downcoef` (_dwt.py L329-342, _dwt.pyx L432-510): every array of the loop has the type of the
branch. -/
def tdowncoef (part : String) (w : Wavelet R) (mode : Mode) (level : Int) (data : Like M) :
    Py (Typed (List M)) := do
  let data ← data.asarray re data.check
  dispatch data.dtype fun T => kern T [data.dtype] do
    let r ← downcoef part w mode level data.val
    pure ⟨T, r⟩

/-- `pywt.upcoef` (_dwt.py L390-401, _dwt.pyx L339-429). -/
def tupcoef (part : String) (w : Wavelet R) (level : Int) (take : Nat) (coeffs : Like M) :
    Py (Typed (List M)) := do
  let coeffs ← coeffs.asarray re coeffs.check
  dispatch coeffs.dtype fun T => kern T [coeffs.dtype] do
    let r ← upcoef part w level take coeffs.val
    pure ⟨T, r⟩

/-- The loop of `wavedec` (_multilevel.py L101-107). -/
def twavedecLoop (w : Wavelet R) (mode : Mode) :
    Nat → Typed (List M) → List (Typed (List M)) → Py (List (Typed (List M)))
  | 0, a, coeffs_list => .ok (coeffs_list ++ [a]).reverse
  | n + 1, a, coeffs_list => do
      let (a, d) ← tdwt re w mode (.arr a)
      twavedecLoop w mode n a (coeffs_list ++ [d])

/-- `pywt.wavedec` on 1-D data (_multilevel.py L90-109). -/
def twavedec (w : Wavelet R) (mode : Mode) (level : Option Int) (data : Like M) :
    Py (List (Typed (List M))) := do
  let data := data.asarray'
  let level ← checkLevel [data.val.length] [w.dec_len] level
  twavedecLoop re w mode level data []

/-- The trimming step of `waverec` (_multilevel.py L166-171): a slice has the dtype of the array. -/
def twaverecTrim (a d : Option (Typed (List M))) : Py (Option (Typed (List M))) :=
  match a, d with
  | some a, some d =>
      if a.val.length = d.val.length + 1 then .ok (some ⟨a.dtype, a.val.take d.val.length⟩)
      else if a.val.length ≠ d.val.length then .error .value
      else .ok (some a)
  | a, _ => .ok a

/-- The loop of `waverec` (_multilevel.py L158-174). -/
def twaverecLoop (w : Wavelet R) (mode : Mode) :
    Option (Typed (List M)) → List (Option (Typed (List M))) → Py (Option (Typed (List M)))
  | a, [] => .ok a
  | a, d :: ds => do
      let a ← twaverecTrim a d
      let r ← tidwt re w mode (a.map .arr) (d.map .arr)
      twaverecLoop w mode (some r) ds

/-- `pywt.waverec` on 1-D coefficients (_multilevel.py L147-176); the coefficients are arrays or
`None`. -/
def twaverec (w : Wavelet R) (mode : Mode) (coeffs : List (Option (Typed (List M)))) :
    Py (Option (Typed (List M))) :=
  match coeffs with
  | [] => .error .value
  | [a] => .ok a
  | a :: ds => twaverecLoop re w mode a ds

/-- The arrays of an output of `swt` with a dtype. -/
def SwtCoeffs.typed {A : Type} (T : DType) : SwtCoeffs A → SwtCoeffs (Typed A)
  | .pairs l => .pairs (l.map fun p => (⟨T, p.1⟩, ⟨T, p.2⟩))
  | .trimmed l => .trimmed (l.map fun a => ⟨T, a⟩)

/-- `pywt.swt` on 1-D data (_swt.py L129-153, _swt.pyx L54-158): every array has the type of the
branch. -/
def tswt (w : Wavelet R) (level : Option Int) (start_level : Int) (trim_approx : Bool)
    (norm : Option R) (data : Like M) : Py (SwtCoeffs (Typed (List M))) := do
  let data ← data.asarray re data.check
  dispatch data.dtype fun T => kern T [data.dtype] do
    let r ← swt w level start_level trim_approx norm data.val
    pure (r.typed T)

variable [Invertible (2 : R)]

/-- One iteration of the inner loop of `iswt` (_swt.py L244-267): `idwt_single` of slices of the two
arrays, whose results are written into `output`. -/
def tiswtPhase (w : Wavelet R) (step_size : Nat) (cD output : Typed (List M)) (first : Nat) :
    Py (Typed (List M)) := do
  let indices := arange first cD.val.length step_size
  let even_indices := evens indices
  let odd_indices := odds indices
  let oe ← gather output.val even_indices
  let de ← gather cD.val even_indices
  let x1 ← tidwtSingle w .periodization ⟨output.dtype, oe⟩ ⟨cD.dtype, de⟩
  let oo ← gather output.val odd_indices
  let dO ← gather cD.val odd_indices
  let x2 ← tidwtSingle w .periodization ⟨output.dtype, oo⟩ ⟨cD.dtype, dO⟩
  let x2 := roll1 x2.val
  if x1.val.length ≠ x2.length then throw .value
  let avg := List.zipWith (fun u v => (⅟2 : R) • (u + v)) x1.val x2
  if avg.length ≠ indices.length then throw .value
  pure ⟨output.dtype, scatter output.val indices (avg.map (castVal re x1.dtype output.dtype))⟩

/-- The loop over the levels of `iswt` (_swt.py L228-267). -/
def tiswtLoop (w : Wavelet R) : List (Like M) → Typed (List M) → Py (Typed (List M))
  | [], output => .ok output
  | cD :: rest, output => do
      let step_size := 2 ^ rest.length
      let cD ← cD.asarray re cD.check
      let p :=
        if cD.dtype ≠ output.dtype then
          (output.astype re (output.dtype.upcast cD.dtype), cD.astype re (output.dtype.upcast cD.dtype))
        else (output, cD)
      let output ← (List.range step_size).foldlM (tiswtPhase re w step_size p.2) p.1
      tiswtLoop w rest output

/-- `pywt.iswt` on 1-D coefficients with `trim_approx` (_swt.py L187-269), for the approximation `cA`,
which must be an array (`cA.ndim`), and the details from the coarsest level on.  (The list of pairs
gives the same loop with the approximation of the first pair.) -/
def tiswt (w : Wavelet R) (norm : Option R) (cA : Typed (List M)) (cDs : List (Like M)) :
    Py (Typed (List M)) :=
  tiswtLoop re (w.normed norm) cDs (cA.astype re cA.dtype.check)

end OneD

section ND

variable {R M : Type} [Ring R] [AddCommGroup M] [Module R M] (re : M → M)

/-- `dwt_axis` (_dwt.pyx L85-179): `data.astype(_check_dtype(data))`, outputs of the same dtype. -/
def tdwtAxisU (w : Wavelet R) (mode : Mode) (axis : Int) (x : Typed (Arr M)) :
    Py (Typed (Arr M) × Typed (Arr M)) :=
  let x := x.astypeN re x.dtype.check
  dispatch x.dtype fun T => kern T [x.dtype] do
    let r ← dwtAxisU w mode axis x.val
    pure (⟨x.dtype, r.1⟩, ⟨x.dtype, r.2⟩)

/-- The body of the loop of `dwtn` (_multidim.py L184-189). -/
def tdwtnStep (axis : Int) (w : Wavelet R) (mode : Mode) :
    List (Key × Typed (Arr M)) → Py (List (Key × Typed (Arr M)))
  | [] => pure []
  | (subband, x) :: rest => do
      let (cA, cD) ← tdwtAxisU re w mode axis x
      let rest ← tdwtnStep axis w mode rest
      pure ((subband ++ ['a'], cA) :: (subband ++ ['d'], cD) :: rest)

/-- The loop of `dwtn` (_multidim.py L182-189). -/
def tdwtnLoop : List (Int × Wavelet R × Mode) → List (Key × Typed (Arr M)) →
    Py (List (Key × Typed (Arr M)))
  | [], coeffs => pure coeffs
  | (axis, w, mode) :: rest, coeffs => do
      let coeffs ← tdwtnStep re axis w mode coeffs
      tdwtnLoop rest coeffs

/-- `dwtn` (_multidim.py L119-190). -/
def tdwtn (data : Typed (Arr M)) (wavelet : PerAxis (Wavelet R)) (mode : PerAxis Mode)
    (axes : Option (List Int)) : Py (List (Key × Typed (Arr M))) := do
  if data.val.ndim < 1 then throw .value
  let axes := normAxes data.val.ndim (axes.getD (rangeAxes data.val.ndim))
  let modes ← mode.expand axes.length
  let wavelets ← wavelet.expand axes.length
  tdwtnLoop re (zipStages axes wavelets modes) [([], data)]

/-- A dict of coefficient arrays with dtypes; the value `none` is `None`. -/
abbrev TDict (M : Type) := List (Key × Option (Typed (Arr M)))

/-- `coeffs.get(key, None)` -/
def TDict.get (c : TDict M) (k : Key) : Option (Typed (Arr M)) := (c.lookup k).join

/-- `idwt_axis` (_dwt.pyx L246-336).  The promotion compares item sizes: `coefs_a` is cast first, then
`coefs_d` with the new dtype of `coefs_a`. -/
def tidwtAxis (w : Wavelet R) (mode : Mode) (axis : Nat) (ca cd : Option (Typed (Arr M))) :
    Py (Option (Typed (Arr M))) :=
  let ca : Option (Typed (Arr M)) := ca.map fun a => a.astypeN re <|
    match cd with
    | some d => if d.dtype.itemsize > a.dtype.itemsize then d.dtype.check else a.dtype.check
    | none => a.dtype.check
  let cd : Option (Typed (Arr M)) := cd.map fun d => d.astypeN re <|
    match ca with
    | some a => if a.dtype.itemsize > d.dtype.itemsize then a.dtype.check else d.dtype.check
    | none => d.dtype.check
  match ca <|> cd with
  | none => pure none
  | some o =>
    dispatch o.dtype fun T =>
      kern T (ca.toList.map (·.dtype) ++ cd.toList.map (·.dtype) ++ [o.dtype]) do
        let r ← idwtAxis w mode axis (ca.map (·.val)) (cd.map (·.val))
        pure (r.map fun v => ⟨o.dtype, v⟩)

/-- The upcast of `idwtn` (_multidim.py L297-307). -/
def upcastPair (L H : Option (Typed (Arr M))) : Option (Typed (Arr M)) × Option (Typed (Arr M)) :=
  match L, H with
  | some l, some h =>
      if l.dtype ≠ h.dtype then
        (some (l.astypeN re (l.dtype.upcast h.dtype)), some (h.astypeN re (l.dtype.upcast h.dtype)))
      else (some l, some h)
  | L, H => (L, H)

/-- The body of the loop of `idwtn` (_multidim.py L293-309). -/
def tidwtnStep (axis : Nat) (w : Wavelet R) (mode : Mode) (coeffs : TDict M) :
    List Key → Py (TDict M)
  | [] => pure []
  | key :: rest => do
      let LH := upcastPair re (TDict.get coeffs (key ++ ['a'])) (TDict.get coeffs (key ++ ['d']))
      let r ← tidwtAxis re w mode axis LH.1 LH.2
      let rest ← tidwtnStep axis w mode coeffs rest
      pure ((key, r) :: rest)

/-- The loop of `idwtn` (_multidim.py L288-309). -/
def tidwtnLoop (ndim : Nat) : List (Int × Wavelet R × Mode) → TDict M → Py (TDict M)
  | [], coeffs => pure coeffs
  | (axis, w, mode) :: rest, coeffs => do
      if axis < 0 ∨ axis ≥ ndim then throw .axis
      let coeffs ← tidwtnStep re axis.toNat w mode coeffs (words rest.length)
      tidwtnLoop ndim rest coeffs

/-- `{k: v for k, v in coeffs.items() if v is not None}` -/
def tdropNone (c : TDict M) : List (Key × Typed (Arr M)) :=
  c.filterMap fun p => p.2.map fun v => (p.1, v)

/-- `idwtn` (_multidim.py L219-311). -/
def tidwtn (coeffs : TDict M) (wavelet : PerAxis (Wavelet R)) (mode : PerAxis Mode)
    (axes : Option (List Int)) : Py (Option (Typed (Arr M))) := do
  let cs := tdropNone coeffs
  if !keysOk (cs.map (·.1)) then throw .value
  match cs with
  | [] => throw .value
  | (k0, v0) :: _ =>
    if cs.any fun p => p.2.val.shape ≠ v0.val.shape then throw .value
    let ndim := idwtnDim axes k0.length v0.val.shape.length
    let axes := normAxes ndim (axes.getD (rangeAxes k0.length))
    let modes ← mode.expand axes.length
    let wavelets ← wavelet.expand axes.length
    let r ← tidwtnLoop re ndim (zipStages axes wavelets modes).reverse
      (cs.map fun p => (p.1, some p.2))
    lookupKey r []

/-- `{key: value[slices] for key, value in details.items()}` -/
def tsliceDict (sl : List Stride) : List (Key × Typed (Arr M)) → Py (List (Key × Typed (Arr M)))
  | [] => pure []
  | (k, v) :: d => do
      let x ← v.val.getStrides sl
      let d ← tsliceDict sl d
      pure ((k, ⟨v.dtype, x⟩) :: d)

/-- One iteration of the loop over `odds` of `iswtn` (_swt.py L798-819): `+=` keeps the dtype of
`output` and does not accept complex numbers for a real one. -/
def tiswtnOdd (c : IswtnArgs R) (step : Nat) (firsts sh : List Nat)
    (details : List (Key × Typed (Arr M))) (approx output : Typed (Arr M)) (odds : List Nat) :
    Py (Typed (Arr M)) := do
  let sl := placeSlices c.ndim c.axs (oddEven step firsts sh odds)
  let ds ← tsliceDict sl details
  let a ← approx.val.getStrides sl
  let all := dictSet ds (aKey c.m) ⟨approx.dtype, a⟩
  match ← tidwtn re (all.map fun p => (p.1, some p.2)) (.many c.wavelets) (.one .periodization)
      (some c.axes) with
  | none => throw .attr                 -- unreachable: all arrays are present
  | some x =>
      if x.dtype.isComplex && !output.dtype.isComplex then throw .type
      let r ← output.val.addStrides
        (placeSlices c.ndim c.axs ((firsts.zip sh).map fun p => .by p.1 p.2 step))
        (rollOdds c.axs odds x.val)
      pure ⟨output.dtype, r⟩

variable [Invertible (2 : R)]

/-- One iteration of the loop over `firsts` of `iswtn` (_swt.py L786-820). -/
def tiswtnFirst (c : IswtnArgs R) (step : Nat) (sh : List Nat) (details : List (Key × Typed (Arr M)))
    (output : Typed (Arr M)) (firsts : List Nat) : Py (Typed (Arr M)) := do
  let sl := placeSlices c.ndim c.axs ((firsts.zip sh).map fun p => .by p.1 p.2 step)
  let r ← (product [0, 1] c.m).foldlM (tiswtnOdd re c step firsts sh details output)
    ⟨output.dtype, output.val.updStrides sl fun _ _ => 0⟩
  pure ⟨r.dtype, r.val.updStrides sl fun _ v => ((⅟2 : R) ^ c.m) • v⟩

/-- One level of `iswtn` (_swt.py L771-820).  `dt` is the dtype of the coarsest approximation: the
common dtype is computed from it and the details of this level only. -/
def tiswtnLevel (dt : DType) (axes : List Int) (wavelets : List (Wavelet R)) (m step : Nat)
    (details : List (Key × Typed (Arr M))) (output : Typed (Arr M)) : Py (Typed (Arr M)) := do
  let common := dt.resultType (details.map fun p => p.2.dtype)
  let output := if output.dtype ≠ common then output.astypeN re common else output
  match details with
  | [] => throw .runtime
  | (_, d0) :: _ =>
    if details.any fun p => p.2.val.shape ≠ d0.val.shape then throw .runtime
    let pos ← axes.mapM (listIx d0.val.ndim)
    let sh := pos.map fun ax => d0.val.shape.getD ax 0
    let axs ← axes.mapM (listIx output.val.ndim)
    (product (List.range step) m).foldlM
      (tiswtnFirst re ⟨axes, axs, wavelets, output.val.ndim, m⟩ step sh details) output

/-- The loop of `iswtn` over the levels, with `trim_approx` (_swt.py L764-824). -/
def tiswtnLoop (dt : DType) (axes : List Int) (wavelets : List (Wavelet R)) (m : Nat) :
    List (List (Key × Typed (Arr M))) → Typed (Arr M) → Py (Typed (Arr M))
  | [], output => .ok output
  | d :: rest, output => do
      let output ← tiswtnLevel re dt axes wavelets m (2 ^ rest.length) d output
      tiswtnLoop dt axes wavelets m rest output

/-- A dict without its dtypes. -/
def eraseDict (d : List (Key × Typed (Arr M))) : ADict M := d.map fun p => (p.1, p.2.val)

/-- `pywt.iswtn` with `trim_approx` (_swt.py L718-825), for the approximation `cA` and the dicts of
details.  The checks before the loop do not look at dtypes. -/
def tiswtn (cA : Typed (Arr M)) (ds : List (List (Key × Typed (Arr M))))
    (wavelet : PerAxis (Wavelet R)) (axes : Option (List Int)) (norm : Option R) :
    Py (Typed (Arr M)) := do
  let (m, _, axes, wavelets) ←
    iswtnPrep (.trimmed cA.val (ds.map eraseDict)) wavelet axes norm
  tiswtnLoop re cA.dtype.check axes wavelets m ds (cA.astypeN re cA.dtype.check)

/-- `idwt2((output[h, w], …), wavelets, 'periodization')` of `iswt2` (_swt.py L508-527). -/
def tiswt2Part (ws : List (Wavelet R)) (output cH cV cD : Typed (Arr M)) (h w : Stride) :
    Py (Typed (Arr M)) := do
  let a ← output.val.getStrides [h, w]
  let xH ← cH.val.getStrides [h, w]
  let xV ← cV.val.getStrides [h, w]
  let xD ← cD.val.getStrides [h, w]
  match ← tidwtn re [(['a', 'a'], some ⟨output.dtype, a⟩), (['d', 'a'], some ⟨cH.dtype, xH⟩),
      (['a', 'd'], some ⟨cV.dtype, xV⟩), (['d', 'd'], some ⟨cD.dtype, xD⟩)] (.many ws)
      (.one .periodization) (some [-2, -1]) with
  | none => throw .attr                 -- unreachable
  | some x => pure x

/-- One iteration of the loops over `first_h`, `first_w` of `iswt2` (_swt.py L495-535): the
assignment to a slice of `output` casts to its dtype. -/
def tiswt2Phase (ws : List (Wavelet R)) (step : Nat) (cH cV cD output : Typed (Arr M))
    (first : Nat × Nat) : Py (Typed (Arr M)) := do
  let H := cH.val.shape.getD 0 0
  let W := cH.val.shape.getD 1 0
  let even_h := Stride.by first.1 H (2 * step)
  let even_w := Stride.by first.2 W (2 * step)
  let odd_h := Stride.by (first.1 + step) H (2 * step)
  let odd_w := Stride.by (first.2 + step) W (2 * step)
  let x1 ← tiswt2Part re ws output cH cV cD even_h even_w
  let x2 ← tiswt2Part re ws output cH cV cD even_h odd_w
  let x3 ← tiswt2Part re ws output cH cV cD odd_h even_w
  let x4 ← tiswt2Part re ws output cH cV cD odd_h odd_w
  let y1 := x1.val
  let y2 := x2.val.roll1 1
  let y3 := x3.val.roll1 0
  let y4 := (x4.val.roll1 0).roll1 1
  if y1.shape ≠ y2.shape ∨ y1.shape ≠ y3.shape ∨ y1.shape ≠ y4.shape then throw .value
  let sl := [Stride.by first.1 H step, Stride.by first.2 W step]
  if y1.shape ≠ strideShape output.val.shape sl then throw .value
  let T := x1.dtype.resultType [x2.dtype, x3.dtype, x4.dtype]
  pure ⟨output.dtype, output.val.updStrides sl fun c _ =>
    castVal re T output.dtype (((⅟2 : R) ^ 2) • (y1.get c + y2.get c + y3.get c + y4.get c))⟩

/-- The loop over the levels of `iswt2` (_swt.py L474-535), with the same common dtype as in
`iswtn`. -/
def tiswt2Loop (dt : DType) (ws : List (Wavelet R)) :
    List (Typed (Arr M) × Typed (Arr M) × Typed (Arr M)) → Typed (Arr M) → Py (Typed (Arr M))
  | [], output => .ok output
  | (cH, cV, cD) :: rest, output => do
      if cH.val.shape ≠ cV.val.shape ∨ cH.val.shape ≠ cD.val.shape then throw .runtime
      let common := dt.resultType [cH.dtype.check, cV.dtype.check, cD.dtype.check]
      let output := if output.dtype ≠ common then output.astypeN re common else output
      if cH.val.ndim < 2 then throw .index
      let step := 2 ^ rest.length
      let output ← ((List.range step).flatMap fun h => (List.range step).map fun w => (h, w)).foldlM
        (tiswt2Phase re ws step cH cV cD) output
      tiswt2Loop dt ws rest output

/-- `pywt.iswt2` with `trim_approx` of a 2-D approximation and `axes=(-2, -1)` (_swt.py L456-537). -/
def tiswt2 (cA : Typed (Arr M)) (ds : List (Typed (Arr M) × Typed (Arr M) × Typed (Arr M)))
    (wavelet : PerAxis (Wavelet R)) (norm : Option R) : Py (Typed (Arr M)) := do
  if cA.val.ndim ≠ 2 then throw .value
  let wavelets ← wavelet.expand 2
  tiswt2Loop re cA.dtype.check (wavelets.map fun w => w.normed norm) ds
    (cA.astypeN re cA.dtype.check)

end ND

section Other

variable {M : Type} [AddCommGroup M] (re : M → M)

/-- An entry of a list of coefficients whose arrays have dtypes (`Item`). -/
inductive TItem (M : Type)
  | null
  | arr (a : Typed (Arr M))
  | tup (l : List (Option (Typed (Arr M))))
  | dict (d : TDict M)

/-- The entry as it is stored in an array of dtype `T`: an assignment to a slice of an array casts. -/
def TItem.stored (T : DType) : TItem M → Item M
  | .null => .null
  | .arr a => .arr (a.astypeN re T).val
  | .tup l => .tup (l.map fun o => o.map fun a => (a.astypeN re T).val)
  | .dict d => .dict (d.map fun p => (p.1, p.2.map fun a => (a.astypeN re T).val))

/-- The entry without dtypes. -/
def TItem.erase : TItem M → Item M
  | .null => .null
  | .arr a => .arr a.val
  | .tup l => .tup (l.map fun o => o.map fun a => a.val)
  | .dict d => .dict (d.map fun p => (p.1, p.2.map fun a => a.val))

/-- The dtypes of the arrays of an entry. -/
def TItem.dtypes : TItem M → List DType
  | .null => []
  | .arr a => [a.dtype]
  | .tup l => l.filterMap fun o => o.map fun a => a.dtype
  | .dict d => d.filterMap fun p => p.2.map fun a => a.dtype

/-- `coeffs_to_array` (_multilevel.py L674-798) for coefficients that begin with the array `a`: the
packed array is allocated with `dtype=a_coeffs.dtype`. -/
def tcoeffsToArray (a : Typed (Arr M)) (ds : List (TItem M)) (padding : Option M)
    (axes : Option (List Int)) (junk : Nat → M) : Py (Typed (Arr M) × List SliceItem) := do
  let r ← coeffsToArray (.arr a.val :: ds.map (TItem.stored re a.dtype)) padding axes junk
  pure (⟨a.dtype, r.1⟩, r.2)

/-- `ravel_coeffs` (_multilevel.py L1034-1116) for coefficients that begin with the array `a`, with the
same allocation. -/
def travelCoeffs (a : Typed (Arr M)) (ds : List (TItem M)) (axes : Option (List Int))
    (junk : Nat → M) : Py (Typed (List M) × List RSlice × List ShapeItem) := do
  let r ← ravelCoeffs (.arr a.val :: ds.map (TItem.stored re a.dtype)) axes junk
  pure (⟨a.dtype, r.1⟩, r.2)

/-- `BaseNode.__setitem__` with an empty path (_wavelet_packets.py L295-304): the argument is a node,
whose data is taken, or an array or sequence.  `_check_dtype` is called with the argument. -/
def tsetData (isNode : Bool) (data : Like M) : Typed (List M) :=
  let self := data.asarray'
  let dtype := if isNode then .f64 else data.check
  if self.dtype ≠ dtype then self.astype re dtype else self

end Other

end Pywt
