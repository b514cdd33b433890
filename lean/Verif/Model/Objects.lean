import Verif.Model.AxisMulti

/-!
# Model of mode objects, per-axis arguments and `Wavelet` objects

`pywt/_extensions/_pywt.pyx` (`_Modes`, `Wavelet`), `pywt/_utils.py`, and `blank_discrete_wavelet` of
`pywt/_extensions/c/wavelets.c`.

Not modelled: deprecation warnings, the deprecated `MODES` object, subclasses, and filter banks given as
objects with a `filter_bank` attribute or a `get_filters_coeffs` method (the value of that attribute is
what is modelled).
-/

namespace Pywt

/-! ### Extension modes -/

/-- The enumeration `MODE` (common.h L68-96). -/
def Mode.code : Mode → ℤ
  | .zero => 0
  | .symmetric => 1
  | .constant => 2
  | .smooth => 3
  | .periodic => 4
  | .periodization => 5
  | .reflect => 6
  | .antisymmetric => 7
  | .antireflect => 8

/-- `MODE_INVALID` (common.h L69). -/
def modeInvalid : ℤ := -1

/-- `MODE_MAX` (common.h L95). -/
def modeMax : ℤ := 9

/-- The class attributes of `_Modes` that are modes (_pywt.pyx L100-108). -/
def modeAttrs : List (String × Mode) :=
  [("zero", .zero), ("constant", .constant), ("symmetric", .symmetric), ("reflect", .reflect),
   ("periodic", .periodic), ("smooth", .smooth), ("periodization", .periodization),
   ("antisymmetric", .antisymmetric), ("antireflect", .antireflect)]

/-- `_Modes.modes` (_pywt.pyx L111-112). -/
def modeList : List String :=
  ["zero", "constant", "symmetric", "periodic", "smooth", "periodization", "reflect", "antisymmetric",
   "antireflect"]

/-- `_old_modes` (_pywt.pyx L25-32). -/
def oldModes : List String := ["zpd", "cpd", "sym", "ppd", "sp1", "per"]

/-- What a user passes as a mode: an `int`, a `str`, or something else. -/
inductive ModeArg
  | int (z : ℤ)
  | str (s : String)
  | other
  deriving DecidableEq

/-- What `from_object` returns: a number, or any other attribute of the object `Modes`. -/
inductive ModeObj
  | num (z : ℤ)
  | attr (s : String)
  deriving DecidableEq

/-- Attribute lookup on the instance, without `__getattr__`: the modes, the list `modes`, the methods, and
the attributes every Python object has, given by `dunder`. -/
def modesAttribute (dunder : List String) (s : String) : Option ModeObj :=
  match modeAttrs.lookup s with
  | some m => some (.num m.code)
  | none => if s = "modes" ∨ s = "from_object" ∨ s ∈ dunder then some (.attr s) else none

/-- `getattr(Modes, s)`: normal lookup, then `__getattr__` (_pywt.pyx L129-136).  `none` is
`AttributeError`. -/
def modesGetattr (dunder : List String) (s : String) : Option ModeObj :=
  match modesAttribute dunder s with
  | some o => some o
  | none =>
    if s ∈ oldModes then modesAttribute dunder (modeList.getD (oldModes.idxOf s) "")
    else modesAttribute dunder s

/-- `Modes.from_object` (_pywt.pyx L114-125).  `getattr` with a name that is not a string is a
`TypeError`. -/
def modesFromObject (dunder : List String) : ModeArg → Py ModeObj
  | .int z => if z ≤ modeInvalid ∨ z ≥ modeMax then .error .value else .ok (.num z)
  | .str s =>
    match modesGetattr dunder s with
    | some o => .ok o
    | none => .error .value
  | .other => .error .type

/-- A mode object used as an argument again. -/
def ModeObj.arg : ModeObj → ModeArg
  | .num z => .int z
  | .attr _ => .other

/-- A mode argument of a multidimensional function: an `int` or `str`, an iterable, or something else. -/
inductive ModesArg
  | one (m : ModeArg)
  | many (l : List ModeArg)

/-- `_modes_per_axis` (_utils.py L72-104).  After a one-element sequence has been repeated the names are
resolved a second time, as in the code. -/
def modesPerAxis (dunder : List String) (modes : ModesArg) (naxes : ℕ) : Py (List ModeObj) :=
  match modes with
  | .one .other => .error .value
  | .one m => do
      let o ← modesFromObject dunder m
      pure (List.replicate naxes o)
  | .many [m] => do
      let o ← modesFromObject dunder m
      (List.replicate naxes o).mapM fun o => modesFromObject dunder o.arg
  | .many l =>
      if l.length ≠ naxes then .error .value else l.mapM (modesFromObject dunder)

/-! ### Wavelet objects -/

variable {R : Type} [Ring R]

/-- `blank_discrete_wavelet` (wavelets.c L506-562): the length of the four filters after padding to even
length; the filters are filled with zeros. -/
def blankLength (filters_length : ℕ) : ℕ :=
  if 0 < filters_length ∧ filters_length % 2 = 1 then filters_length + 1 else filters_length

/-- `copy_object_to_float64_array` (_pywt.pyx L1076-1083): writes the items one after the other. -/
def copyObject : List R → ℕ → List R → C (List R)
  | [], _, dest => .ok dest
  | x :: src, i, dest => do
      let dest ← wr dest i x
      copyObject src (i + 1) dest

/-- `Wavelet.__cinit__` with a filter bank (_pywt.pyx L366-422): the filters that are stored.  The
elements of the bank are what `np.asarray` makes of them. -/
def waveletOfBank (filters : List (Arr R)) : Py (Wavelet R) := do
  match filters with
  | [dec_lo, dec_hi, rec_lo, rec_hi] =>
    if ¬ (1 = dec_lo.ndim ∧ dec_lo.ndim = dec_hi.ndim ∧ dec_hi.ndim = rec_lo.ndim ∧
        rec_lo.ndim = rec_hi.ndim) then throw .value
    let filter_length := dec_lo.data.length
    if ¬ (0 < filter_length ∧ filter_length = dec_hi.data.length ∧
        dec_hi.data.length = rec_lo.data.length ∧ rec_lo.data.length = rec_hi.data.length) then
      throw .value
    let blank : List R := List.replicate (blankLength filter_length) 0
    let dl ← liftC (copyObject dec_lo.data 0 blank)
    let dh ← liftC (copyObject dec_hi.data 0 blank)
    let rl ← liftC (copyObject rec_lo.data 0 blank)
    let rh ← liftC (copyObject rec_hi.data 0 blank)
    pure ⟨dl, dh, rl, rh⟩
  | _ => throw .value

/-- The property `filter_bank` (_pywt.pyx L520-525), as arrays. -/
def Wavelet.filterBank (w : Wavelet R) : List (Arr R) :=
  [Arr.of1 w.dec_lo, Arr.of1 w.dec_hi, Arr.of1 w.rec_lo, Arr.of1 w.rec_hi]

/-- The property `inverse_filter_bank` (_pywt.pyx L532-538), as a wavelet. -/
def Wavelet.inverse (w : Wavelet R) : Wavelet R :=
  ⟨w.rec_lo.reverse, w.rec_hi.reverse, w.dec_lo.reverse, w.dec_hi.reverse⟩

/-- Symmetry of a wavelet (wavelets.h). -/
inductive Symmetry
  | unknown | asymmetric | nearSymmetric | symmetric | antiSymmetric
  deriving DecidableEq, Repr

/-- A `Wavelet` object: its filters and its descriptive properties (_pywt.pyx L330-520, wavelets.h). -/
structure WaveletObj (R : Type) where
  name : String
  number : ℕ
  w : Wavelet R
  orthogonal : Bool
  biorthogonal : Bool
  symmetry : Symmetry
  familyName : String
  shortName : String
  vmPsi : ℤ
  vmPhi : ℤ

/-- `Wavelet(name, filter_bank)` (_pywt.pyx L343-422): the properties are the blank ones
(wavelets.c L553-561); `number` keeps its initial value zero. -/
def waveletObjOfBank (name : String) (filters : List (Arr R)) : Py (WaveletObj R) := do
  let w ← waveletOfBank filters
  pure ⟨name, 0, w, false, false, .unknown, "", "", 0, 0⟩

/-- Pickling and unpickling or copying: `__reduce__` (_pywt.pyx L429-430) gives
`(Wavelet, (self.name, self.filter_bank))`. -/
def WaveletObj.unpickle (o : WaveletObj R) : Py (WaveletObj R) := waveletObjOfBank o.name o.w.filterBank

/-! ### Wavelets per axis -/

/-- What a user passes as one wavelet: a `Wavelet`, a `ContinuousWavelet`, a name, or something else
(an object without a `lower` method). -/
inductive WaveletArg (R : Type)
  | obj (w : Wavelet R)
  | cont
  | name (s : String)
  | other

/-- A named wavelet: discrete with its filters, or continuous. -/
inductive NamedWavelet (R : Type)
  | discrete (w : Wavelet R)
  | continuous

/-- `_as_wavelet` (_utils.py L23-34); `named` is the table of built-in names
(`DiscreteContinuousWavelet`, _pywt.pyx L300-328).  The empty name is a `TypeError`. -/
def asWavelet (named : String → Py (NamedWavelet R)) : WaveletArg R → Py (Wavelet R)
  | .obj w => .ok w
  | .cont => .error .value
  | .name s =>
    if s = "" then .error .type
    else
      match named s with
      | .ok (.discrete w) => .ok w
      | .ok .continuous => .error .value
      | .error e => .error e
  | .other => .error .attr

/-- A wavelet argument of a multidimensional function. -/
inductive WaveletsArg (R : Type)
  | one (w : WaveletArg R)
  | many (l : List (WaveletArg R))

/-- `_wavelets_per_axis` (_utils.py L36-69).  A `ContinuousWavelet` object or another object that is not
iterable is rejected. -/
def waveletsPerAxis (named : String → Py (NamedWavelet R)) (wavelet : WaveletsArg R) (naxes : ℕ) :
    Py (List (Wavelet R)) :=
  match wavelet with
  | .one .cont => .error .value
  | .one .other => .error .value
  | .one w => do
      let o ← asWavelet named w
      pure (List.replicate naxes o)
  | .many [w] => do
      let o ← asWavelet named w
      pure (List.replicate naxes o)
  | .many l =>
      if l.length ≠ naxes then .error .value else l.mapM (asWavelet named)

end Pywt
