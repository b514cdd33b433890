import Verif.Model.Builtin
import Mathlib.Analysis.SpecialFunctions.Trigonometric.Basic

/-!
# Model of the continuous wavelets

The wavelet functions of `c/cwt.template.c`, their properties (`continuous_wavelet` of `c/wavelets.c`) and the class
`ContinuousWavelet` of `_pywt.pyx`.  Floating point numbers are real numbers: the wavelet functions are exact, and the
two precisions coincide.
-/

namespace Pywt

open Real

/-- `TYPE_gaus` at one point (cwt.template.c L71-104).  The output is an array of zeros and keeps its value for
another number. -/
noncomputable def gausAt (number : ℕ) (x : ℝ) : ℝ :=
  match number with
  | 1 => -2 * x * exp (-x ^ 2) / √(√(π / 2))
  | 2 => -2 * (2 * x ^ 2 - 1) * exp (-x ^ 2) / √(3 * √(π / 2))
  | 3 => -4 * (-2 * x ^ 3 + 3 * x) * exp (-x ^ 2) / √(15 * √(π / 2))
  | 4 => 4 * (-12 * x ^ 2 + 4 * x ^ 4 + 3) * exp (-x ^ 2) / √(105 * √(π / 2))
  | 5 => 8 * (-4 * x ^ 5 + 20 * x ^ 3 - 15 * x) * exp (-x ^ 2) / √(105 * 9 * √(π / 2))
  | 6 => -8 * (8 * x ^ 6 - 60 * x ^ 4 + 90 * x ^ 2 - 15) * exp (-x ^ 2) / √(105 * 9 * 11 * √(π / 2))
  | 7 => -16 * (-8 * x ^ 7 + 84 * x ^ 5 - 210 * x ^ 3 + 105 * (x))
           * exp (-x ^ 2) / √(105 * 9 * 11 * 13 * √(π / 2))
  | 8 => 16 * (16 * x ^ 8 - 224 * x ^ 6 + 840 * x ^ 4 - 840 * x ^ 2 + 105)
           * exp (-x ^ 2) / √(105 * 9 * 11 * 13 * 15 * √(π / 2))
  | _ => 0

/-- `TYPE_mexh` at one point (cwt.template.c L108-115). -/
noncomputable def mexhAt (x : ℝ) : ℝ :=
  (1 - x ^ 2) * exp (-x ^ 2 / 2) * 2 / (√3 * √(√π))

/-- `TYPE_morl` at one point (cwt.template.c L117-124). -/
noncomputable def morlAt (x : ℝ) : ℝ :=
  cos (5 * x) * exp (-x ^ 2 / 2)

/-- `output_r` of `TYPE_cgau` at one point (cwt.template.c L127-174). -/
noncomputable def cgauRe (number : ℕ) (x : ℝ) : ℝ :=
  match number with
  | 1 => (-2 * x * cos x - sin x) * exp (-x ^ 2) / √(2 * √(π / 2))
  | 2 => (4 * x ^ 2 * cos x + 4 * x * sin x - 3 * cos x) * exp (-x ^ 2) / √(10 * √(π / 2))
  | 3 => (-8 * x ^ 3 * cos x - 12 * x ^ 2 * sin x + 18 * x * cos x + 7 * sin x)
           * exp (-x ^ 2) / √(76 * √(π / 2))
  | 4 => (16 * x ^ 4 * cos x + 32 * x ^ 3 * sin x - 72 * x ^ 2 * cos x - 56 * x * sin x + 25 * cos x)
           * exp (-x ^ 2) / √(764 * √(π / 2))
  | 5 => (-32 * x ^ 5 * cos x - 80 * x ^ 4 * sin x + 240 * x ^ 3 * cos x + 280 * x ^ 2 * sin x -
           250 * x * cos x - 81 * sin x)
           * exp (-x ^ 2) / √(9496 * √(π / 2))
  | 6 => (64 * x ^ 6 * cos x + 192 * x ^ 5 * sin x - 720 * x ^ 4 * cos x - 1120 * x ^ 3 * sin x +
           1500 * x ^ 2 * cos x + 972 * x * sin x - 331 * cos x)
           * exp (-x ^ 2) / √(140152 * √(π / 2))
  | 7 => (-128 * x ^ 7 * cos x - 448 * x ^ 6 * sin x + 2016 * x ^ 5 * cos x + 3920 * x ^ 4 * sin x -
           7000 * x ^ 3 * cos x - 6804 * x ^ 2 * sin x + 4634 * x * cos x + 1303 * sin x)
           * exp (-x ^ 2) / √(2390480 * √(π / 2))
  | 8 => (256 * x ^ 8 * cos x + 1024 * x ^ 7 * sin x - 5376 * x ^ 6 * cos x - 12544 * x ^ 5 * sin x +
           28000 * x ^ 4 * cos x + 36288 * x ^ 3 * sin x - 37072 * x ^ 2 * cos x - 20848 * x * sin x + 5937 * cos x)
           * exp (-x ^ 2) / √(46206736 * √(π / 2))
  | _ => 0

/-- `output_i` of `TYPE_cgau` at one point (cwt.template.c L127-174). -/
noncomputable def cgauIm (number : ℕ) (x : ℝ) : ℝ :=
  match number with
  | 1 => (2 * x * sin x - cos x) * exp (-x ^ 2) / √(2 * √(π / 2))
  | 2 => (-4 * x ^ 2 * sin x + 4 * x * cos x + 3 * sin x) * exp (-x ^ 2) / √(10 * √(π / 2))
  | 3 => (8 * x ^ 3 * sin x - 12 * x ^ 2 * cos x - 18 * x * sin x + 7 * cos x)
           * exp (-x ^ 2) / √(76 * √(π / 2))
  | 4 => (-16 * x ^ 4 * sin x + 32 * x ^ 3 * cos x + 72 * x ^ 2 * sin x - 56 * x * cos x - 25 * sin x)
           * exp (-x ^ 2) / √(764 * √(π / 2))
  | 5 => (32 * x ^ 5 * sin x - 80 * x ^ 4 * cos x - 240 * x ^ 3 * sin x + 280 * x ^ 2 * cos x +
           250 * x * sin x - 81 * cos x)
           * exp (-x ^ 2) / √(9496 * √(π / 2))
  | 6 => (-64 * x ^ 6 * sin x + 192 * x ^ 5 * cos x + 720 * x ^ 4 * sin x - 1120 * x ^ 3 * cos x -
           1500 * x ^ 2 * sin x + 972 * x * cos x + 331 * sin x)
           * exp (-x ^ 2) / √(140152 * √(π / 2))
  | 7 => (128 * x ^ 7 * sin x - 448 * x ^ 6 * cos x - 2016 * x ^ 5 * sin x + 3920 * x ^ 4 * cos x +
           7000 * x ^ 3 * sin x - 6804 * x ^ 2 * cos x - 4634 * x * sin x + 1303 * cos x)
           * exp (-x ^ 2) / √(2390480 * √(π / 2))
  | 8 => (-256 * x ^ 8 * sin x + 1024 * x ^ 7 * cos x + 5376 * x ^ 6 * sin x - 12544 * x ^ 5 * cos x -
           28000 * x ^ 4 * sin x + 36288 * x ^ 3 * cos x + 37072 * x ^ 2 * sin x - 20848 * x * cos x - 5937 * sin x)
           * exp (-x ^ 2) / √(46206736 * √(π / 2))
  | _ => 0

/-- `output_r` of `TYPE_shan` at one point (cwt.template.c L177-191). -/
noncomputable def shanRe (FB FC x : ℝ) : ℝ :=
  let r := cos (2 * π * FC * x) * √FB
  if x ≠ 0 then r * (sin (x * FB * π) / (x * FB * π)) else r

/-- `output_i` of `TYPE_shan` at one point (cwt.template.c L177-191). -/
noncomputable def shanIm (FB FC x : ℝ) : ℝ :=
  let r := sin (2 * π * FC * x) * √FB
  if x ≠ 0 then r * (sin (x * FB * π) / (x * FB * π)) else r

/-- `output_r` of `TYPE_fbsp` at one point (cwt.template.c L193-210).  `pow(_, (TYPE)M)` is the natural power. -/
noncomputable def fbspRe (M : ℕ) (FB FC x : ℝ) : ℝ :=
  if x ≠ 0 then
    cos (2 * π * FC * x) * √FB * (sin (π * x * FB / M) / (π * x * FB / M)) ^ M
  else cos (2 * π * FC * x) * √FB

/-- `output_i` of `TYPE_fbsp` at one point (cwt.template.c L193-210). -/
noncomputable def fbspIm (M : ℕ) (FB FC x : ℝ) : ℝ :=
  if x ≠ 0 then
    sin (2 * π * FC * x) * √FB * (sin (π * x * FB / M) / (π * x * FB / M)) ^ M
  else sin (2 * π * FC * x) * √FB

/-- `output_r` of `TYPE_cmor` at one point (cwt.template.c L214-224). -/
noncomputable def cmorRe (FB FC x : ℝ) : ℝ :=
  cos (2 * π * FC * x) * exp (-x ^ 2 / FB) / √(π * FB)

/-- `output_i` of `TYPE_cmor` at one point (cwt.template.c L214-224). -/
noncomputable def cmorIm (FB FC x : ℝ) : ℝ :=
  sin (2 * π * FC * x) * exp (-x ^ 2 / FB) / √(π * FB)

/-! ### `ContinuousWavelet` objects -/

/-- The C structure `ContinuousWavelet` (wavelets.h L76-87) and the attributes of the Python object.  `family` stands
for `short_name`. -/
structure ContWavelet where
  name : String
  number : ℕ
  family : Family
  symmetry : Symmetry
  familyName : String
  shortName : String
  orthogonal : Bool
  biorthogonal : Bool
  complexCwt : Bool
  lower : ℚ
  upper : ℚ
  center : ℚ
  bandwidth : ℚ
  fbspOrder : ℕ
  deriving DecidableEq

/-- `continuous_wavelet(name, order)` (wavelets.c L355-503); `none` is `NULL`.  The name is filled in by the caller
and allocation does not fail. -/
def continuousWavelet (name : Family) (order : ℕ) : Option ContWavelet :=
  match name with
  | .gaus =>
    if 8 < order then none
    else some ⟨"", order, .gaus, if order % 2 = 0 then .symmetric else .antiSymmetric, "Gaussian", "gaus", false, false,
      false, -5, 5, 0, 0, 0⟩
  | .mexh => some ⟨"", order, .mexh, .symmetric, "Mexican hat wavelet", "mexh", false, false, false, -8, 8, 0, 0, 0⟩
  | .morl => some ⟨"", order, .morl, .symmetric, "Morlet wavelet", "morl", false, false, false, -8, 8, 0, 0, 0⟩
  | .cgau =>
    if 8 < order then none
    else some ⟨"", order, .cgau, if order % 2 = 0 then .symmetric else .antiSymmetric, "Complex Gaussian wavelets",
      "cgau", false, false, true, -5, 5, 0, 0, 0⟩
  | .shan => some ⟨"", order, .shan, .asymmetric, "Shannon wavelets", "shan", false, false, true, -20, 20, 1, 1 / 2, 0⟩
  | .fbsp =>
    some ⟨"", order, .fbsp, .asymmetric, "Frequency B-Spline wavelets", "fbsp", false, false, true, -20, 20, 1 / 2, 1,
      2⟩
  | .cmor =>
    some ⟨"", order, .cmor, .asymmetric, "Complex Morlet wavelets", "cmor", false, false, true, -8, 8, 1 / 2, 1, 0⟩
  | _ => none

/-- The loop of `re.findall` for the pattern `\D+(\d+\.*\d*)+` (_pywt.pyx L39, L744): at each position it skips
characters that are not digits (at least one), then takes digits, dots and digits.  The group cannot repeat, because no
digit follows its last part.  Digits are ASCII digits; other characters Python counts as digits are not modelled. -/
def findFreqs : ℕ → List Char → List (List Char)
  | 0, _ => []
  | fuel + 1, s =>
    match s with
    | [] => []
    | c :: t =>
      if c.isDigit then findFreqs fuel t
      else
        let r := t.dropWhile (fun c => ¬ c.isDigit)
        match r with
        | [] => []
        | _ :: _ =>
          let d := r.takeWhile Char.isDigit
          let r1 := r.dropWhile Char.isDigit
          let dots := r1.takeWhile (· = '.')
          let r2 := r1.dropWhile (· = '.')
          let e := r2.takeWhile Char.isDigit
          let r3 := r2.dropWhile Char.isDigit
          (d ++ dots ++ e) :: findFreqs fuel r3

/-- The number a string of digits denotes in base ten. -/
def digitsVal (l : List Char) : ℕ := l.foldl (fun n c => 10 * n + (c.toNat - '0'.toNat)) 0

/-- `float(s)` for the strings matched by the pattern (_pywt.pyx L753-765): digits, optionally one dot, digits. -/
def pyFloat (s : List Char) : Py ℚ :=
  let d := s.takeWhile Char.isDigit
  match s.dropWhile Char.isDigit with
  | [] => .ok (digitsVal d)
  | '.' :: e =>
    if e.all Char.isDigit then .ok (digitsVal d + digitsVal e / 10 ^ e.length) else .error .value
  | _ => .error .value

/-- `self.name[:4]` for the families whose names carry parameters, otherwise the whole name (_pywt.pyx L701-733). -/
def baseName (name : List Char) : List Char :=
  if 4 ≤ name.length ∧ name.take 4 ∈ ["cmor".toList, "shan".toList, "fbsp".toList] then name.take 4 else name

/-- `ContinuousWavelet(name)` (_pywt.pyx L691-772) with a supported dtype; names are handled as lists of characters and
`lower` is applied to ASCII letters.  Warnings are not modelled.  `fbsp_order` is an `unsigned int`. -/
def contWaveletNamed (name : String) : Py ContWavelet := do
  let name := name.toList.map Char.toLower
  let base := baseName name
  let (fam, number) ← wnameLookup (String.ofList base)
  match continuousWavelet fam number with
  | none => throw .value
  | some w =>
    let w := { w with name := String.ofList name }
    if base = name then pure w
    else
      let freqs := findFreqs (name.length + 1) name
      if base = "shan".toList ∨ base = "cmor".toList then
        match freqs with
        | [b, c] => do
          let b ← pyFloat b
          let c ← pyFloat c
          pure { w with bandwidth := b, center := c }
        | _ => throw .value
      else if base = "fbsp".toList then
        match freqs with
        | [m, b, c] => do
          let m ← pyFloat m
          let b ← pyFloat b
          let c ← pyFloat c
          if m < 1 ∨ m.den ≠ 1 then throw .value
          if 2 ^ 32 ≤ m then throw .overflow
          pure { w with bandwidth := b, center := c, fbspOrder := m.num.toNat }
        | _ => throw .value
      else throw .value

/-- Pickling or copying: `__reduce__` (_pywt.pyx L780-781). -/
def ContWavelet.unpickle (w : ContWavelet) : Py ContWavelet := contWaveletNamed w.name

/-- The properties `lower_bound` and `upper_bound` (_pywt.pyx L819-833). -/
def ContWavelet.bounds (w : ContWavelet) : Option (ℚ × ℚ) :=
  if w.lower ≠ w.upper then some (w.lower, w.upper) else none

/-- The properties `center_frequency`, `bandwidth_frequency` and `fbsp_order` (_pywt.pyx L835-857). -/
def ContWavelet.centerFrequency (w : ContWavelet) : Option ℚ := if 0 < w.center then some w.center else none

@[inherit_doc ContWavelet.centerFrequency]
def ContWavelet.bandwidthFrequency (w : ContWavelet) : Option ℚ := if 0 < w.bandwidth then some w.bandwidth else none

@[inherit_doc ContWavelet.centerFrequency]
def ContWavelet.order (w : ContWavelet) : Option ℕ := if w.fbspOrder ≠ 0 then some w.fbspOrder else none

/-- An attribute read into a C variable: `None` is a `TypeError`. -/
def ofNone {α : Type} : Option α → Py α
  | some a => .ok a
  | none => .error .type

/-- The samples of a real or of a complex wavelet. -/
inductive Psi
  | real (l : List ℝ)
  | cplx (l : List ℂ)

/-- A C loop that writes the value at each input point (cwt.template.c) into an array of `n` zeros: writing past its end
is an error. -/
def evalInto {V : Type} [Zero V] (f : ℝ → V) (data : List ℝ) (n : ℕ) : Py (List V) :=
  if n < data.length then .error (.c .oob) else .ok (data.map f ++ List.replicate (n - data.length) 0)

/-- `cwt_psi_single(data, wavelet, output_len)` (_cwt.pyx L13-124), together with the sum `psi_r + 1j * psi_i` its
caller forms (_pywt.pyx L963-969).  A family without a case returns `None`; no object has one.
`fbsp_order` is read into an `int`. -/
noncomputable def cwtPsiSingle (data : List ℝ) (w : ContWavelet) (output_len : ℕ) : Py Psi := do
  if output_len < 1 then throw .runtime
  match w.family with
  | .gaus => return .real (← evalInto (gausAt w.number) data output_len)
  | .mexh => return .real (← evalInto mexhAt data output_len)
  | .morl => return .real (← evalInto morlAt data output_len)
  | .cgau => return .cplx (← evalInto (fun x => ⟨cgauRe w.number x, cgauIm w.number x⟩) data output_len)
  | .shan => do
    let b ← ofNone w.bandwidthFrequency
    let c ← ofNone w.centerFrequency
    return .cplx (← evalInto (fun x => ⟨shanRe b c x, shanIm b c x⟩) data output_len)
  | .fbsp => do
    let m ← ofNone w.order
    if 2 ^ 31 ≤ m then throw .overflow
    let b ← ofNone w.bandwidthFrequency
    let c ← ofNone w.centerFrequency
    return .cplx (← evalInto (fun x => ⟨fbspRe m b c x, fbspIm m b c x⟩) data output_len)
  | .cmor => do
    let b ← ofNone w.bandwidthFrequency
    let c ← ofNone w.centerFrequency
    return .cplx (← evalInto (fun x => ⟨cmorRe b c x, cmorIm b c x⟩) data output_len)
  | _ => throw .type

/-- `np.linspace(start, stop, num)` (_pywt.pyx L958): `num` points, the last one being `stop`; one point is `start`. -/
def linspace (start stop : ℚ) (num : ℕ) : List ℚ :=
  if num = 1 then [start]
  else (List.range num).map fun i : ℕ => start + i * ((stop - start) / (num - 1 : ℕ))

/-- `ContinuousWavelet.wavefun(level, length)` (_pywt.pyx L873-979): the samples and the grid.  `2.**level` is cut to an
integer, so it is zero for a negative level.  `np.linspace` rejects a negative length.  The flag `complex_cwt`, by which
the code expects one or two arrays, is the one the object was created with. -/
noncomputable def ContWavelet.wavefun (w : ContWavelet) (level : ℤ) (length : Option ℤ) : Py (Psi × List ℝ) := do
  let n : ℤ := match length with
    | none => if level < 0 then 0 else 2 ^ level.toNat
    | some l => l
  if n < 0 then throw .value
  let x := (linspace w.lower w.upper n.toNat).map fun q : ℚ => (q : ℝ)
  let psi ← cwtPsiSingle x w n.toNat
  return (psi, x)

end Pywt
