import Verif.Model.Bank
import Verif.Model.Names
import Verif.Model.Objects
import Verif.Model.Tables

/-!
# Model of the built-in discrete wavelets

`pywt/_extensions/c/wavelets.c:discrete_wavelet`, the name lookup and `Wavelet.__cinit__` of
`pywt/_extensions/_pywt.pyx`.

The numbers stored in a built-in wavelet are binary floating-point numbers.  All of them are integer
multiples of `2⁻¹⁶⁰`; the model holds the integer.  `fxVal` gives the number.
-/

namespace Pywt

/-- Integers in units of `2⁻¹⁶⁰`. -/
def fxBits : ℕ := 160

/-- The number an integer in units of `2⁻¹⁶⁰` stands for. -/
def fxVal (z : ℤ) : ℚ := z / 2 ^ fxBits

/-- `n / d` to the nearest integer, ties to even. -/
def roundDiv (n d : ℕ) : ℕ :=
  let q := n / d
  let r := n % d
  if 2 * r < d then q else if d < 2 * r then q + 1 else if q % 2 = 0 then q else q + 1

/-- `n / d` rounded to `p` significant binary digits (IEEE-754 round-to-nearest-even, without limits on
the exponent: all numbers met are in the range of the format), as an integer.  Assumes `2^(p-1) ≤ n / d`
or `n = 0`. -/
def roundBits (p n d : ℕ) : ℕ :=
  let sh := Nat.log2 (n / d) + 1 - p
  roundDiv n (d * 2 ^ sh) * 2 ^ sh

/-- The sign of `s` given to `n`. -/
def withSign (s : ℤ) (n : ℕ) : ℤ := if s < 0 then -(n : ℤ) else n

/-- The value of a decimal literal of C, of type `double`: correctly rounded to 53 binary digits. -/
def litDouble (l : Tables.Lit) : ℤ := withSign l.1 (roundBits 53 (l.1.natAbs * 2 ^ fxBits) (10 ^ l.2))

/-- Conversion from `double` to `float`: rounded to 24 binary digits. -/
def toSingle (z : ℤ) : ℤ := withSign z (roundBits 24 z.natAbs 1)

/-- The elements of the tables: initialised by `double` literals, in the `float` version of the table
converted to `float` (wavelets_coeffs.template.h, instantiated for both types in wavelets_coeffs.h). -/
def litOf (single : Bool) (l : Tables.Lit) : ℤ := if single then toSingle (litDouble l) else litDouble l

/-- Floating-point multiplication in the given precision. -/
def fxMul (single : Bool) (a b : ℤ) : ℤ :=
  withSign (if a < 0 ∧ 0 ≤ b ∨ 0 ≤ a ∧ b < 0 then -1 else 1)
    (roundBits (if single then 24 else 53) (a.natAbs * b.natAbs) (2 ^ fxBits))

/-- A table in the given precision. -/
def tableOf (single : Bool) (t : List Tables.Lit) : List ℤ := t.map (litOf single)

/-- What `discrete_wavelet` fills the filters from: tables `b` and `c`, offset `n` in `b`, filter
length `F`. -/
structure FillFrom where
  b : List ℤ
  c : List ℤ
  n : ℕ
  F : ℕ

/-- `BIOR`: the indices `(M_idx, M_max)` for `N = order / 10`, `M = order % 10`, or `NULL`
(wavelets.c L235-269). -/
def biorIndex (N M : ℕ) : Option (ℕ × ℕ) :=
  match N with
  | 1 => if M % 2 ≠ 1 ∨ M > 5 then none else some (M / 2, 5)
  | 2 => if M % 2 ≠ 0 ∨ M < 2 ∨ M > 8 then none else some (M / 2 - 1, 8)
  | 3 => if M % 2 ≠ 1 then none else some (M / 2, 9)
  | 4 => if M ≠ 4 then none else some (0, M)
  | 5 => if M ≠ 5 then none else some (0, M)
  | 6 => if M ≠ 8 then none else some (0, 8)
  | _ => none

/-- An orthogonal family with table `ts`: `coeffs_idx` into the table, or `NULL` (wavelets.c L100-103,
L144-147, L190-193).  `coeffs_idx` is unsigned: where `order` is too small it wraps to a large number. -/
def orthFrom (single : Bool) (ts : List (List Tables.Lit)) (order first F : ℕ) : Option FillFrom :=
  if order < first then none
  else
    match ts[order - first]? with
    | none => none
    | some t => let t := tableOf single t; some ⟨t, t, 0, F⟩

/-- Which tables `discrete_wavelet` uses for the families other than `HAAR` and `RBIO`, or `NULL`
(wavelets.c L97-350).  The coiflet tables are multiplied by `sqrt2` element by element
(wavelets.c L207-230); multiplication by ±1 commutes with rounding. -/
def fillFrom (single : Bool) (name : Family) (order : ℕ) : Option FillFrom :=
  match name with
  | .db => orthFrom single Tables.db order 1 (2 * order)
  | .sym => orthFrom single Tables.sym order 2 (2 * order)
  | .coif =>
    (orthFrom single Tables.coif order 1 (6 * order)).map fun f =>
      let t := f.b.map fun v => fxMul single v (litOf single Tables.sqrt2)
      ⟨t, t, 0, f.F⟩
  | .bior =>
    match biorIndex (order / 10) (order % 10) with
    | none => none
    | some (M_idx, M_max) =>
      let ts := Tables.bior.getD (order / 10 - 1) []
      some ⟨tableOf single (ts.getD 0 []), tableOf single (ts.getD (M_idx + 1) []), M_max - order % 10,
        if order / 10 = 1 then 2 * (order % 10) else 2 * (order % 10) + 2⟩
  | .dmey => let t := tableOf single Tables.dmey; some ⟨t, t, 0, 62⟩
  | _ => none

/-- `blank_discrete_wavelet` and the loops; `NULL` stays `NULL`. -/
def fillWith : Option FillFrom → C (Option (Wavelet ℤ))
  | none => .ok none
  | some f => do
      let w ← fillBank f.b f.c f.n f.F
      pure (some w)

/-- `discrete_wavelet` (wavelets.c L52-353): the filters in `float` (`single`) or `double` precision, or
`NULL`.  The result of `discrete_wavelet(DB, 1)` is not checked for `NULL` in the code. -/
def discreteWavelet (single : Bool) (name : Family) (order : ℕ) : C (Option (Wavelet ℤ)) :=
  match name with
  | .haar => fillWith (fillFrom single .db 1)
  | .rbio => do
      let w ← fillWith (fillFrom single .bior order)
      pure (w.map swapReverse)
  | _ => fillWith (fillFrom single name order)

/-- The descriptive properties `discrete_wavelet` sets: orthogonal, biorthogonal, symmetry, family name,
short name, vanishing moments of psi and phi (wavelets.c L60-61, L89-90, L107-117, L151-161, L197-207,
L272-280, L312-324). -/
def discreteInfo (name : Family) (order : ℕ) : Bool × Bool × Symmetry × String × String × ℤ × ℤ :=
  match name with
  | .haar => (true, true, .asymmetric, "Haar", "haar", 1, 0)
  | .rbio => (false, true, .symmetric, "Reverse biorthogonal", "rbio", order / 10, order % 10)
  | .db => (true, true, .asymmetric, "Daubechies", "db", order, 0)
  | .sym => (true, true, .nearSymmetric, "Symlets", "sym", order, 0)
  | .coif => (true, true, .nearSymmetric, "Coiflets", "coif", 2 * order, 2 * order - 1)
  | .bior => (false, true, .symmetric, "Biorthogonal", "bior", order / 10, order % 10)
  | .dmey => (true, true, .symmetric, "Discrete Meyer (FIR Approximation)", "dmey", -1, -1)
  | _ => (false, false, .unknown, "", "", 0, 0)

/-- `is_discrete_wavelet` (wavelets.c L13-48). -/
def Family.isDiscrete : Family → Bool
  | .haar | .rbio | .db | .sym | .coif | .bior | .dmey => true
  | _ => false

/-- `wname_to_code` (_pywt.pyx L172-181). -/
def wnameLookup (name : String) : Py (Family × ℕ) :=
  let name := if 4 < name.length ∧ (name.take 4).toString ∈ ["cmor", "shan", "fbsp"] then
      (name.take 4).toString else name
  match wnameToCode.lookup name with
  | some c => .ok c
  | none => .error .value

/-- `Wavelet(name)` without a filter bank (_pywt.pyx L343-365): the object in `float` or `double`
precision.  `lower` is applied to ASCII letters only; no other letter occurs in the names. -/
def waveletNamed (single : Bool) (name : String) : Py (WaveletObj ℤ) := do
  if name = "" then throw .type
  let name := name.toLower
  let (fam, number) ← wnameLookup name
  if ¬ fam.isDiscrete then throw .value
  match ← liftC (discreteWavelet single fam number) with
  | none => throw .value
  | some w =>
    let (o, b, s, f, sn, p, q) := discreteInfo fam number
    pure ⟨name, number, w, o, b, s, f, sn, p, q⟩

/-- `DiscreteContinuousWavelet(name)` (_pywt.pyx L300-328) in the form `asWavelet` expects it. -/
def namedWavelet (single : Bool) (name : String) : Py (NamedWavelet ℤ) := do
  let (fam, _) ← wnameLookup name.toLower
  if fam.isDiscrete then
    let o ← waveletNamed single name.toLower
    pure (.discrete o.w)
  else pure .continuous

end Pywt
