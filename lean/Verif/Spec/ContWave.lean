import Mathlib.Analysis.SpecialFunctions.Trigonometric.Sinc
import Mathlib.Analysis.SpecialFunctions.Pow.Real
import Mathlib.Data.Nat.Digits.Defs

/-!
# The documented continuous wavelets

The formulas are those of doc/source/ref/cwt.rst.
The formulas that contain `sin(y)/y` take the value of its limit at zero: `sinc y` is `sin(y)/y`, and 1 at zero.
-/

namespace Pywt.Spec

open Real

/-- The Mexican hat wavelet. -/
noncomputable def docMexh (t : ℝ) : ℝ := 2 / (√3 * π ^ (1 / 4 : ℝ)) * exp (-(t ^ 2 / 2)) * (1 - t ^ 2)

/-- The Morlet wavelet. -/
noncomputable def docMorl (t : ℝ) : ℝ := exp (-(t ^ 2 / 2)) * cos (5 * t)

/-- The complex Morlet wavelets. -/
noncomputable def docCmor (B C t : ℝ) : ℂ :=
  1 / (√(π * B) : ℝ) * Complex.exp (-((t : ℂ) ^ 2 / B)) * Complex.exp (Complex.I * 2 * π * C * t)

/-- The Shannon wavelets. -/
noncomputable def docShan (B C t : ℝ) : ℂ :=
  (√B : ℝ) * (sinc (π * B * t) : ℝ) * Complex.exp (Complex.I * 2 * π * C * t)

/-- The frequency B-spline wavelets. -/
noncomputable def docFbsp (M : ℕ) (B C t : ℝ) : ℂ :=
  (√B : ℝ) * (sinc (π * B * (t / M)) : ℝ) ^ M * Complex.exp (2 * Complex.I * π * C * t)

/-- The function whose derivatives are the Gaussian wavelets, without its constant. -/
noncomputable def docGauss (t : ℝ) : ℝ := exp (-t ^ 2)

/-- The function whose derivatives are the complex Gaussian wavelets, without its constant. -/
noncomputable def docCgauss (t : ℝ) : ℂ := Complex.exp (-Complex.I * t) * Complex.exp (-(t : ℂ) ^ 2)

/-! ### Names and grids -/

/-- The natural number a string of decimal digits denotes. -/
def numeral (l : List Char) : ℕ := Nat.ofDigits 10 (l.reverse.map fun c => c.toNat - 48)

/-- A decimal number without a sign: digits, or digits, a dot and digits; there is a digit before the dot. -/
inductive IsDecimal : List Char → ℚ → Prop
  | int {d : List Char} (hne : d ≠ []) (hd : ∀ c ∈ d, c.isDigit) : IsDecimal d (numeral d)
  | frac {d e : List Char} (hne : d ≠ []) (hd : ∀ c ∈ d, c.isDigit) (he : ∀ c ∈ e, c.isDigit) :
    IsDecimal (d ++ '.' :: e) (numeral d + numeral e / 10 ^ e.length)

/-- The name in lower case, as a list of characters. -/
def lowerName (name : String) : List Char := name.toList.map Char.toLower

/-- Characters that separate numbers: no digits, and no dot in front. -/
def Filler (l : List Char) : Prop := (∀ c ∈ l, c.isDigit = false) ∧ l.head? ≠ some '.'

/-- Decimal numbers, each followed by a separator; only the last separator may be empty. -/
inductive Numbers : List (List Char) → List Char → Prop
  | nil : Numbers [] []
  | last {s j : List Char} {v : ℚ} (h : IsDecimal s v) (hj : Filler j) : Numbers [s] (s ++ j)
  | cons {s j r : List Char} {l : List (List Char)} {v : ℚ} (h : IsDecimal s v) (hj : Filler j) (hne : j ≠ [])
    (hr : Numbers l r) : Numbers (s :: l) (s ++ j ++ r)

/-- `N` points from `lo` with equal distances that end at `hi`. -/
def Grid (lo hi : ℚ) (N : ℕ) (x : List ℝ) : Prop :=
  x.length = N ∧ (0 < N → x.getD 0 0 = lo) ∧ (1 < N → x.getD (N - 1) 0 = hi) ∧
    ∀ i, i + 1 < N → x.getD (i + 1) 0 - x.getD i 0 = ((hi - lo) / (N - 1 : ℕ) : ℚ)

/-- The number of samples `wavefun(level, length)` is asked for: `length`, or `2**level`. -/
def Samples (level : ℤ) : Option ℤ → ℕ → Prop
  | none, N => 0 ≤ level ∧ N = 2 ^ level.toNat
  | some l, N => l = N

end Pywt.Spec
