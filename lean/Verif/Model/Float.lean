import Verif.Model.Multilevel
import Verif.Model.Swt
import Mathlib.Algebra.Order.Archimedean.Real.Basic
import Mathlib.Data.Int.Log
import Mathlib.Algebra.Order.Round

/-!
# The C code in floating-point arithmetic

`convolution.template.c` is compiled for `float`, `double`, `float complex` and `double complex`; `TYPE` arithmetic is
machine arithmetic.  The kernels of `Verif.Model.Conv` and `Verif.Model.UpConv`, and everything built on them, are
polymorphic in the type of the samples and coefficients and use of it only `0`, `+`, `-`, the product with a
coefficient and the product with a `size_t`: here they are run on a type whose operations round.

Simplifications: a machine number is the real number it stands for (no infinities, NaN, signed zeros); the rounding is an
arbitrary function `fl : ℝ → ℝ`, the same for all operations (the theorems assume of it what the IEEE standard
promises for results below the overflow threshold); each `+`, `-`, `*` of the source is rounded on its own, in the order
of the source (no contraction to fused multiply-add, no wider intermediate results, no vectorised sums); the conversion
of a `size_t` counter to `TYPE` is exact; negation is exact.
-/

namespace Pywt

/-- A machine number of a format whose rounding is `fl`. -/
structure Fl (fl : ℝ → ℝ) where
  val : ℝ

namespace Fl

variable {fl : ℝ → ℝ}

@[ext] theorem ext' {a b : Fl fl} (h : a.val = b.val) : a = b := by
  cases a; cases b; cases h; rfl

instance : Zero (Fl fl) := ⟨⟨0⟩⟩
theorem val_zero : (0 : Fl fl).val = 0 := rfl
/-- `a + b` of the C code, rounded. -/
instance : Add (Fl fl) := ⟨fun a b => ⟨fl (a.val + b.val)⟩⟩
/-- `a - b` of the C code, rounded. -/
instance : Sub (Fl fl) := ⟨fun a b => ⟨fl (a.val - b.val)⟩⟩
/-- A change of sign is exact. -/
instance : Neg (Fl fl) := ⟨fun a => ⟨-a.val⟩⟩
/-- `k * a` with `size_t k` (convolution.template.c L204, L299 etc.). -/
instance : SMul ℕ (Fl fl) := ⟨fun k a => ⟨fl (k * a.val)⟩⟩
/-- `filter[j] * input[k]`. -/
instance : SMul (Fl fl) (Fl fl) := ⟨fun a b => ⟨fl (a.val * b.val)⟩⟩
/-- `f * scale` in `_rescale_wavelet_filterbank` (_swt.py L23). -/
instance : Mul (Fl fl) := ⟨fun a b => ⟨fl (a.val * b.val)⟩⟩
/-- `/ 2.` (_swt.py L265): dividing by 2 and rounding is multiplying by 1/2 and rounding. -/
noncomputable instance : Half (Fl fl) := ⟨⟨1 / 2⟩⟩
theorem val_half : (Half.half : Fl fl).val = 1 / 2 := rfl

end Fl

/-- Complex machine numbers: real and imaginary part (`float complex`, `double complex`).  All operations of the C code
on them (`+`, `-`, the product of a real coefficient or a counter with a complex sample) are by components. -/
abbrev CFl (fl : ℝ → ℝ) := Fl fl × Fl fl

/-- Machine numbers with given values. -/
def toFl (fl : ℝ → ℝ) (x : List ℝ) : List (Fl fl) := x.map Fl.mk

/-- The filter bank whose coefficients are stored as machine numbers. -/
def Wavelet.toFl (fl : ℝ → ℝ) (w : Wavelet ℝ) : Wavelet (Fl fl) :=
  ⟨w.dec_lo.map Fl.mk, w.dec_hi.map Fl.mk, w.rec_lo.map Fl.mk, w.rec_hi.map Fl.mk⟩

/-- Rounding to the nearest integer, ties to even. -/
noncomputable def rne (t : ℝ) : ℤ :=
  if t - ⌊t⌋ < 1 / 2 then ⌊t⌋
  else if 1 / 2 < t - ⌊t⌋ then ⌊t⌋ + 1
  else if ⌊t⌋ % 2 = 0 then ⌊t⌋ else ⌊t⌋ + 1

/-- Exponent of the unit in the last place of a number in a binary format with `p` bits of precision and smallest
positive number `2^emin`. -/
noncomputable def ulpExp (p : ℕ) (emin : ℤ) (t : ℝ) : ℤ := max (Int.log 2 |t| - p + 1) emin

/-- IEEE 754 rounding to nearest, ties to even, in a binary format with `p` bits of precision and smallest positive
number `2^emin`, and no largest number. -/
noncomputable def ieee (p : ℕ) (emin : ℤ) (t : ℝ) : ℝ :=
  rne (t / 2 ^ ulpExp p emin t) * 2 ^ ulpExp p emin t

/-- binary64 (`double`), below the overflow threshold. -/
noncomputable def binary64 : ℝ → ℝ := ieee 53 (-1074)

/-- binary32 (`float`), below the overflow threshold. -/
noncomputable def binary32 : ℝ → ℝ := ieee 24 (-149)

end Pywt
