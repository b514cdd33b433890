import Verif.Model.Float
import Mathlib.Algebra.BigOperators.Group.Finset.Basic

/-!
# Specification for C61: rounding errors
-/

namespace Pywt.Spec

/-- The standard model of floating-point arithmetic: below the overflow threshold `Ω` a rounded result has relative
error at most `u`, or is off by at most `u κ` if it underflows (`κ` is the smallest normal number). -/
structure Rounds (fl : ℝ → ℝ) (u κ Ω : ℝ) : Prop where
  u_nonneg : 0 ≤ u
  κ_nonneg : 0 ≤ κ
  err : ∀ t, |t| ≤ Ω → |fl t - t| ≤ u * (|t| + κ)

/-- The sum of the magnitudes of the coefficients. -/
noncomputable def l1 (f : List ℝ) : ℝ := (f.map fun a => |a|).sum

/-- How large the samples of the extended signal can get, for a signal with samples of magnitude at most `X` and a
filter of `F` taps: in smooth and antireflect mode the signal is continued by straight lines, or by repeated reflection
in its end points; in all other modes every sample is one of the signal, its negative or 0. -/
noncomputable def extBound (mode : Mode) (F : ℕ) (κ X : ℝ) : ℝ :=
  if mode = .smooth ∨ mode = .antireflect then (2 * F + 1) * X + (2 * F + 2) * κ else X

/-- How many roundings it takes to compute a sample of the extended signal. -/
def extDepth (mode : Mode) (F : ℕ) : ℕ := if mode = .smooth ∨ mode = .antireflect then F + 3 else 0

/-- How large a coefficient computed with the filter `f` can get. -/
noncomputable def dwtBound (mode : Mode) (f : List ℝ) (κ X : ℝ) : ℝ :=
  l1 f * extBound mode f.length κ X + 2 * f.length * κ

/-- How many roundings a coefficient goes through. -/
def dwtDepth (mode : Mode) (F : ℕ) : ℕ := extDepth mode F + F + 1

/-- How large a reconstructed sample can get, for coefficients of magnitude at most `X`. -/
noncomputable def idwtBound (w : Wavelet ℝ) (κ X : ℝ) : ℝ :=
  (l1 w.rec_lo + l1 w.rec_hi) * X + 2 * (w.rec_lo.length + w.rec_hi.length) * κ + 2 * κ

/-- How many roundings a reconstructed sample goes through. -/
def idwtDepth (w : Wavelet ℝ) : ℕ := w.rec_lo.length + w.rec_hi.length + 3

/-- The exact numbers `x` are at most `B` in magnitude, and the machine numbers `x'` are off by an error `e` followed by
`n` roundings.  For `e = 0` this is `|x'[i] - x[i]| ≤ ((1 + u)^n - 1) B`; for `e = 0`, `n = 0` the numbers are equal. -/
def Accurate {fl : ℝ → ℝ} (u : ℝ) (n : ℕ) (B e : ℝ) (x' : List (Fl fl)) (x : List ℝ) : Prop :=
  List.Forall₂ (fun a b => |b| ≤ B ∧ 0 ≤ e ∧ |a.val - b| ≤ (1 + u) ^ n * (B + e) - B) x' x

/-- Nothing overflows in `dwt` of samples that are at most `X` and off by `e` and `d` roundings. -/
def DwtFits (u κ Ω : ℝ) (mode : Mode) (w : Wavelet ℝ) (d : ℕ) (X e : ℝ) : Prop :=
  (1 + u) ^ (d + extDepth mode w.dec_len) *
      (extBound mode w.dec_len κ X + extBound mode w.dec_len 0 e) ≤ Ω ∧
    (1 + u) ^ (d + dwtDepth mode w.dec_len) *
      (dwtBound mode w.dec_lo κ X + dwtBound mode w.dec_lo 0 e) ≤ Ω ∧
    (1 + u) ^ (d + dwtDepth mode w.dec_len) *
      (dwtBound mode w.dec_hi κ X + dwtBound mode w.dec_hi 0 e) ≤ Ω

/-- Nothing overflows in `idwt`. -/
def IdwtFits (u κ Ω : ℝ) (w : Wavelet ℝ) (d : ℕ) (X e : ℝ) : Prop :=
  (1 + u) ^ (d + idwtDepth w) * (idwtBound w κ X + idwtBound w 0 e) ≤ Ω

/-- How large the coefficients of `j` levels of `wavedec` can get. -/
noncomputable def decBound (mode : Mode) (w : Wavelet ℝ) (κ X : ℝ) : ℕ → ℝ
  | 0 => X
  | j + 1 => max (decBound mode w κ X j) (max (dwtBound mode w.dec_lo κ (decBound mode w κ X j))
      (dwtBound mode w.dec_hi κ (decBound mode w κ X j)))

/-- How large the approximations of `j` levels of `waverec` can get. -/
noncomputable def recBound (w : Wavelet ℝ) (κ X : ℝ) : ℕ → ℝ
  | 0 => X
  | j + 1 => max (recBound w κ X j) (idwtBound w κ (recBound w κ X j))

/-- How large the samples of the extended signal can get within `F` positions of the signal, in exact arithmetic. -/
noncomputable def extMax (mode : Mode) (F : ℕ) (X : ℝ) : ℝ :=
  if mode = .smooth ∨ mode = .antireflect then (2 * F + 5) * X else X

/-- How errors `τ` made by `k` inexact reconstruction steps add up. -/
noncomputable def chainErr (w : Wavelet ℝ) (τ : ℝ) : ℕ → ℝ
  | 0 => 0
  | k + 1 => idwtBound w 0 (chainErr w τ k) + τ

end Pywt.Spec

/-- A machine number multiplied exactly by `c`. -/
def Pywt.Fl.scale {fl : ℝ → ℝ} (c : ℝ) (a : Pywt.Fl fl) : Pywt.Fl fl := ⟨c * a.val⟩
