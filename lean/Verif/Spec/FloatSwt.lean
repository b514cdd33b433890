import Verif.Spec.Float

/-!
# Specification for C66: rounding errors of the stationary transform
-/

namespace Pywt.Spec

/-- Rounding does not change a number that is a machine number already, and 0 is one. -/
structure Keeps (fl : ℝ → ℝ) : Prop where
  zero : fl 0 = 0
  idem : ∀ t, fl (fl t) = fl t

/-- `Accurate` for both output formats of `swt`. -/
def SwtAccurate {fl : ℝ → ℝ} (u : ℝ) (n : ℕ) (B e : ℝ) : SwtCoeffs (List (Fl fl)) → SwtCoeffs (List ℝ) → Prop
  | .pairs l', .pairs l =>
      List.Forall₂ (fun p' p => Accurate u n B e p'.1 p.1 ∧ Accurate u n B e p'.2 p.2) l' l
  | .trimmed l', .trimmed l => List.Forall₂ (Accurate u n B e) l' l
  | _, _ => False

/-- How large a sample can get in one level of `iswt`, for coefficients of magnitude at most `X`: the mean of two
results of `idwt`. -/
noncomputable def iswtBound (w : Wavelet ℝ) (κ X : ℝ) : ℝ := idwtBound w κ X + 2 * κ

/-- How many roundings a sample goes through in one level of `iswt`. -/
def iswtDepth (w : Wavelet ℝ) : ℕ := idwtDepth w + 2

/-- Nothing overflows in one level of `iswt`, not even the sum of two results of `idwt`. -/
def IswtFits (u κ Ω : ℝ) (w : Wavelet ℝ) (d : ℕ) (X e : ℝ) : Prop :=
  (1 + u) ^ (d + iswtDepth w) * (2 * iswtBound w κ X + 2 * iswtBound w 0 e) ≤ Ω

/-- How large the samples of `j` levels of `iswt` can get. -/
noncomputable def swtRecBound (w : Wavelet ℝ) (κ X : ℝ) : ℕ → ℝ
  | 0 => X
  | j + 1 => max (swtRecBound w κ X j) (iswtBound w κ (swtRecBound w κ X j))

/-- How errors `τ` made by `k` inexact levels of `iswt` add up. -/
noncomputable def swtChainErr (w : Wavelet ℝ) (τ : ℝ) : ℕ → ℝ
  | 0 => 0
  | k + 1 => max (swtChainErr w τ k) (idwtBound w 0 (swtChainErr w τ k)) + τ

/-- The filter bank with all coefficients multiplied by `c`, each product rounded. -/
def scaledBank (fl : ℝ → ℝ) (c : ℝ) (w : Wavelet ℝ) : Wavelet ℝ :=
  ⟨w.dec_lo.map fun a => fl (a * c), w.dec_hi.map fun a => fl (a * c), w.rec_lo.map fun a => fl (a * c),
    w.rec_hi.map fun a => fl (a * c)⟩

end Pywt.Spec
