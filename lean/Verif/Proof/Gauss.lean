import Mathlib.Analysis.SpecialFunctions.Gaussian.GaussianIntegral
import Mathlib.Analysis.Calculus.IteratedDeriv.Defs
import Mathlib.MeasureTheory.Integral.IntegralEqImproper
import Mathlib.Analysis.Calculus.Deriv.Mul
import Mathlib.Analysis.Calculus.Deriv.Pow
import Mathlib.Analysis.SpecialFunctions.ExpDeriv
import Mathlib.Tactic.LinearCombination

/-!
# Polynomials times a Gaussian: derivatives and integrals
-/

namespace Pywt

open MeasureTheory

set_option linter.unusedSectionVars false

/-! ### Polynomials as lists of coefficients -/

section poly

variable {A : Type} [CommRing A] {K : Type} [RCLike K] (φ : A →+* K)

/-- The value of a polynomial given by its coefficients, lowest degree first. -/
def evalL : List A → K → K
  | [], _ => 0
  | a :: p, x => φ a + x * evalL p x

/-- Sum of polynomials. -/
def addL : List A → List A → List A
  | [], q => q
  | a :: p, [] => a :: p
  | a :: p, b :: q => (a + b) :: addL p q

/-- Derivative of a polynomial. -/
def derL : List A → List A
  | [] => []
  | _ :: p => addL p (0 :: derL p)

/-- Product of polynomials. -/
def mulL : List A → List A → List A
  | [], _ => []
  | a :: p, q => addL (q.map (a * ·)) (0 :: mulL p q)

/-- The polynomial factor of the derivative of `p·e` where `e' = (c + b·x)·e`. -/
def stepL (b c : A) (p : List A) : List A := addL (derL p) (mulL [c, b] p)

theorem evalL_addL (p q : List A) (x : K) : evalL φ (addL p q) x = evalL φ p x + evalL φ q x := by
  induction p generalizing q with
  | nil => simp [addL, evalL]
  | cons a p ih =>
    cases q with
    | nil => simp [addL, evalL]
    | cons b q => simp only [addL, evalL, ih, map_add]; ring

theorem evalL_smulL (c : A) (p : List A) (x : K) : evalL φ (p.map (c * ·)) x = φ c * evalL φ p x := by
  induction p with
  | nil => simp [evalL]
  | cons a p ih => simp only [List.map_cons, evalL, ih, map_mul]; ring

theorem evalL_mulL (p q : List A) (x : K) : evalL φ (mulL p q) x = evalL φ p x * evalL φ q x := by
  induction p with
  | nil => simp [mulL, evalL]
  | cons a p ih => simp only [mulL, evalL_addL, evalL_smulL, evalL, ih, map_zero]; ring

theorem hasDerivAt_ofReal (x : ℝ) : HasDerivAt (fun x : ℝ => (x : K)) 1 x := by
  simpa using (RCLike.ofRealCLM (K := K)).hasDerivAt (x := x)

theorem evalL_hasDerivAt (p : List A) (x : ℝ) :
    HasDerivAt (fun x : ℝ => evalL φ p (x : K)) (evalL φ (derL p) (x : K)) x := by
  induction p with
  | nil => exact hasDerivAt_const x 0
  | cons a p ih =>
    have h := ((hasDerivAt_ofReal (K := K) x).mul ih).const_add (φ a)
    refine h.congr_deriv ?_
    rw [derL, evalL_addL]
    simp only [evalL, map_zero]
    ring

theorem step_hasDerivAt {b c : A} {e : ℝ → K} (he : ∀ x : ℝ, HasDerivAt e ((φ c + φ b * x) * e x) x)
    (p : List A) (x : ℝ) :
    HasDerivAt (fun x : ℝ => evalL φ p (x : K) * e x) (evalL φ (stepL b c p) (x : K) * e x) x := by
  refine ((evalL_hasDerivAt φ p x).mul (he x)).congr_deriv ?_
  rw [stepL, evalL_addL, evalL_mulL]
  simp only [evalL]
  ring

/-- The iterated derivatives of `e` are polynomials times `e`. -/
theorem iteratedDeriv_step {b c : A} {e : ℝ → K} (he : ∀ x : ℝ, HasDerivAt e ((φ c + φ b * x) * e x) x) (n : ℕ) :
    iteratedDeriv n e = fun x : ℝ => evalL φ ((stepL b c)^[n] [1]) (x : K) * e x := by
  induction n with
  | zero =>
    funext x
    simp [iteratedDeriv_zero, evalL]
  | succ n ih =>
    rw [iteratedDeriv_succ, ih]
    funext x
    rw [(step_hasDerivAt φ he _ x).deriv, Function.iterate_succ_apply']

theorem evalL_integrable {e : ℝ → K} (hi : ∀ k : ℕ, Integrable fun x : ℝ => (x : K) ^ k * e x) (p : List A) (k : ℕ) :
    Integrable fun x : ℝ => (x : K) ^ k * (evalL φ p (x : K) * e x) := by
  induction p generalizing k with
  | nil => simp [evalL]
  | cons a p ih =>
    refine (((hi k).const_mul (φ a)).add (ih (k + 1))).congr ?_
    refine ae_of_all _ fun x => ?_
    simp only [evalL, Pi.add_apply]
    ring

/-- The derivatives of `e` have vanishing moments. -/
theorem moments_step {b c : A} {e : ℝ → K} (he : ∀ x : ℝ, HasDerivAt e ((φ c + φ b * x) * e x) x)
    (hi : ∀ k : ℕ, Integrable fun x : ℝ => (x : K) ^ k * e x) (n : ℕ) :
    ∀ k, k < n → ∫ x : ℝ, (x : K) ^ k * iteratedDeriv n e x = 0 := by
  induction n with
  | zero => intro k hk; omega
  | succ n ih =>
    intro k hk
    set P := (stepL b c)^[n] [1] with hP
    have hn : ∀ n, iteratedDeriv n e = fun x : ℝ => evalL φ ((stepL b c)^[n] [1]) (x : K) * e x :=
      iteratedDeriv_step φ he
    have hd : ∀ x : ℝ, HasDerivAt (fun x : ℝ => (x : K) ^ k * (evalL φ P (x : K) * e x))
        ((k : K) * (x : K) ^ (k - 1) * (evalL φ P (x : K) * e x) +
          (x : K) ^ k * (evalL φ (stepL b c P) (x : K) * e x)) x := by
      intro x
      have h1 := ((hasDerivAt_ofReal (K := K) x).pow k).mul (step_hasDerivAt φ he P x)
      refine h1.congr_deriv ?_
      simp only [Pi.pow_apply, mul_one]
    have i1 := evalL_integrable φ hi P k
    have i2 : Integrable fun x : ℝ => (k : K) * (x : K) ^ (k - 1) * (evalL φ P (x : K) * e x) := by
      refine ((evalL_integrable φ hi P (k - 1)).const_mul (k : K)).congr (ae_of_all _ fun x => ?_)
      simp only
      ring
    have i3 := evalL_integrable φ hi (stepL b c P) k
    have h0 := integral_eq_zero_of_hasDerivAt_of_integrable hd (i2.add i3) i1
    rw [integral_add i2 i3] at h0
    have h1 : ∫ x : ℝ, (k : K) * (x : K) ^ (k - 1) * (evalL φ P (x : K) * e x) = 0 := by
      cases k with
      | zero => simp
      | succ k =>
        have := ih k (by omega)
        rw [hn n] at this
        simp only [add_tsub_cancel_right, mul_assoc]
        rw [integral_const_mul]
        simp only [← hP] at this
        rw [this, mul_zero]
    rw [h1, zero_add] at h0
    rw [hn (n + 1), Function.iterate_succ_apply', ← hP]
    exact h0

end poly

/-! ### Moments of a Gaussian -/

/-- The moments of `exp(-b·x²)` relative to its integral. -/
def momG (b : ℚ) : ℕ → ℚ
  | 0 => 1
  | 1 => 0
  | k + 2 => (k + 1) / (2 * b) * momG b k

theorem integrable_pow_gauss {b : ℝ} (hb : 0 < b) (k : ℕ) : Integrable fun x : ℝ => x ^ k * Real.exp (-b * x ^ 2) := by
  have := integrable_rpow_mul_exp_neg_mul_sq hb (s := k) (by have : (0 : ℝ) ≤ k := Nat.cast_nonneg k; linarith)
  simpa using this

theorem gauss_hasDerivAt (b x : ℝ) :
    HasDerivAt (fun x : ℝ => Real.exp (-b * x ^ 2)) (-(2 * b) * x * Real.exp (-b * x ^ 2)) x := by
  have := (((hasDerivAt_pow 2 x).const_mul (-b))).exp
  convert this using 1
  simp
  ring

theorem integral_pow_gauss {b : ℚ} (hb : 0 < b) (k : ℕ) :
    ∫ x : ℝ, x ^ k * Real.exp (-b * x ^ 2) = momG b k * √(Real.pi / b) := by
  have hb' : (0 : ℝ) < b := by exact_mod_cast hb
  induction k using Nat.twoStepInduction with
  | zero =>
    have := integral_gaussian (b : ℝ)
    simp only [pow_zero, one_mul, momG, Rat.cast_one]
    exact this
  | one =>
    have h := integral_eq_zero_of_hasDerivAt_of_integrable (fun x => gauss_hasDerivAt b x)
      (by
        refine ((integrable_pow_gauss hb' 1).const_mul (-(2 * (b : ℝ)))).congr (ae_of_all _ fun x => ?_)
        simp only
        ring)
      (by simpa using integrable_pow_gauss hb' 0)
    have h2 : ∫ x : ℝ, -(2 * (b : ℝ)) * x * Real.exp (-b * x ^ 2) =
        -(2 * (b : ℝ)) * ∫ x : ℝ, x ^ 1 * Real.exp (-b * x ^ 2) := by
      rw [← integral_const_mul]
      refine integral_congr_ae (ae_of_all _ fun x => ?_)
      simp only
      ring
    rw [h2] at h
    have : ∫ x : ℝ, x ^ 1 * Real.exp (-b * x ^ 2) = 0 := by
      rcases mul_eq_zero.mp h with h | h
      · exfalso; linarith
      · exact h
    rw [this]
    simp [momG]
  | more k ih _ =>
    have hd : ∀ x : ℝ, HasDerivAt (fun x : ℝ => x ^ (k + 1) * Real.exp (-b * x ^ 2))
        (((k : ℝ) + 1) * (x ^ k * Real.exp (-b * x ^ 2)) + -(2 * (b : ℝ)) * (x ^ (k + 2) * Real.exp (-b * x ^ 2))) x := by
      intro x
      have := (hasDerivAt_pow (k + 1) x).mul (gauss_hasDerivAt b x)
      refine this.congr_deriv ?_
      simp only [add_tsub_cancel_right, Nat.cast_add, Nat.cast_one]
      ring
    have i1 := (integrable_pow_gauss hb' k).const_mul ((k : ℝ) + 1)
    have i2 := (integrable_pow_gauss hb' (k + 2)).const_mul (-(2 * (b : ℝ)))
    have h := integral_eq_zero_of_hasDerivAt_of_integrable hd (i1.add i2) (integrable_pow_gauss hb' (k + 1))
    rw [integral_add i1 i2, integral_const_mul, integral_const_mul, ih] at h
    simp only [momG]
    push_cast
    have e : ((k : ℝ) + 1) / (2 * b) * momG b k * √(Real.pi / b) =
        (((k : ℝ) + 1) * (momG b k * √(Real.pi / b))) / (2 * b) := by ring
    rw [e, eq_div_iff (by positivity)]
    linear_combination -h

/-- The integral of a polynomial relative to that of the Gaussian. -/
def momSum {A : Type} (ψ : A → ℚ) (b : ℚ) : ℕ → List A → ℚ
  | _, [] => 0
  | k, a :: p => ψ a * momG b k + momSum ψ b (k + 1) p

theorem integral_evalL_gauss {A : Type} [CommRing A] (φ : A →+* ℝ) (ψ : A → ℚ) (hψ : ∀ a, φ a = (ψ a : ℝ)) {b : ℚ}
    (hb : 0 < b) (p : List A) (k : ℕ) :
    ∫ x : ℝ, x ^ k * (evalL φ p x * Real.exp (-b * x ^ 2)) = momSum ψ b k p * √(Real.pi / b) := by
  have hb' : (0 : ℝ) < b := by exact_mod_cast hb
  induction p generalizing k with
  | nil => simp [evalL, momSum]
  | cons a p ih =>
    have i1 := (integrable_pow_gauss hb' k).const_mul (φ a)
    have i2 : Integrable fun x : ℝ => x ^ (k + 1) * (evalL φ p x * Real.exp (-b * x ^ 2)) := by
      have := evalL_integrable (K := ℝ) φ (e := fun x => Real.exp (-b * x ^ 2))
        (fun k => by simpa using integrable_pow_gauss hb' k) p (k + 1)
      simpa using this
    have h : ∀ x : ℝ, x ^ k * (evalL φ (a :: p) x * Real.exp (-b * x ^ 2)) =
        φ a * (x ^ k * Real.exp (-b * x ^ 2)) + x ^ (k + 1) * (evalL φ p x * Real.exp (-b * x ^ 2)) := by
      intro x
      simp only [evalL]
      ring
    rw [integral_congr_ae (ae_of_all _ h), integral_add i1 i2, integral_const_mul, ih, integral_pow_gauss hb, hψ]
    simp only [momSum]
    push_cast
    ring

end Pywt
