import Verif.Model.ContWave
import Verif.Proof.Gauss
import Verif.Spec.ContWave
import Mathlib.Analysis.SpecialFunctions.Gaussian.FourierTransform
import Mathlib.NumberTheory.Zsqrtd.GaussianInt
import Mathlib.Data.Nat.Factorial.DoubleFactorial
import Mathlib.Tactic.IntervalCases

/-!
# The wavelet functions of the continuous wavelets
-/

namespace Pywt

open MeasureTheory Real Spec

set_option linter.unusedSectionVars false

/-! ### Gaussian wavelets -/

/-- The sign of the Gaussian wavelet of an order. -/
def gausSign (n : ℕ) : ℝ := if n % 4 = 2 ∨ n % 4 = 3 then -1 else 1

theorem gausSign_sq (n : ℕ) : gausSign n ^ 2 = 1 := by
  unfold gausSign
  split_ifs <;> norm_num

/-- The polynomial factor of the derivatives of `exp(-x²)`. -/
def gausPoly (n : ℕ) : List ℤ := (stepL (-2) 0)^[n] [1]

theorem gauss_deriv (n : ℕ) :
    iteratedDeriv n docGauss = fun x => evalL (Int.castRingHom ℝ) (gausPoly n) x * exp (-x ^ 2) := by
  have := iteratedDeriv_step (K := ℝ) (Int.castRingHom ℝ) (b := -2) (c := 0) (e := docGauss)
    (fun x => by
      have := gauss_hasDerivAt 1 x
      simp only [neg_mul, one_mul] at this
      refine this.congr_deriv ?_
      simp [docGauss]) n
  exact this

theorem gausAt_eq {n : ℕ} (h1 : 1 ≤ n) (h8 : n ≤ 8) (x : ℝ) :
    gausAt n x = gausSign n / √((2 * n - 1).doubleFactorial * √(π / 2)) *
      (evalL (Int.castRingHom ℝ) (gausPoly n) x * exp (-x ^ 2)) := by
  interval_cases n
  · have hp : gausPoly 1 = [0, -2] := by decide
    have hd : (2 * 1 - 1).doubleFactorial = 1 := by decide
    rw [hp, hd]
    simp only [gausAt, gausSign, evalL]
    rw [show ((1 : ℕ) * √(π / 2) : ℝ) = √(π / 2) by simp]
    generalize √√(π / 2) = s
    norm_num
    ring
  · have hp : gausPoly 2 = [-2, 0, 4] := by decide
    have hd : (2 * 2 - 1).doubleFactorial = 3 := by decide
    rw [hp, hd]
    simp only [gausAt, gausSign, evalL]
    rw [show (3 * √(π / 2) : ℝ) = (3 : ℕ) * √(π / 2) by norm_num]
    generalize √(((3 : ℕ) : ℝ) * √(π / 2)) = s
    norm_num
    ring
  · have hp : gausPoly 3 = [0, 12, 0, -8] := by decide
    have hd : (2 * 3 - 1).doubleFactorial = 15 := by decide
    rw [hp, hd]
    simp only [gausAt, gausSign, evalL]
    rw [show (15 * √(π / 2) : ℝ) = (15 : ℕ) * √(π / 2) by norm_num]
    generalize √(((15 : ℕ) : ℝ) * √(π / 2)) = s
    norm_num
    ring
  · have hp : gausPoly 4 = [12, 0, -48, 0, 16] := by decide
    have hd : (2 * 4 - 1).doubleFactorial = 105 := by decide
    rw [hp, hd]
    simp only [gausAt, gausSign, evalL]
    rw [show (105 * √(π / 2) : ℝ) = (105 : ℕ) * √(π / 2) by norm_num]
    generalize √(((105 : ℕ) : ℝ) * √(π / 2)) = s
    norm_num
    ring
  · have hp : gausPoly 5 = [0, -120, 0, 160, 0, -32] := by decide
    have hd : (2 * 5 - 1).doubleFactorial = 945 := by decide
    rw [hp, hd]
    simp only [gausAt, gausSign, evalL]
    rw [show (105 * 9 * √(π / 2) : ℝ) = (945 : ℕ) * √(π / 2) by norm_num]
    generalize √(((945 : ℕ) : ℝ) * √(π / 2)) = s
    norm_num
    ring
  · have hp : gausPoly 6 = [-120, 0, 720, 0, -480, 0, 64] := by decide
    have hd : (2 * 6 - 1).doubleFactorial = 10395 := by decide
    rw [hp, hd]
    simp only [gausAt, gausSign, evalL]
    rw [show (105 * 9 * 11 * √(π / 2) : ℝ) = (10395 : ℕ) * √(π / 2) by norm_num]
    generalize √(((10395 : ℕ) : ℝ) * √(π / 2)) = s
    norm_num
    ring
  · have hp : gausPoly 7 = [0, 1680, 0, -3360, 0, 1344, 0, -128] := by decide
    have hd : (2 * 7 - 1).doubleFactorial = 135135 := by decide
    rw [hp, hd]
    simp only [gausAt, gausSign, evalL]
    rw [show (105 * 9 * 11 * 13 * √(π / 2) : ℝ) = (135135 : ℕ) * √(π / 2) by norm_num]
    generalize √(((135135 : ℕ) : ℝ) * √(π / 2)) = s
    norm_num
    ring
  · have hp : gausPoly 8 = [1680, 0, -13440, 0, 13440, 0, -3584, 0, 256] := by decide
    have hd : (2 * 8 - 1).doubleFactorial = 2027025 := by decide
    rw [hp, hd]
    simp only [gausAt, gausSign, evalL]
    rw [show (105 * 9 * 11 * 13 * 15 * √(π / 2) : ℝ) = (2027025 : ℕ) * √(π / 2) by norm_num]
    generalize √(((2027025 : ℕ) : ℝ) * √(π / 2)) = s
    norm_num
    ring

/-! ### Complex Gaussian wavelets -/

/-- The polynomial factor of the derivatives of `exp(-ix)·exp(-x²)`. -/
def cgauPoly (n : ℕ) : List GaussianInt := (stepL (-2) ⟨0, -1⟩)^[n] [1]

theorem cgauss_hasDerivAt (x : ℝ) :
    HasDerivAt docCgauss ((GaussianInt.toComplex ⟨0, -1⟩ + GaussianInt.toComplex (-2) * x) * docCgauss x) x := by
  have h0 := hasDerivAt_ofReal (K := ℂ) x
  have h1 := (h0.const_mul (-Complex.I)).cexp
  have h2 := (((h0.pow 2)).neg).cexp
  refine (h1.mul h2).congr_deriv ?_
  have h3 : GaussianInt.toComplex ⟨0, -1⟩ = -Complex.I := by
    rw [GaussianInt.toComplex_def']
    simp
  have h4 : GaussianInt.toComplex (-2) = -2 := by
    rw [map_neg, map_ofNat]
  rw [h3, h4]
  simp only [docCgauss]
  simp
  ring

theorem cgauss_deriv (n : ℕ) :
    iteratedDeriv n docCgauss = fun x : ℝ => evalL GaussianInt.toComplex (cgauPoly n) x * docCgauss x :=
  iteratedDeriv_step (K := ℂ) GaussianInt.toComplex cgauss_hasDerivAt n

/-- The constants under the root in the complex Gaussian wavelets. -/
def cgauConst : ℕ → ℕ
  | 1 => 2
  | 2 => 10
  | 3 => 76
  | 4 => 764
  | 5 => 9496
  | 6 => 140152
  | 7 => 2390480
  | 8 => 46206736
  | _ => 1

theorem cgauss_eq (x : ℝ) : docCgauss x = ⟨cos x * exp (-x ^ 2), -sin x * exp (-x ^ 2)⟩ := by
  have h1 : Complex.exp (-(x : ℂ) ^ 2) = (exp (-x ^ 2) : ℝ) := by
    push_cast
    rfl
  have h2 : Complex.exp (-Complex.I * x) = ⟨cos x, -sin x⟩ := by
    rw [show -Complex.I * (x : ℂ) = ((-x : ℝ) : ℂ) * Complex.I by push_cast; ring, Complex.exp_mul_I, ← Complex.ofReal_cos,
      ← Complex.ofReal_sin, cos_neg, sin_neg]
    apply Complex.ext
    · rw [Complex.add_re, Complex.mul_I_re, Complex.ofReal_re, Complex.ofReal_im, neg_zero, add_zero]
    · rw [Complex.add_im, Complex.mul_I_im, Complex.ofReal_re, Complex.ofReal_im, zero_add]
  unfold docCgauss
  rw [h1, h2]
  apply Complex.ext
  · rw [Complex.re_mul_ofReal]
  · rw [Complex.im_mul_ofReal]

theorem cgauAt_eq {n : ℕ} (h1 : 1 ≤ n) (h8 : n ≤ 8) (x : ℝ) :
    (⟨cgauRe n x, cgauIm n x⟩ : ℂ) = (1 / √(cgauConst n * √(π / 2)) : ℝ) *
      (evalL GaussianInt.toComplex (cgauPoly n) x * docCgauss x) := by
  rw [cgauss_eq]
  have hp : ∀ k, ((x : ℂ) ^ k).re = x ^ k ∧ ((x : ℂ) ^ k).im = 0 := fun k => by
    rw [← Complex.ofReal_pow]; exact ⟨Complex.ofReal_re _, Complex.ofReal_im _⟩
  interval_cases n
  · have hp : cgauPoly 1 = [⟨0, -1⟩, ⟨-2, 0⟩] := by decide
    rw [hp]
    simp only [cgauRe, cgauIm, cgauConst, evalL, GaussianInt.toComplex_def']
    push_cast
    generalize √(2 * √(π / 2)) = s
    apply Complex.ext
    · simp
      ring
    · simp
      ring
  · have hp : cgauPoly 2 = [⟨-3, 0⟩, ⟨0, 4⟩, ⟨4, 0⟩] := by decide
    rw [hp]
    simp only [cgauRe, cgauIm, cgauConst, evalL, GaussianInt.toComplex_def']
    push_cast
    generalize √(10 * √(π / 2)) = s
    apply Complex.ext
    · simp
      ring
    · simp
      ring
  · have hp : cgauPoly 3 = [⟨0, 7⟩, ⟨18, 0⟩, ⟨0, -12⟩, ⟨-8, 0⟩] := by decide
    rw [hp]
    simp only [cgauRe, cgauIm, cgauConst, evalL, GaussianInt.toComplex_def']
    push_cast
    generalize √(76 * √(π / 2)) = s
    apply Complex.ext
    · simp
      ring
    · simp
      ring
  · have hp : cgauPoly 4 = [⟨25, 0⟩, ⟨0, -56⟩, ⟨-72, 0⟩, ⟨0, 32⟩, ⟨16, 0⟩] := by decide
    rw [hp]
    simp only [cgauRe, cgauIm, cgauConst, evalL, GaussianInt.toComplex_def']
    push_cast
    generalize √(764 * √(π / 2)) = s
    apply Complex.ext
    · simp
      ring
    · simp
      ring
  · have hp : cgauPoly 5 = [⟨0, -81⟩, ⟨-250, 0⟩, ⟨0, 280⟩, ⟨240, 0⟩, ⟨0, -80⟩, ⟨-32, 0⟩] := by decide
    rw [hp]
    simp only [cgauRe, cgauIm, cgauConst, evalL, GaussianInt.toComplex_def']
    push_cast
    generalize √(9496 * √(π / 2)) = s
    apply Complex.ext
    · simp
      ring
    · simp
      ring
  · have hp : cgauPoly 6 = [⟨-331, 0⟩, ⟨0, 972⟩, ⟨1500, 0⟩, ⟨0, -1120⟩, ⟨-720, 0⟩, ⟨0, 192⟩, ⟨64, 0⟩] := by decide
    rw [hp]
    simp only [cgauRe, cgauIm, cgauConst, evalL, GaussianInt.toComplex_def']
    push_cast
    generalize √(140152 * √(π / 2)) = s
    apply Complex.ext
    · simp
      ring
    · simp
      ring
  · have hp : cgauPoly 7 = [⟨0, 1303⟩, ⟨4634, 0⟩, ⟨0, -6804⟩, ⟨-7000, 0⟩, ⟨0, 3920⟩, ⟨2016, 0⟩, ⟨0, -448⟩, ⟨-128, 0⟩] := by decide
    rw [hp]
    simp only [cgauRe, cgauIm, cgauConst, evalL, GaussianInt.toComplex_def']
    push_cast
    generalize √(2390480 * √(π / 2)) = s
    apply Complex.ext
    · simp
      ring
    · simp
      ring
  · have hp : cgauPoly 8 = [⟨5937, 0⟩, ⟨0, -20848⟩, ⟨-37072, 0⟩, ⟨0, 36288⟩, ⟨28000, 0⟩, ⟨0, -12544⟩, ⟨-5376, 0⟩, ⟨0, 1024⟩, ⟨256, 0⟩] := by decide
    rw [hp]
    simp only [cgauRe, cgauIm, cgauConst, evalL, GaussianInt.toComplex_def']
    push_cast
    generalize √(46206736 * √(π / 2)) = s
    apply Complex.ext
    · simp
      ring
    · simp
      ring

/-! ### Energy and moments of the Gaussian wavelets -/

theorem gausAt_deriv {n : ℕ} (h1 : 1 ≤ n) (h8 : n ≤ 8) (x : ℝ) :
    gausAt n x = gausSign n / √((2 * n - 1).doubleFactorial * √(π / 2)) * iteratedDeriv n docGauss x := by
  rw [gausAt_eq h1 h8, gauss_deriv]

theorem cgauAt_deriv {n : ℕ} (h1 : 1 ≤ n) (h8 : n ≤ 8) (x : ℝ) :
    (⟨cgauRe n x, cgauIm n x⟩ : ℂ) = (1 / √(cgauConst n * √(π / 2)) : ℝ) * iteratedDeriv n docCgauss x := by
  rw [cgauAt_eq h1 h8, cgauss_deriv]

theorem docGauss_pow_integrable (k : ℕ) : Integrable fun x : ℝ => x ^ k * docGauss x := by
  have := integrable_pow_gauss one_pos k
  simpa [docGauss] using this

theorem gaus_moment {n k : ℕ} (hk : k < n) : ∫ x : ℝ, x ^ k * iteratedDeriv n docGauss x = 0 := by
  have := moments_step (K := ℝ) (Int.castRingHom ℝ) (b := -2) (c := 0) (e := docGauss)
    (fun x => by
      have := gauss_hasDerivAt 1 x
      simp only [neg_mul, one_mul] at this
      refine this.congr_deriv ?_
      simp [docGauss])
    (fun k => docGauss_pow_integrable k) n k hk
  exact this

theorem docCgauss_norm (x : ℝ) : ‖docCgauss x‖ = exp (-x ^ 2) := by
  unfold docCgauss
  rw [norm_mul, Complex.norm_exp, Complex.norm_exp, ← Complex.ofReal_pow, ← Complex.ofReal_neg, Complex.ofReal_re]
  simp

theorem docCgauss_continuous : Continuous docCgauss := by
  unfold docCgauss
  fun_prop

theorem docCgauss_pow_integrable (k : ℕ) : Integrable fun x : ℝ => (x : ℂ) ^ k * docCgauss x := by
  have h := (docGauss_pow_integrable k).norm
  refine h.mono' ?_ (ae_of_all _ fun x => ?_)
  · have := docCgauss_continuous
    exact (by fun_prop : Continuous fun x : ℝ => (x : ℂ) ^ k * docCgauss x).aestronglyMeasurable
  · rw [norm_mul, norm_mul, docCgauss_norm]
    simp [docGauss]

theorem cgau_moment {n k : ℕ} (hk : k < n) : ∫ x : ℝ, (x : ℂ) ^ k * iteratedDeriv n docCgauss x = 0 :=
  moments_step (K := ℂ) GaussianInt.toComplex cgauss_hasDerivAt docCgauss_pow_integrable n k hk

theorem docGauss_sq (x : ℝ) : exp (-x ^ 2) ^ 2 = exp (-((2 : ℚ) : ℝ) * x ^ 2) := by
  rw [← exp_nat_mul]
  congr 1
  push_cast
  ring

theorem poly_energy {p : List ℤ} {v : ℚ} (h : momSum (fun a : ℤ => (a : ℚ)) 2 0 p = v) :
    ∫ x : ℝ, evalL (Int.castRingHom ℝ) p x * exp (-x ^ 2) ^ 2 = v * √(π / 2) := by
  have := integral_evalL_gauss (Int.castRingHom ℝ) (fun a : ℤ => (a : ℚ)) (fun a => by simp) (b := 2) (by norm_num) p 0
  rw [h] at this
  simp only [pow_zero, one_mul, ← docGauss_sq] at this
  rw [this]
  norm_num

theorem gausPoly_energy {n : ℕ} (h1 : 1 ≤ n) (h8 : n ≤ 8) :
    momSum (fun a : ℤ => (a : ℚ)) 2 0 (mulL (gausPoly n) (gausPoly n)) = ((2 * n - 1).doubleFactorial : ℚ) := by
  interval_cases n <;> decide +kernel

/-- Norms of the values of a polynomial with Gaussian integer coefficients. -/
theorem evalL_normSq (p : List GaussianInt) (x : ℝ) :
    ‖evalL GaussianInt.toComplex p (x : ℂ)‖ ^ 2 = evalL (Int.castRingHom ℝ) (addL
      (mulL (p.map Zsqrtd.re) (p.map Zsqrtd.re)) (mulL (p.map Zsqrtd.im) (p.map Zsqrtd.im))) x := by
  have h : ∀ p : List GaussianInt, (evalL GaussianInt.toComplex p (x : ℂ)).re =
      evalL (Int.castRingHom ℝ) (p.map Zsqrtd.re) x ∧ (evalL GaussianInt.toComplex p (x : ℂ)).im =
      evalL (Int.castRingHom ℝ) (p.map Zsqrtd.im) x := by
    intro p
    induction p with
    | nil => simp [evalL]
    | cons a p ih => simp [evalL, ih]
  rw [evalL_addL, evalL_mulL, evalL_mulL, ← Complex.normSq_eq_norm_sq, Complex.normSq_apply, (h p).1, (h p).2]

theorem cgauPoly_energy {n : ℕ} (h1 : 1 ≤ n) (h8 : n ≤ 8) :
    momSum (fun a : ℤ => (a : ℚ)) 2 0 (addL
      (mulL ((cgauPoly n).map Zsqrtd.re) ((cgauPoly n).map Zsqrtd.re))
      (mulL ((cgauPoly n).map Zsqrtd.im) ((cgauPoly n).map Zsqrtd.im))) = (cgauConst n : ℚ) := by
  interval_cases n <;> decide +kernel

theorem gaus_energy {n : ℕ} (h1 : 1 ≤ n) (h8 : n ≤ 8) : ∫ x : ℝ, gausAt n x ^ 2 = 1 := by
  have hd : (0 : ℝ) < (2 * n - 1).doubleFactorial := by exact_mod_cast Nat.doubleFactorial_pos _
  have hs : 0 < √(π / 2) := by positivity
  have h : ∀ x : ℝ, gausAt n x ^ 2 = 1 / ((2 * n - 1).doubleFactorial * √(π / 2)) *
      (evalL (Int.castRingHom ℝ) (mulL (gausPoly n) (gausPoly n)) x * exp (-x ^ 2) ^ 2) := by
    intro x
    rw [gausAt_eq h1 h8, mul_pow, div_pow, gausSign_sq, sq_sqrt (by positivity), evalL_mulL]
    ring
  rw [integral_congr_ae (ae_of_all _ h), integral_const_mul, poly_energy (gausPoly_energy h1 h8)]
  push_cast
  field_simp

theorem cgau_energy {n : ℕ} (h1 : 1 ≤ n) (h8 : n ≤ 8) : ∫ x : ℝ, ‖(⟨cgauRe n x, cgauIm n x⟩ : ℂ)‖ ^ 2 = 1 := by
  have hd : (0 : ℝ) < cgauConst n := by
    interval_cases n <;> norm_num [cgauConst]
  have hs : 0 < √(π / 2) := by positivity
  have h : ∀ x : ℝ, ‖(⟨cgauRe n x, cgauIm n x⟩ : ℂ)‖ ^ 2 = 1 / (cgauConst n * √(π / 2)) *
      (evalL (Int.castRingHom ℝ) (addL
      (mulL ((cgauPoly n).map Zsqrtd.re) ((cgauPoly n).map Zsqrtd.re))
      (mulL ((cgauPoly n).map Zsqrtd.im) ((cgauPoly n).map Zsqrtd.im))) x * exp (-x ^ 2) ^ 2) := by
    intro x
    rw [cgauAt_eq h1 h8, norm_mul, norm_mul, docCgauss_norm, mul_pow, mul_pow, evalL_normSq, Complex.norm_real,
      norm_eq_abs, sq_abs, div_pow, sq_sqrt (by positivity), one_pow]
  rw [integral_congr_ae (ae_of_all _ h), integral_const_mul, poly_energy (cgauPoly_energy h1 h8)]
  push_cast
  field_simp

/-! ### The Mexican hat -/

theorem mexhAt_eq (x : ℝ) : mexhAt x = docMexh x := by
  have h : √√π = π ^ (1 / 4 : ℝ) := by
    rw [sqrt_eq_rpow, sqrt_eq_rpow, ← rpow_mul pi_pos.le]
    norm_num
  unfold mexhAt docMexh
  rw [h, neg_div]
  ring

theorem halfGauss_hasDerivAt (x : ℝ) :
    HasDerivAt (fun t : ℝ => exp (-(t ^ 2 / 2))) ((Int.castRingHom ℝ 0 + Int.castRingHom ℝ (-1) * x) *
      exp (-(x ^ 2 / 2))) x := by
  have := gauss_hasDerivAt (1 / 2) x
  have e : (fun t : ℝ => exp (-(t ^ 2 / 2))) = fun t : ℝ => exp (-(1 / 2) * t ^ 2) := by
    funext t
    congr 1
    ring
  rw [e, show -(x ^ 2 / 2) = -(1 / 2) * x ^ 2 by ring]
  refine this.congr_deriv ?_
  simp

theorem docMexh_deriv (x : ℝ) :
    docMexh x = -(2 / (√3 * π ^ (1 / 4 : ℝ))) * iteratedDeriv 2 (fun t : ℝ => exp (-(t ^ 2 / 2))) x := by
  have := iteratedDeriv_step (K := ℝ) (Int.castRingHom ℝ) halfGauss_hasDerivAt 2
  rw [this]
  have hp : (stepL (-1) 0)^[2] [1] = ([-1, 0, 1] : List ℤ) := by decide
  rw [hp]
  unfold docMexh
  simp [evalL]
  ring

theorem mexh_moment {k : ℕ} (hk : k < 2) : ∫ x : ℝ, x ^ k * mexhAt x = 0 := by
  have h := moments_step (K := ℝ) (Int.castRingHom ℝ) halfGauss_hasDerivAt (fun k => by
    have := integrable_pow_gauss (b := 1 / 2) (by norm_num) k
    refine this.congr (ae_of_all _ fun x => ?_)
    simp only [RCLike.ofReal_real_eq_id, id_eq]
    congr 2
    ring) 2 k hk
  have e : ∀ x : ℝ, x ^ k * mexhAt x = -(2 / (√3 * π ^ (1 / 4 : ℝ))) *
      (x ^ k * iteratedDeriv 2 (fun t : ℝ => exp (-(t ^ 2 / 2))) x) := by
    intro x
    rw [mexhAt_eq, docMexh_deriv]
    ring
  rw [integral_congr_ae (ae_of_all _ e), integral_const_mul]
  simp only [RCLike.ofReal_real_eq_id, id_eq] at h
  rw [h, mul_zero]

theorem mexh_energy : ∫ x : ℝ, mexhAt x ^ 2 = 1 := by
  have hp : 0 < √π := by positivity
  have h : ∀ x : ℝ, mexhAt x ^ 2 = 4 / (3 * √π) * (x ^ 0 * (evalL (Int.castRingHom ℝ) [1, 0, -2, 0, 1] x *
      exp (-((1 : ℚ) : ℝ) * x ^ 2))) := by
    intro x
    have e1 : exp (-x ^ 2 / 2) ^ 2 = exp (-((1 : ℚ) : ℝ) * x ^ 2) := by
      rw [← exp_nat_mul]
      congr 1
      push_cast
      ring
    unfold mexhAt
    rw [div_pow, mul_pow √3, sq_sqrt (by norm_num : (0 : ℝ) ≤ 3), sq_sqrt hp.le, mul_pow, mul_pow, e1]
    simp [evalL]
    ring
  rw [integral_congr_ae (ae_of_all _ h), integral_const_mul,
    integral_evalL_gauss (Int.castRingHom ℝ) (fun a : ℤ => (a : ℚ)) (fun a => by simp) (b := 1) (by norm_num)]
  have : momSum (fun a : ℤ => (a : ℚ)) 1 0 [1, 0, -2, 0, 1] = 3 / 4 := by decide +kernel
  rw [this]
  simp
  field_simp

/-! ### Morlet wavelets -/

theorem morlAt_eq (x : ℝ) : morlAt x = docMorl x := by
  unfold morlAt docMorl
  rw [neg_div]
  ring

theorem integral_exp_gauss {b : ℝ} (hb : 0 < b) (t : ℝ) :
    ∫ x : ℝ, Complex.exp (Complex.I * t * x) * (exp (-b * x ^ 2) : ℝ) = (√(π / b) * exp (-t ^ 2 / (4 * b)) : ℝ) := by
  have h := fourierIntegral_gaussian (b := (b : ℂ)) (by simpa using hb) t
  have e : ((π : ℂ) / b) ^ (1 / 2 : ℂ) = (√(π / b) : ℝ) := by
    rw [sqrt_eq_rpow, Complex.ofReal_cpow (by positivity)]
    push_cast
    rfl
  rw [e] at h
  push_cast
  exact h

theorem exp_gauss_integrable {b : ℝ} (hb : 0 < b) (t : ℝ) :
    Integrable fun x : ℝ => Complex.exp (Complex.I * t * x) * (exp (-b * x ^ 2) : ℝ) := by
  have h := (integrable_exp_neg_mul_sq hb).norm
  refine h.mono' ?_ (ae_of_all _ fun x => ?_)
  · exact (by fun_prop :
      Continuous fun x : ℝ => Complex.exp (Complex.I * t * x) * (exp (-b * x ^ 2) : ℝ)).aestronglyMeasurable
  · rw [norm_mul, Complex.norm_exp, Complex.norm_real]
    simp

theorem integral_cos_gauss {b : ℝ} (hb : 0 < b) (t : ℝ) :
    ∫ x : ℝ, cos (t * x) * exp (-b * x ^ 2) = √(π / b) * exp (-t ^ 2 / (4 * b)) := by
  have h := congrArg Complex.re (integral_exp_gauss hb t)
  rw [Complex.ofReal_re] at h
  rw [← h]
  have := integral_re (exp_gauss_integrable hb t)
  simp only [RCLike.re_eq_complex_re] at this
  rw [← this]
  refine integral_congr_ae (ae_of_all _ fun x => ?_)
  simp only
  rw [Complex.re_mul_ofReal, show Complex.I * t * x = ((t * x : ℝ) : ℂ) * Complex.I by push_cast; ring,
    Complex.exp_ofReal_mul_I_re]

theorem morl_mean : ∫ x : ℝ, morlAt x = √(2 * π) * exp (-(25 / 2)) := by
  have h := integral_cos_gauss (b := 1 / 2) (by norm_num) 5
  have e : ∀ x : ℝ, morlAt x = cos (5 * x) * exp (-(1 / 2) * x ^ 2) := by
    intro x
    unfold morlAt
    congr 2
    ring
  rw [integral_congr_ae (ae_of_all _ e), h]
  norm_num
  ring

theorem cmorAt_eq (B C x : ℝ) : (⟨cmorRe B C x, cmorIm B C x⟩ : ℂ) = docCmor B C x := by
  unfold docCmor
  have h1 : Complex.exp (-((x : ℂ) ^ 2 / B)) = (exp (-x ^ 2 / B) : ℝ) := by
    push_cast
    rw [neg_div]
  have h2 : Complex.exp (Complex.I * 2 * π * C * x) = ⟨cos (2 * π * C * x), sin (2 * π * C * x)⟩ := by
    rw [show Complex.I * 2 * π * C * x = ((2 * π * C * x : ℝ) : ℂ) * Complex.I by push_cast; ring]
    exact Complex.ext (Complex.exp_ofReal_mul_I_re _) (Complex.exp_ofReal_mul_I_im _)
  rw [h1, h2, ← Complex.ofReal_one, ← Complex.ofReal_div, ← Complex.ofReal_mul]
  apply Complex.ext
  · rw [Complex.re_ofReal_mul]
    simp only [cmorRe]
    ring
  · rw [Complex.im_ofReal_mul]
    simp only [cmorIm]
    ring

theorem docCmor_eq (B C x : ℝ) :
    docCmor B C x = (1 / √(π * B) : ℝ) *
      (Complex.exp (Complex.I * (2 * π * C : ℝ) * x) * (exp (-(1 / B) * x ^ 2) : ℝ)) := by
  unfold docCmor
  push_cast
  rw [show -(1 / (B : ℂ)) * (x : ℂ) ^ 2 = -((x : ℂ) ^ 2 / B) by ring,
    show Complex.I * (2 * π * C) * (x : ℂ) = Complex.I * 2 * π * C * x by ring]
  ring

theorem cmor_mean {B : ℝ} (hB : 0 < B) (C : ℝ) : ∫ x : ℝ, docCmor B C x = (exp (-(π ^ 2 * B * C ^ 2)) : ℝ) := by
  rw [integral_congr_ae (ae_of_all _ (docCmor_eq B C)), integral_const_mul,
    integral_exp_gauss (one_div_pos.mpr hB), ← Complex.ofReal_mul]
  congr 1
  have : 0 < √(π * B) := by positivity
  rw [div_div_eq_mul_div, div_one, ← mul_assoc, one_div, inv_mul_cancel₀ this.ne', one_mul]
  congr 1
  field_simp
  ring

theorem docCmor_norm {B : ℝ} (hB : 0 < B) (C x : ℝ) :
    ‖docCmor B C x‖ = 1 / √(π * B) * exp (-(1 / B) * x ^ 2) := by
  have : 0 < √(π * B) := by positivity
  rw [docCmor_eq, norm_mul, norm_mul, Complex.norm_real, Complex.norm_real, Complex.norm_exp, norm_eq_abs, norm_eq_abs,
    abs_of_pos (one_div_pos.mpr this), abs_of_pos (exp_pos _)]
  simp

theorem cmor_abs {B : ℝ} (hB : 0 < B) (C : ℝ) : ∫ x : ℝ, ‖docCmor B C x‖ = 1 := by
  have : 0 < √(π * B) := by positivity
  rw [integral_congr_ae (ae_of_all _ (docCmor_norm hB C)), integral_const_mul, integral_gaussian,
    div_div_eq_mul_div, div_one]
  field_simp

/-! ### Shannon and frequency B-spline wavelets -/

theorem exp_two_pi (C x : ℝ) :
    Complex.exp (Complex.I * 2 * π * C * x) = ⟨cos (2 * π * C * x), sin (2 * π * C * x)⟩ := by
  rw [show Complex.I * 2 * π * C * x = ((2 * π * C * x : ℝ) : ℂ) * Complex.I by push_cast; ring]
  exact Complex.ext (Complex.exp_ofReal_mul_I_re _) (Complex.exp_ofReal_mul_I_im _)

theorem shanAt_eq {B : ℝ} (hB : 0 < B) (C x : ℝ) : (⟨shanRe B C x, shanIm B C x⟩ : ℂ) = docShan B C x := by
  unfold docShan
  rw [exp_two_pi, ← Complex.ofReal_mul]
  by_cases h : x = 0
  · subst h
    apply Complex.ext
    · rw [Complex.re_ofReal_mul]
      simp [shanRe]
    · rw [Complex.im_ofReal_mul]
      simp [shanIm]
  · have h2 : π * B * x ≠ 0 := mul_ne_zero (mul_ne_zero pi_ne_zero hB.ne') h
    rw [sinc_of_ne_zero h2]
    have e : x * B * π = π * B * x := by ring
    apply Complex.ext
    · rw [Complex.re_ofReal_mul]
      simp only [shanRe, if_pos (show x ≠ 0 from h), e]
      ring
    · rw [Complex.im_ofReal_mul]
      simp only [shanIm, if_pos (show x ≠ 0 from h), e]
      ring

theorem fbspAt_eq {M : ℕ} (hM : 1 ≤ M) {B : ℝ} (hB : 0 < B) (C x : ℝ) :
    (⟨fbspRe M B C x, fbspIm M B C x⟩ : ℂ) = docFbsp M B C x := by
  unfold docFbsp
  rw [show (2 : ℂ) * Complex.I * π * C * x = Complex.I * 2 * π * C * x by ring, exp_two_pi, ← Complex.ofReal_pow,
    ← Complex.ofReal_mul]
  by_cases h : x = 0
  · subst h
    apply Complex.ext
    · rw [Complex.re_ofReal_mul]
      simp [fbspRe]
    · rw [Complex.im_ofReal_mul]
      simp [fbspIm]
  · have hM' : (M : ℝ) ≠ 0 := by exact_mod_cast (by omega : M ≠ 0)
    have h2 : π * B * (x / M) ≠ 0 := mul_ne_zero (mul_ne_zero pi_ne_zero hB.ne') (div_ne_zero h hM')
    rw [sinc_of_ne_zero h2]
    have e : π * x * B / M = π * B * (x / M) := by ring
    apply Complex.ext
    · rw [Complex.re_ofReal_mul]
      simp only [fbspRe, if_pos (show x ≠ 0 from h), e]
      ring
    · rw [Complex.im_ofReal_mul]
      simp only [fbspIm, if_pos (show x ≠ 0 from h), e]
      ring

/-! ### Symmetry -/

theorem gausAt_neg {n : ℕ} (h8 : n ≤ 8) (x : ℝ) : gausAt n (-x) = (-1) ^ n * gausAt n x := by
  interval_cases n
  all_goals
    simp only [gausAt, neg_sq, Even.neg_pow (by decide : Even 4), Even.neg_pow (by decide : Even 6),
      Even.neg_pow (by decide : Even 8), Odd.neg_pow (by decide : Odd 3), Odd.neg_pow (by decide : Odd 5),
      Odd.neg_pow (by decide : Odd 7)]
    ring

theorem cgauAt_neg {n : ℕ} (h8 : n ≤ 8) (x : ℝ) :
    cgauRe n (-x) = (-1) ^ n * cgauRe n x ∧ cgauIm n (-x) = -((-1) ^ n * cgauIm n x) := by
  interval_cases n
  all_goals
    simp only [cgauRe, cgauIm, neg_sq, Even.neg_pow (by decide : Even 4), Even.neg_pow (by decide : Even 6),
      Even.neg_pow (by decide : Even 8), Odd.neg_pow (by decide : Odd 3), Odd.neg_pow (by decide : Odd 5),
      Odd.neg_pow (by decide : Odd 7), cos_neg, sin_neg]
    constructor <;> ring

theorem mexhAt_neg (x : ℝ) : mexhAt (-x) = mexhAt x := by simp [mexhAt]

theorem morlAt_neg (x : ℝ) : morlAt (-x) = morlAt x := by simp [morlAt]

theorem docCmor_neg (B C x : ℝ) : docCmor B C (-x) = (starRingEnd ℂ) (docCmor B C x) := by
  rw [← cmorAt_eq, ← cmorAt_eq]
  apply Complex.ext <;> simp [cmorRe, cmorIm, neg_div]

theorem docShan_neg (B C x : ℝ) : docShan B C (-x) = (starRingEnd ℂ) (docShan B C x) := by
  unfold docShan
  rw [exp_two_pi, exp_two_pi, ← Complex.ofReal_mul, ← Complex.ofReal_mul]
  rw [mul_neg, sinc_neg, mul_neg, cos_neg, sin_neg]
  apply Complex.ext
  · rw [Complex.conj_re, Complex.re_ofReal_mul, Complex.re_ofReal_mul]
  · rw [Complex.conj_im, Complex.im_ofReal_mul, Complex.im_ofReal_mul]
    ring

theorem docFbsp_neg (M : ℕ) (B C x : ℝ) : docFbsp M B C (-x) = (starRingEnd ℂ) (docFbsp M B C x) := by
  have e : ∀ x : ℝ, (2 : ℂ) * Complex.I * π * C * x = Complex.I * 2 * π * C * x := fun x => by ring
  unfold docFbsp
  rw [e, e, exp_two_pi, exp_two_pi, ← Complex.ofReal_pow, ← Complex.ofReal_pow, ← Complex.ofReal_mul,
    ← Complex.ofReal_mul, neg_div, mul_neg, sinc_neg, mul_neg, cos_neg, sin_neg]
  apply Complex.ext
  · rw [Complex.conj_re, Complex.re_ofReal_mul, Complex.re_ofReal_mul]
  · rw [Complex.conj_im, Complex.im_ofReal_mul, Complex.im_ofReal_mul]
    ring

end Pywt
