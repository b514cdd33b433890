import Verif.Proof.ContWave
import Verif.Proof.ContNames

/-!
# C52: the continuous wavelets are the documented functions; C53: names of continuous wavelets

The documented functions are in `Verif/Spec/ContWave.lean`.  `ContinuousWavelet(name)` is `contWaveletNamed name`.
The theorems on values hold for exact arithmetic.
-/

namespace Pywt

open MeasureTheory Real Spec

set_option autoImplicit false

/-- With any bounds set, `wavefun` returns the requested number of samples of the real function `f`, together with the
grid that runs from the lower to the upper bound. -/
def SamplesReal (w : ContWavelet) (f : ℝ → ℝ) : Prop :=
  ∀ (lo hi : ℚ) (level : ℤ) (length : Option ℤ) (N : ℕ), Samples level length N → 1 ≤ N →
    ∃ x, Grid lo hi N x ∧ ({ w with lower := lo, upper := hi }).wavefun level length = .ok (.real (x.map f), x)

/-- The same for a complex function. -/
def SamplesCplx (w : ContWavelet) (f : ℝ → ℂ) : Prop :=
  ∀ (lo hi : ℚ) (level : ℤ) (length : Option ℤ) (N : ℕ), Samples level length N → 1 ≤ N →
    ∃ x, Grid lo hi N x ∧ ({ w with lower := lo, upper := hi }).wavefun level length = .ok (.cplx (x.map f), x)

theorem samplesReal_of {w : ContWavelet} {f : ℝ → ℝ}
    (h : ∀ (w' : ContWavelet) (x : List ℝ), w'.family = w.family → w'.number = w.number → 1 ≤ x.length →
      cwtPsiSingle x w' x.length = .ok (.real (x.map f))) : SamplesReal w f := by
  intro lo hi level length N hN h1
  have hg := linspace_grid lo hi N
  refine ⟨_, hg, ?_⟩
  rw [wavefun_eq _ hN]
  have := h { w with lower := lo, upper := hi } _ rfl rfl (by rw [hg.1]; exact h1)
  rw [hg.1] at this
  simp only [this, Py_bind_ok]
  rfl

theorem samplesCplx_of {w : ContWavelet} {f : ℝ → ℂ}
    (h : ∀ (w' : ContWavelet) (x : List ℝ), w'.family = w.family → w'.number = w.number → w'.center = w.center →
      w'.bandwidth = w.bandwidth → w'.fbspOrder = w.fbspOrder → 1 ≤ x.length →
      cwtPsiSingle x w' x.length = .ok (.cplx (x.map f))) : SamplesCplx w f := by
  intro lo hi level length N hN h1
  have hg := linspace_grid lo hi N
  refine ⟨_, hg, ?_⟩
  rw [wavefun_eq _ hN]
  have := h { w with lower := lo, upper := hi } _ rfl rfl rfl rfl rfl (by rw [hg.1]; exact h1)
  rw [hg.1] at this
  simp only [this, Py_bind_ok]
  rfl

theorem psi_gaus {w : ContWavelet} (hw : w.family = .gaus) : SamplesReal w (gausAt w.number) :=
  samplesReal_of fun w' x h1 h2 h3 => by
    unfold cwtPsiSingle
    rw [if_neg (by omega), h1, hw]
    simp only [evalInto_self, h2, Py_bind_ok, Py_pure]

theorem psi_mexh {w : ContWavelet} (hw : w.family = .mexh) : SamplesReal w mexhAt :=
  samplesReal_of fun w' x h1 h2 h3 => by
    unfold cwtPsiSingle
    rw [if_neg (by omega), h1, hw]
    simp only [evalInto_self, Py_bind_ok, Py_pure]

theorem psi_morl {w : ContWavelet} (hw : w.family = .morl) : SamplesReal w morlAt :=
  samplesReal_of fun w' x h1 h2 h3 => by
    unfold cwtPsiSingle
    rw [if_neg (by omega), h1, hw]
    simp only [evalInto_self, Py_bind_ok, Py_pure]

theorem psi_cgau {w : ContWavelet} (hw : w.family = .cgau) :
    SamplesCplx w (fun x => ⟨cgauRe w.number x, cgauIm w.number x⟩) :=
  samplesCplx_of fun w' x h1 h2 _ _ _ h3 => by
    unfold cwtPsiSingle
    rw [if_neg (by omega), h1, hw]
    simp only [evalInto_self, h2, Py_bind_ok, Py_pure]

theorem psi_cmor {w : ContWavelet} (hw : w.family = .cmor) (hB : 0 < w.bandwidth) (hC : 0 < w.center) :
    SamplesCplx w (docCmor w.bandwidth w.center) :=
  samplesCplx_of fun w' x h1 _ h4 h5 _ h3 => by
    unfold cwtPsiSingle
    rw [if_neg (by omega), h1, hw]
    simp only [ContWavelet.bandwidthFrequency, ContWavelet.centerFrequency, h4, h5, if_pos hB, if_pos hC, ofNone,
      evalInto_self, Py_bind_ok, Py_pure, cmorAt_eq]

theorem psi_shan {w : ContWavelet} (hw : w.family = .shan) (hB : 0 < w.bandwidth) (hC : 0 < w.center) :
    SamplesCplx w (docShan w.bandwidth w.center) :=
  samplesCplx_of fun w' x h1 _ h4 h5 _ h3 => by
    have hB' : (0 : ℝ) < w.bandwidth := by exact_mod_cast hB
    unfold cwtPsiSingle
    rw [if_neg (by omega), h1, hw]
    simp only [ContWavelet.bandwidthFrequency, ContWavelet.centerFrequency, h4, h5, if_pos hB, if_pos hC, ofNone,
      evalInto_self, Py_bind_ok, Py_pure, shanAt_eq hB']

theorem psi_fbsp {w : ContWavelet} (hw : w.family = .fbsp) (hB : 0 < w.bandwidth) (hC : 0 < w.center)
    (hM : 1 ≤ w.fbspOrder) (hM' : w.fbspOrder < 2 ^ 31) :
    SamplesCplx w (docFbsp w.fbspOrder w.bandwidth w.center) :=
  samplesCplx_of fun w' x h1 _ h4 h5 h6 h3 => by
    have hB' : (0 : ℝ) < w.bandwidth := by exact_mod_cast hB
    unfold cwtPsiSingle
    rw [if_neg (by omega), h1, hw]
    simp only [ContWavelet.bandwidthFrequency, ContWavelet.centerFrequency, ContWavelet.order, h4, h5, h6, if_pos hB,
      if_pos hC, if_pos (show w.fbspOrder ≠ 0 by omega), if_neg (show ¬ 2 ^ 31 ≤ w.fbspOrder by omega), ofNone,
      evalInto_self, Py_bind_ok, Py_pure, fbspAt_eq hM hB']

theorem bounds_of {w : ContWavelet} {a b : ℚ} (h1 : w.lower = a) (h2 : w.upper = b) (h : a ≠ b) :
    w.bounds = some (a, b) := by
  unfold ContWavelet.bounds
  rw [h1, h2, if_pos h]

theorem gaus_named {n : ℕ} (h1 : 1 ≤ n) (h8 : n ≤ 8) : contWaveletNamed ("gaus" ++ toString n) =
    .ok ⟨"gaus" ++ toString n, n, .gaus, if n % 2 = 0 then .symmetric else .antiSymmetric, "Gaussian", "gaus", false,
      false, false, -5, 5, 0, 0, 0⟩ := by
  interval_cases n <;> decide +kernel

theorem cgau_named {n : ℕ} (h1 : 1 ≤ n) (h8 : n ≤ 8) : contWaveletNamed ("cgau" ++ toString n) =
    .ok ⟨"cgau" ++ toString n, n, .cgau, if n % 2 = 0 then .symmetric else .antiSymmetric, "Complex Gaussian wavelets",
      "cgau", false, false, true, -5, 5, 0, 0, 0⟩ := by
  interval_cases n <;> decide +kernel

theorem gaus_integrable {n : ℕ} (h1 : 1 ≤ n) (h8 : n ≤ 8) (k : ℕ) : Integrable fun x : ℝ => x ^ k * gausAt n x := by
  have h := (evalL_integrable (K := ℝ) (Int.castRingHom ℝ) (e := docGauss)
    (fun k => docGauss_pow_integrable k) (gausPoly n) k).const_mul
      (gausSign n / √((2 * n - 1).doubleFactorial * √(π / 2)))
  refine h.congr (ae_of_all _ fun x => ?_)
  simp only [gausAt_eq h1 h8, docGauss]
  simp only [RCLike.ofReal_real_eq_id, id_eq]
  ring

theorem cgau_integrable {n : ℕ} (h1 : 1 ≤ n) (h8 : n ≤ 8) (k : ℕ) :
    Integrable fun x : ℝ => (x : ℂ) ^ k * (⟨cgauRe n x, cgauIm n x⟩ : ℂ) := by
  have h := (evalL_integrable (K := ℂ) GaussianInt.toComplex (e := docCgauss)
    (fun k => docCgauss_pow_integrable k) (cgauPoly n) k).const_mul
      ((1 / √(cgauConst n * √(π / 2)) : ℝ) : ℂ)
  refine h.congr (ae_of_all _ fun x => ?_)
  simp only [cgauAt_eq h1 h8]
  simp only [Complex.coe_algebraMap]
  ring

/-- **C52.** The wavelets `gaus1` to `gaus8`: `wavefun` samples a function that is a constant times the n-th derivative
of `exp(-t²)`, has energy one, n vanishing moments, and the parity that the object declares. -/
theorem C52_gaus {n : ℕ} (h1 : 1 ≤ n) (h8 : n ≤ 8) {name : String}
    (hn : lowerName name = ("gaus" ++ toString n).toList) :
    ∃ (w : ContWavelet) (f : ℝ → ℝ), contWaveletNamed name = .ok w ∧ w.bounds = some (-5, 5) ∧ w.complexCwt = false ∧
      (w.symmetry = if Even n then .symmetric else .antiSymmetric) ∧ SamplesReal w f ∧
      (∀ t, f t = (if n % 4 < 2 then 1 else -1) / √((2 * n - 1).doubleFactorial * √(π / 2)) *
        iteratedDeriv n docGauss t) ∧
      ∫ t, f t ^ 2 = 1 ∧ (∀ k, k < n → Integrable (fun t => t ^ k * f t) ∧ ∫ t, t ^ k * f t = 0) ∧
      ∀ t, f (-t) = (-1) ^ n * f t := by
  have hc : contWaveletNamed name = contWaveletNamed ("gaus" ++ toString n) := by
    apply named_congr
    rw [hn]
    interval_cases n <;> decide +kernel
  refine ⟨_, gausAt n, hc.trans (gaus_named h1 h8), bounds_of rfl rfl (by norm_num), rfl, ?_, psi_gaus rfl, ?_, gaus_energy h1 h8, ?_,
    gausAt_neg h8⟩
  · simp only [Nat.even_iff]
  · intro t
    rw [gausAt_deriv h1 h8]
    interval_cases n <;> norm_num [gausSign]
  · refine fun k hk => ⟨gaus_integrable h1 h8 k, ?_⟩
    have : ∀ t, t ^ k * gausAt n t = gausSign n / √((2 * n - 1).doubleFactorial * √(π / 2)) *
        (t ^ k * iteratedDeriv n docGauss t) := fun t => by rw [gausAt_deriv h1 h8]; ring
    rw [integral_congr_ae (ae_of_all _ this), integral_const_mul, gaus_moment hk, mul_zero]

example : lowerName "Gaus3" = ("gaus" ++ toString 3).toList := by decide +kernel

/-- **C52.** The wavelets `cgau1` to `cgau8`: a positive constant times the n-th derivative of `exp(-it) exp(-t²)`, with
energy one and n vanishing moments. -/
theorem C52_cgau {n : ℕ} (h1 : 1 ≤ n) (h8 : n ≤ 8) {name : String}
    (hn : lowerName name = ("cgau" ++ toString n).toList) :
    ∃ (w : ContWavelet) (f : ℝ → ℂ) (C : ℝ), contWaveletNamed name = .ok w ∧ w.bounds = some (-5, 5) ∧
      w.complexCwt = true ∧ (w.symmetry = if Even n then .symmetric else .antiSymmetric) ∧ SamplesCplx w f ∧
      0 < C ∧ (∀ t, f t = C * iteratedDeriv n docCgauss t) ∧
      ∫ t, ‖f t‖ ^ 2 = 1 ∧ (∀ k, k < n → Integrable (fun t : ℝ => (t : ℂ) ^ k * f t) ∧ ∫ t : ℝ, (t : ℂ) ^ k * f t = 0) ∧
      ∀ t, f (-t) = (-1) ^ n * starRingEnd ℂ (f t) := by
  have hc : contWaveletNamed name = contWaveletNamed ("cgau" ++ toString n) := by
    apply named_congr
    rw [hn]
    interval_cases n <;> decide +kernel
  refine ⟨_, fun t => ⟨cgauRe n t, cgauIm n t⟩, 1 / √(cgauConst n * √(π / 2)), hc.trans (cgau_named h1 h8),
    bounds_of rfl rfl (by norm_num), rfl, ?_, psi_cgau rfl, ?_, cgauAt_deriv h1 h8, cgau_energy h1 h8, ?_, ?_⟩
  · simp only [Nat.even_iff]
  · have : (0 : ℝ) < cgauConst n := by
      interval_cases n <;> norm_num [cgauConst]
    positivity
  · refine fun k hk => ⟨cgau_integrable h1 h8 k, ?_⟩
    have : ∀ t : ℝ, (t : ℂ) ^ k * (⟨cgauRe n t, cgauIm n t⟩ : ℂ) = ((1 / √(cgauConst n * √(π / 2)) : ℝ) : ℂ) *
        ((t : ℂ) ^ k * iteratedDeriv n docCgauss t) := fun t => by rw [cgauAt_deriv h1 h8]; ring
    rw [integral_congr_ae (ae_of_all _ this), integral_const_mul, cgau_moment hk, mul_zero]
  · intro t
    obtain ⟨e1, e2⟩ := cgauAt_neg h8 t
    have e3 : ((-1 : ℂ)) ^ n = (((-1) ^ n : ℝ) : ℂ) := by push_cast; rfl
    simp only [e1, e2]
    rw [e3]
    apply Complex.ext
    · rw [Complex.re_ofReal_mul, Complex.conj_re]
    · rw [Complex.im_ofReal_mul, Complex.conj_im]
      ring

example : lowerName "CGAU8" = ("cgau" ++ toString 8).toList := by decide +kernel

/-- **C52.** The Mexican hat: the documented function, minus a constant times the second derivative of `exp(-t²/2)`; it
is even, has energy one and two vanishing moments. -/
theorem C52_mexh {name : String} (hn : lowerName name = "mexh".toList) :
    ∃ w, contWaveletNamed name = .ok w ∧ w.bounds = some (-8, 8) ∧ w.complexCwt = false ∧ w.symmetry = .symmetric ∧
      SamplesReal w docMexh ∧
      (∀ t, docMexh t = -(2 / (√3 * π ^ (1 / 4 : ℝ))) * iteratedDeriv 2 (fun t : ℝ => exp (-(t ^ 2 / 2))) t) ∧
      ∫ t, docMexh t ^ 2 = 1 ∧ (∀ k, k < 2 → Integrable (fun t => t ^ k * docMexh t) ∧ ∫ t, t ^ k * docMexh t = 0) ∧
      ∀ t, docMexh (-t) = docMexh t := by
  have hc : contWaveletNamed name = contWaveletNamed "mexh" := by
    apply named_congr
    rw [hn]
    decide +kernel
  have h2 : contWaveletNamed "mexh" = .ok ⟨"mexh", 0, .mexh, .symmetric, "Mexican hat wavelet", "mexh", false, false,
    false, -8, 8, 0, 0, 0⟩ := by decide +kernel
  have e : mexhAt = docMexh := funext mexhAt_eq
  refine ⟨_, hc.trans h2, by decide +kernel, rfl, rfl, e ▸ psi_mexh rfl, docMexh_deriv, e ▸ mexh_energy,
    fun k hk => ⟨?_, e ▸ mexh_moment hk⟩, e ▸ mexhAt_neg⟩
  have h := evalL_integrable (K := ℝ) (Int.castRingHom ℝ) (e := fun t : ℝ => exp (-(1 / 2) * t ^ 2))
    (fun k => integrable_pow_gauss (b := 1 / 2) (by norm_num) k) [1, 0, -1] k
  refine (h.const_mul (2 / (√3 * π ^ (1 / 4 : ℝ)))).congr (ae_of_all _ fun t => ?_)
  simp only [docMexh, evalL, RCLike.ofReal_real_eq_id, id_eq]
  rw [show -(1 / 2) * t ^ 2 = -(t ^ 2 / 2) by ring]
  simp only [map_one, map_zero, map_neg]
  ring

example : lowerName "mexh" = "mexh".toList := by decide +kernel

/-- **C52.** The Morlet wavelet: the documented function, even; its mean is small but not zero. -/
theorem C52_morl {name : String} (hn : lowerName name = "morl".toList) :
    ∃ w, contWaveletNamed name = .ok w ∧ w.bounds = some (-8, 8) ∧ w.complexCwt = false ∧ w.symmetry = .symmetric ∧
      SamplesReal w docMorl ∧ (∀ t, docMorl (-t) = docMorl t) ∧ ∫ t, docMorl t = √(2 * π) * exp (-(25 / 2)) := by
  have hc : contWaveletNamed name = contWaveletNamed "morl" := by
    apply named_congr
    rw [hn]
    decide +kernel
  have h2 : contWaveletNamed "morl" = .ok ⟨"morl", 0, .morl, .symmetric, "Morlet wavelet", "morl", false, false,
    false, -8, 8, 0, 0, 0⟩ := by decide +kernel
  have e : morlAt = docMorl := funext morlAt_eq
  exact ⟨_, hc.trans h2, by decide +kernel, rfl, rfl, e ▸ psi_morl rfl, e ▸ morlAt_neg, e ▸ morl_mean⟩

example : lowerName "MORL" = "morl".toList := by decide +kernel

/-- **C52.** `cmorB-C`: the documented function with the bandwidth `B` and the centre frequency `C` of the name; it is
Hermitian, its absolute value has integral one, and its mean is `exp(-π² B C²)`. -/
theorem C52_cmor {name : String} {bs cs : List Char} {B C : ℚ}
    (hn : lowerName name = "cmor".toList ++ bs ++ ['-'] ++ cs) (hB : IsDecimal bs B) (hC : IsDecimal cs C) (hB0 : 0 < B)
    (hC0 : 0 < C) :
    ∃ w, contWaveletNamed name = .ok w ∧ w.bounds = some (-8, 8) ∧ w.complexCwt = true ∧
      SamplesCplx w (docCmor B C) ∧ (∀ t, docCmor B C (-t) = starRingEnd ℂ (docCmor B C t)) ∧
      ∫ t, ‖docCmor B C t‖ = 1 ∧ ∫ t, docCmor B C t = (exp (-(π ^ 2 * B * C ^ 2)) : ℝ) := by
  have h := named_two_ok (name := name) (j1 := []) (j2 := ['-']) (j3 := []) (Or.inl rfl) (by rw [hn]; simp) (by simp) hB
    (by simp) (by decide) (by decide) hC (by simp) (by simp)
  have hB' : (0 : ℝ) < B := by exact_mod_cast hB0
  refine ⟨_, h, bounds_of rfl rfl (by norm_num), rfl, ?_, docCmor_neg _ _, cmor_abs hB' _, cmor_mean hB' _⟩
  exact psi_cmor (w := { blankParam "cmor".toList with name := _, bandwidth := B, center := C }) rfl hB0 hC0

example : lowerName "cmor1.5-1.0" = "cmor".toList ++ "1.5".toList ++ ['-'] ++ "1.0".toList ∧
    IsDecimal "1.5".toList (3 / 2) ∧ IsDecimal "1.0".toList 1 := by
  refine ⟨by decide +kernel, ?_, ?_⟩
  · have := IsDecimal.frac (d := ['1']) (e := ['5']) (by simp) (by decide) (by decide)
    rwa [show (numeral ['1'] + numeral ['5'] / 10 ^ ['5'].length : ℚ) = 3 / 2 by decide +kernel] at this
  · have := IsDecimal.frac (d := ['1']) (e := ['0']) (by simp) (by decide) (by decide)
    rwa [show (numeral ['1'] + numeral ['0'] / 10 ^ ['0'].length : ℚ) = 1 by decide +kernel] at this

/-- **C52.** `shanB-C`: the documented function with the bandwidth and the centre frequency of the name. -/
theorem C52_shan {name : String} {bs cs : List Char} {B C : ℚ}
    (hn : lowerName name = "shan".toList ++ bs ++ ['-'] ++ cs) (hB : IsDecimal bs B) (hC : IsDecimal cs C) (hB0 : 0 < B)
    (hC0 : 0 < C) :
    ∃ w, contWaveletNamed name = .ok w ∧ w.bounds = some (-20, 20) ∧ w.complexCwt = true ∧
      SamplesCplx w (docShan B C) ∧ ∀ t, docShan B C (-t) = starRingEnd ℂ (docShan B C t) := by
  have h := named_two_ok (name := name) (j1 := []) (j2 := ['-']) (j3 := []) (Or.inr rfl) (by rw [hn]; simp) (by simp) hB
    (by simp) (by decide) (by decide) hC (by simp) (by simp)
  refine ⟨_, h, bounds_of rfl rfl (by norm_num), rfl, ?_, docShan_neg _ _⟩
  exact psi_shan (w := { blankParam "shan".toList with name := _, bandwidth := B, center := C }) rfl hB0 hC0

example : lowerName "shan0.5-2" = "shan".toList ++ "0.5".toList ++ ['-'] ++ "2".toList ∧ IsDecimal "2".toList 2 := by
  refine ⟨by decide +kernel, ?_⟩
  have := IsDecimal.int (d := ['2']) (by simp) (by decide)
  rwa [show (numeral ['2'] : ℚ) = 2 by decide +kernel] at this

/-- **C52.** `fbspM-B-C`: the documented function with the order, the bandwidth and the centre frequency of the name. -/
theorem C52_fbsp {name : String} {ms bs cs : List Char} {M : ℕ} {B C : ℚ}
    (hn : lowerName name = "fbsp".toList ++ ms ++ ['-'] ++ bs ++ ['-'] ++ cs) (hM : IsDecimal ms M) (hB : IsDecimal bs B)
    (hC : IsDecimal cs C) (hM1 : 1 ≤ M) (hM2 : M < 2 ^ 31) (hB0 : 0 < B) (hC0 : 0 < C) :
    ∃ w, contWaveletNamed name = .ok w ∧ w.bounds = some (-20, 20) ∧ w.complexCwt = true ∧
      SamplesCplx w (docFbsp M B C) ∧ ∀ t, docFbsp M B C (-t) = starRingEnd ℂ (docFbsp M B C t) := by
  have h := named_three_eq (name := name) (j1 := []) (j2 := ['-']) (j3 := ['-']) (j4 := []) (by rw [hn]; simp) (by simp)
    hM (by simp) (by decide) (by decide) hB (by simp) (by decide) (by decide) hC (by simp) (by simp)
  have hM1' : (1 : ℚ) ≤ M := by exact_mod_cast hM1
  have hM2' : (M : ℚ) < 2 ^ 32 := by
    have : (M : ℚ) < ((2 ^ 31 : ℕ) : ℚ) := by exact_mod_cast hM2
    refine this.trans ?_
    norm_num
  rw [if_neg (by push Not; exact ⟨hM1', by simp⟩), if_neg (by push Not; exact hM2')] at h
  refine ⟨_, h, bounds_of rfl rfl (by norm_num), rfl, ?_, docFbsp_neg _ _ _⟩
  exact psi_fbsp (w := { blankParam "fbsp".toList with name := _, bandwidth := B, center := C, fbspOrder := M })
    rfl hB0 hC0 hM1 hM2

example : lowerName "fbsp2-1-0.5" = "fbsp".toList ++ "2".toList ++ ['-'] ++ "1".toList ++ ['-'] ++ "0.5".toList := by
  decide +kernel

/-! ## C53: names -/

/-- **C53.** Upper and lower case do not matter, and the name of the object is in lower case. -/
theorem C53_case {a b : String} (h : lowerName a = lowerName b) :
    contWaveletNamed a = contWaveletNamed b ∧
      ∀ w, contWaveletNamed a = .ok w → w.name.toList = lowerName a :=
  ⟨named_congr h, fun w hw => by rw [named_name hw, String.toList_ofList]⟩

example : lowerName "MexH" = lowerName "mexh" ∧ (contWaveletNamed "mexh").isOk := by decide +kernel

/-- **C53.** Without parameters exactly these names are accepted: `gaus1` to `gaus8`, `cgau1` to `cgau8`, `mexh`, `morl`,
`cmor`, `shan` and `fbsp`; any other name that does not start with `cmor`, `shan` or `fbsp` is a `ValueError`. -/
theorem C53_plain_names {name : String} (hp : ∀ b ∈ ["cmor", "shan", "fbsp"], (lowerName name).take 4 = b.toList →
    lowerName name = b.toList) :
    ((∃ w, contWaveletNamed name = .ok w) ↔
      lowerName name ∈ (["gaus1", "gaus2", "gaus3", "gaus4", "gaus5", "gaus6", "gaus7", "gaus8", "mexh", "morl",
        "cgau1", "cgau2", "cgau3", "cgau4", "cgau5", "cgau6", "cgau7", "cgau8", "cmor", "shan", "fbsp"].map
          String.toList)) ∧
      ((¬ ∃ w, contWaveletNamed name = .ok w) → contWaveletNamed name = .error .value) := by
  have key : (lowerName name ∈ (["gaus1", "gaus2", "gaus3", "gaus4", "gaus5", "gaus6", "gaus7", "gaus8", "mexh", "morl",
        "cgau1", "cgau2", "cgau3", "cgau4", "cgau5", "cgau6", "cgau7", "cgau8", "cmor", "shan", "fbsp"].map
          String.toList) ∧ ∃ w, contWaveletNamed name = .ok w) ∨
      (lowerName name ∉ (["gaus1", "gaus2", "gaus3", "gaus4", "gaus5", "gaus6", "gaus7", "gaus8", "mexh", "morl",
        "cgau1", "cgau2", "cgau3", "cgau4", "cgau5", "cgau6", "cgau7", "cgau8", "cmor", "shan", "fbsp"].map
          String.toList) ∧ contWaveletNamed name = .error .value) := by
    by_cases hm : lowerName name ∈ (["gaus1", "gaus2", "gaus3", "gaus4", "gaus5", "gaus6", "gaus7", "gaus8", "mexh",
        "morl", "cgau1", "cgau2", "cgau3", "cgau4", "cgau5", "cgau6", "cgau7", "cgau8", "cmor", "shan", "fbsp"].map
          String.toList)
    · left
      refine ⟨hm, ?_⟩
      obtain ⟨s, hs, he⟩ := List.mem_map.mp hm
      have h2 : ∀ s ∈ plainNames ++ ["cmor", "shan", "fbsp"],
          lowerName s = s.toList ∧ (contWaveletNamed s).isOk = true := by decide +kernel
      obtain ⟨h3, h4⟩ := h2 s (by simpa [plainNames] using hs)
      rw [named_congr (b := s) (by rw [h3, he])]
      cases h5 : contWaveletNamed s with
      | ok w => exact ⟨w, rfl⟩
      | error e => rw [h5] at h4; simp [Except.isOk, Except.toBool] at h4
    · right
      refine ⟨hm, plain_rejects ?_ ?_⟩
      · intro h
        apply hm
        simp only [List.mem_cons, List.not_mem_nil, or_false] at h
        rcases h with h | h | h
        · have := hp "cmor" (by simp) h
          rw [this]
          exact List.mem_map.mpr ⟨"cmor", by simp, rfl⟩
        · have := hp "shan" (by simp) h
          rw [this]
          exact List.mem_map.mpr ⟨"shan", by simp, rfl⟩
        · have := hp "fbsp" (by simp) h
          rw [this]
          exact List.mem_map.mpr ⟨"fbsp", by simp, rfl⟩
      · intro s hs he
        apply hm
        rw [he]
        refine List.mem_map.mpr ⟨s, ?_, rfl⟩
        unfold plainNames at hs
        have : ∀ s ∈ plainNames, s ∈ ["gaus1", "gaus2", "gaus3", "gaus4", "gaus5", "gaus6", "gaus7", "gaus8", "mexh",
          "morl", "cgau1", "cgau2", "cgau3", "cgau4", "cgau5", "cgau6", "cgau7", "cgau8", "cmor", "shan", "fbsp"] := by
          decide +kernel
        exact this s hs
  rcases key with ⟨h1, h2⟩ | ⟨h1, h2⟩
  · exact ⟨⟨fun _ => h1, fun _ => h2⟩, fun h => absurd h2 h⟩
  · refine ⟨⟨fun ⟨w, hw⟩ => ?_, fun h => absurd h h1⟩, fun _ => h2⟩
    rw [h2] at hw
    cases hw

example : contWaveletNamed "gaus9" = .error .value ∧ contWaveletNamed "db4" = .error .value ∧
    (contWaveletNamed "Morl").isOk := by decide +kernel

/-- **C53.** A name of the family `cmor` or `shan` with two numbers: the first one is the bandwidth, the second one the
centre frequency, whatever separates them; everything else has the value of the family. -/
theorem C53_two_parameters {name : String} {base j1 bs j2 cs j3 : List Char} {B C : ℚ}
    (hb : base = "cmor".toList ∨ base = "shan".toList)
    (hn : lowerName name = base ++ j1 ++ bs ++ j2 ++ cs ++ j3) (h1 : ∀ c ∈ j1, c.isDigit = false)
    (hB : IsDecimal bs B) (h2 : Filler j2) (h2n : j2 ≠ []) (hC : IsDecimal cs C) (h3 : Filler j3) :
    ∃ w w0, contWaveletNamed name = .ok w ∧ contWaveletNamed (String.ofList base) = .ok w0 ∧
      w = { w0 with name := String.ofList (lowerName name), bandwidth := B, center := C } ∧
      w.bandwidthFrequency = (if 0 < B then some B else none) ∧ w.centerFrequency = (if 0 < C then some C else none) := by
  have h := named_two_ok hb hn h1 hB h2n h2.1 h2.2 hC h3.1 h3.2
  have h0 := named_bare (name := String.ofList base) (base := base)
    (by rcases hb with h | h; exacts [Or.inl h, Or.inr (Or.inl h)])
    (by rcases hb with rfl | rfl <;> decide +kernel)
  exact ⟨_, _, h, h0, rfl, rfl, rfl⟩

example : lowerName "Shan0.5x2" = "shan".toList ++ [] ++ "0.5".toList ++ ['x'] ++ "2".toList ++ [] ∧ Filler ['x'] ∧
    (contWaveletNamed "Shan0.5x2").map (fun w => (w.bandwidth, w.center)) = .ok (1 / 2, 2) :=
  ⟨by decide +kernel, ⟨by decide, by decide⟩, by decide +kernel⟩

/-- **C53.** A name of the family `fbsp` with three numbers: order, bandwidth and centre frequency.  An order that is
not a positive integer is a `ValueError`. -/
theorem C53_three_parameters {name : String} {j1 ms j2 bs j3 cs j4 : List Char} {M B C : ℚ}
    (hn : lowerName name = "fbsp".toList ++ j1 ++ ms ++ j2 ++ bs ++ j3 ++ cs ++ j4) (h1 : ∀ c ∈ j1, c.isDigit = false)
    (hM : IsDecimal ms M) (h2 : Filler j2) (h2n : j2 ≠ []) (hB : IsDecimal bs B) (h3 : Filler j3) (h3n : j3 ≠ [])
    (hC : IsDecimal cs C) (h4 : Filler j4) :
    ((∀ m : ℕ, M = m → 1 ≤ m → m < 2 ^ 32 → ∃ w w0, contWaveletNamed name = .ok w ∧ contWaveletNamed "fbsp" = .ok w0 ∧
        w = { w0 with name := String.ofList (lowerName name), bandwidth := B, center := C, fbspOrder := m })) ∧
      ((¬ ∃ m : ℕ, M = m ∧ 1 ≤ m) → contWaveletNamed name = .error .value) := by
  have h := named_three_eq hn h1 hM h2n h2.1 h2.2 hB h3n h3.1 h3.2 hC h4.1 h4.2
  constructor
  · rintro m rfl hm1 hm2
    have hM1' : (1 : ℚ) ≤ m := by exact_mod_cast hm1
    have hM2' : (m : ℚ) < 2 ^ 32 := by exact_mod_cast hm2
    rw [if_neg (by push Not; exact ⟨hM1', by simp⟩), if_neg (by push Not; exact hM2')] at h
    have h0 := named_bare (name := "fbsp") (base := "fbsp".toList) (Or.inr (Or.inr rfl)) (by decide +kernel)
    exact ⟨_, _, h, h0, rfl⟩
  · intro hm
    rw [if_pos] at h
    · exact h
    by_contra hc
    push Not at hc
    obtain ⟨c1, c2⟩ := hc
    apply hm
    have hnum : (M.num : ℚ) = M := by
      have := Rat.num_div_den M
      rw [c2] at this
      simpa using this
    have h0 : 1 ≤ M.num := by
      have : (1 : ℚ) ≤ M.num := by rw [hnum]; exact c1
      exact_mod_cast this
    refine ⟨M.num.toNat, ?_, by omega⟩
    have e : ((M.num.toNat : ℤ) : ℚ) = (M.num : ℚ) := by rw [Int.toNat_of_nonneg (by omega)]
    rw [← hnum]
    exact_mod_cast e.symm

example : (contWaveletNamed "fbsp3-1.5-0.5").map (fun w => (w.fbspOrder, w.bandwidth, w.center)) =
    .ok (3, 3 / 2, 1 / 2) ∧ contWaveletNamed "fbsp1.5-1-1" = .error .value ∧
    contWaveletNamed "fbsp0-1-1" = .error .value := by decide +kernel

/-- **C53.** A name of a family with parameters that holds another number of them (but is not just the family) is a
`ValueError`. -/
theorem C53_wrong_count {name : String} {base j r : List Char} {l : List (List Char)}
    (hb : base = "cmor".toList ∨ base = "shan".toList ∨ base = "fbsp".toList)
    (hn : lowerName name = base ++ j ++ r) (hj : ∀ c ∈ j, c.isDigit = false) (hr : Numbers l r) (hne : j ++ r ≠ [])
    (hl : l.length ≠ if base = "fbsp".toList then 3 else 2) : contWaveletNamed name = .error .value :=
  named_wrong_count hb hn hj hr hne hl

example : Numbers ["1".toList, "2".toList, "3".toList] "1-2-3".toList ∧
    contWaveletNamed "cmor1-2-3" = .error .value ∧ contWaveletNamed "cmorx" = .error .value ∧
    contWaveletNamed "fbsp1-2" = .error .value := by
  have f : Filler ['-'] := ⟨by decide, by decide⟩
  refine ⟨?_, by decide +kernel, by decide +kernel, by decide +kernel⟩
  exact .cons (.int (d := ['1']) (by simp) (by decide)) f (by simp)
    (.cons (.int (d := ['2']) (by simp) (by decide)) f (by simp)
      (.last (j := []) (.int (d := ['3']) (by simp) (by decide)) ⟨by decide, by decide⟩))

/-- **C53.** The families with parameters, named without them, have the values the warning announces: `cmor` is
`cmor1.0-0.5`, `shan` is `shan0.5-1.0` and `fbsp` is `fbsp2-1.0-0.5`. -/
theorem C53_bare_families :
    ∀ p ∈ [("cmor", "cmor1.0-0.5"), ("shan", "shan0.5-1.0"), ("fbsp", "fbsp2-1.0-0.5")],
      ∃ w v, contWaveletNamed p.1 = .ok w ∧ contWaveletNamed p.2 = .ok v ∧ w = { v with name := w.name } := by
  have h : ∀ p ∈ [("cmor", "cmor1.0-0.5"), ("shan", "shan0.5-1.0"), ("fbsp", "fbsp2-1.0-0.5")],
      (match contWaveletNamed p.1, contWaveletNamed p.2 with
      | .ok w, .ok v => decide (w = { v with name := w.name })
      | _, _ => false) = true := by decide +kernel
  intro p hp
  have := h p hp
  cases h1 : contWaveletNamed p.1 with
  | error e => rw [h1] at this; simp at this
  | ok w =>
    cases h2 : contWaveletNamed p.2 with
    | error e => rw [h1, h2] at this; simp at this
    | ok v =>
      rw [h1, h2] at this
      exact ⟨w, v, rfl, rfl, of_decide_eq_true this⟩

example : (contWaveletNamed "cmor").map (fun w => (w.bandwidth, w.center)) = .ok (1, 1 / 2) := by decide +kernel

/-- **C53.** Numbers are read without their signs, without a dot in front and without an exponent: `cmor.5-1` has the
bandwidth 5, `cmor-1.5-1.0` has the bandwidth 1.5, `cmor1e3` has the bandwidth 1 and the centre frequency 3, and
`cmor1e-3-2` is rejected. -/
theorem C53_number_formats :
    (contWaveletNamed "cmor.5-1").map (fun w => (w.bandwidth, w.center)) = .ok (5, 1) ∧
    (contWaveletNamed "cmor-1.5-1.0").map (fun w => (w.bandwidth, w.center)) = .ok (3 / 2, 1) ∧
    (contWaveletNamed "cmor1e3").map (fun w => (w.bandwidth, w.center)) = .ok (1, 3) ∧
    contWaveletNamed "cmor1e-3-2" = .error .value := by decide +kernel

/-- **C53.** Pickling or copying an object as it was created gives an equal object. -/
theorem C53_pickle {name : String} {w : ContWavelet} (h : contWaveletNamed name = .ok w) : w.unpickle = .ok w :=
  named_unpickle h

example : (contWaveletNamed "Cmor1.5-1.0").isOk := by decide +kernel

/-- **C53.** Pickling or copying drops every attribute set after creation: the copy is the object as created. -/
theorem C53_pickle_drops_edits {name : String} {w v : ContWavelet} (h : contWaveletNamed name = .ok w)
    (hv : v.name = w.name) : v.unpickle = .ok w := by
  have := named_unpickle h
  unfold ContWavelet.unpickle at this ⊢
  rw [hv, this]

example : ∃ w, contWaveletNamed "cmor1.5-1.0" = .ok w ∧ ({ w with center := 2 }).unpickle ≠ .ok { w with center := 2 } := by
  cases h : contWaveletNamed "cmor1.5-1.0" with
  | error e =>
    have : (contWaveletNamed "cmor1.5-1.0").isOk = true := by decide +kernel
    rw [h] at this
    simp [Except.isOk, Except.toBool] at this
  | ok w =>
    refine ⟨w, rfl, ?_⟩
    rw [C53_pickle_drops_edits (v := { w with center := 2 }) h rfl]
    intro e
    injection e with e
    have h1 : (contWaveletNamed "cmor1.5-1.0").map (·.center) = .ok 1 := by decide +kernel
    rw [h, e] at h1
    simp [Except.map] at h1

/-- **C53.** Requests `wavefun` rejects: no samples (`length=0` or a negative level) is a `RuntimeError`, a negative
length is a `ValueError`. -/
theorem C53_wavefun_rejects (w : ContWavelet) (level : ℤ) :
    w.wavefun level (some 0) = .error .runtime ∧ (level < 0 → w.wavefun level none = .error .runtime) ∧
      ∀ l, l < 0 → w.wavefun level (some l) = .error .value :=
  ⟨wavefun_zero w rfl, fun h => wavefun_zero w h, fun _ h => wavefun_negative w level h⟩

example : (-1 : ℤ) < 0 := by decide

/-- **C53.** A frequency that is zero is accepted in a name, but `wavefun` then raises a `TypeError`. -/
theorem C53_zero_frequency {w : ContWavelet} (hw : w.family = .cmor ∨ w.family = .shan)
    (h0 : w.bandwidth ≤ 0 ∨ w.center ≤ 0) {level : ℤ} {length : Option ℤ} {N : ℕ} (hN : Samples level length N)
    (h1 : 1 ≤ N) : w.wavefun level length = .error .type := by
  have hp : ∀ x, cwtPsiSingle x w N = .error .type := by
    intro x
    unfold cwtPsiSingle
    rw [if_neg (by omega)]
    by_cases hb : 0 < w.bandwidth
    · have hc : ¬ 0 < w.center := by
        rcases h0 with h | h
        · exact absurd hb (not_lt.mpr h)
        · exact not_lt.mpr h
      rcases hw with hw | hw <;> rw [hw] <;>
        simp only [ContWavelet.bandwidthFrequency, ContWavelet.centerFrequency, if_pos hb, if_neg hc, ofNone,
          Py_bind_ok, Py_bind_error]
    · rcases hw with hw | hw <;> rw [hw] <;>
        simp only [ContWavelet.bandwidthFrequency, if_neg hb, ofNone, Py_bind_error]
  rw [wavefun_eq _ hN, hp, Py_bind_error]

example : (contWaveletNamed "cmor0-1").map (fun w => (w.family, w.bandwidth, w.center)) = .ok (.cmor, 0, 1) ∧
    Samples 3 none 8 := ⟨by decide +kernel, by decide, rfl⟩

end Pywt
