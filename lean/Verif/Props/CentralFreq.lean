import Verif.Proof.CentralFreq
import Verif.Props.Wavefun
import Verif.Props.ContWave
import Verif.Props.Cwt

/-!
# Property C56: integrals and central frequencies of wavelets, and the transform computed from them

`Verif.Spec.Wavefun` holds the specification: `IsIntegral` (cumulative sums times the step), `dft` and `FirstPeak`
(the first frequency other than zero at which the discrete Fourier transform is largest).
-/

set_option autoImplicit false

namespace Pywt

open Finset Spec Real

theorem gridStep_dyadic {L : ℕ} {x : List ℝ} (h : DyadicGrid L x) (h2 : 2 ≤ x.length) : gridStep x = .ok (1 / 2 ^ L) := by
  have e0 := h 0 (by omega)
  have e1 := h 1 (by omega)
  match x, h2 with
  | a :: b :: r, _ =>
    simp at e0 e1
    simp [gridStep, e0, e1]

theorem samples_two {o : WaveletObj ℝ} (hw : o.w.Ok) (L : ℕ) :
    2 ≤ orthSamples o.w.dec_len L ∧ 2 ≤ biorSamples o.w.dec_len L :=
  ⟨(right_orth hw.1 hw.2.1).2, (right_bior hw.1 hw.2.1).2⟩

theorem integral_last {psi I : List ℝ} {step : ℝ} (h : IsIntegral psi step I) (h1 : 1 ≤ psi.length) (h0 : psi.sum = 0) :
    I.getD (I.length - 1) 0 = 0 := by
  rw [h.1, h.2 _ (by omega), show psi.length - 1 + 1 = psi.length by omega, ← sum_eq_range_getD, h0, smul_zero]

/-- **C56 (integrals, orthogonal wavelets).** `integrate_wavelet` returns the cumulative sums of the samples of the
wavelet times the distance of the grid points, and the grid; if the taps of `rec_hi` sum to zero, the integral ends at
zero. -/
theorem C56_integrate_orthogonal {o : WaveletObj ℝ} (hw : o.w.Ok) {L : ℕ} {phi psi x : List ℝ}
    (h : o.wavefun L = .ok (.orth phi psi x)) :
    ∃ I, integrateWavelet (.disc o) L = .ok (.one (.real I) x) ∧ IsIntegral psi (1 / 2 ^ L) I ∧
      (o.w.rec_hi.sum = 0 → I.getD (I.length - 1) 0 = 0) := by
  obtain ⟨hL, hx, hg, -, ⟨b1, -, b⟩⟩ := orth_inv hw h
  have h2 := (samples_two hw L).1
  refine ⟨integrateArr psi (1 / 2 ^ L), ?_, isIntegral_integrateArr _ _, fun h0 => ?_⟩
  · unfold integrateWavelet AnyWavelet.wavefun
    simp only [h, Py_bind_ok, gridStep_dyadic hg (by omega)]
  · refine integral_last (isIntegral_integrateArr psi _) (by omega) ?_
    rw [sum_of_cascade b, h0]
    simp

/-- **C56 (integrals, other wavelets).** -/
theorem C56_integrate_biorthogonal {o : WaveletObj ℝ} (hw : o.w.Ok) {L : ℕ} {phi_d psi_d phi_r psi_r x : List ℝ}
    (h : o.wavefun L = .ok (.bior phi_d psi_d phi_r psi_r x)) :
    ∃ I J, integrateWavelet (.disc o) L = .ok (.two I J x) ∧ IsIntegral psi_d (1 / 2 ^ L) I ∧
      IsIntegral psi_r (1 / 2 ^ L) J ∧ (o.w.dec_hi.sum = 0 → I.getD (I.length - 1) 0 = 0) ∧
      (o.w.rec_hi.sum = 0 → J.getD (J.length - 1) 0 = 0) := by
  obtain ⟨hL, hx, hg, -, ⟨b1, -, b⟩, -, ⟨d1, -, d⟩⟩ := bior_inv hw h
  have h2 := (samples_two hw L).2
  refine ⟨integrateArr psi_d (1 / 2 ^ L), integrateArr psi_r (1 / 2 ^ L), ?_, isIntegral_integrateArr _ _,
    isIntegral_integrateArr _ _, fun h0 => ?_, fun h0 => ?_⟩
  · unfold integrateWavelet AnyWavelet.wavefun
    simp only [h, Py_bind_ok, gridStep_dyadic hg (by omega)]
  · refine integral_last (isIntegral_integrateArr psi_d _) (by omega) ?_
    rw [sum_of_cascade b, List.sum_reverse, h0]
    simp
  · refine integral_last (isIntegral_integrateArr psi_r _) (by omega) ?_
    rw [sum_of_cascade d, h0]
    simp

/-- The object samples the function `f`: a real function if it is not flagged as complex, else a complex one. -/
def SamplesFun (w : ContWavelet) (f : ℝ → ℂ) : Prop :=
  (w.complexCwt = false ∧ ∃ g : ℝ → ℝ, SamplesReal w g ∧ ∀ t, f t = g t) ∨ (w.complexCwt = true ∧ SamplesCplx w f)

theorem Spec.Grid.step {lo hi : ℚ} {N : ℕ} {x : List ℝ} (h : Grid lo hi N x) (hN : 2 ≤ N) :
    gridStep x = .ok (((hi - lo) / (N - 1 : ℕ) : ℚ) : ℝ) := by
  have e := h.2.2.2 0 (by omega)
  have hl := h.1
  match x, hl with
  | [], hl => simp at hl; omega
  | [_], hl => simp at hl; omega
  | a :: b :: r, _ =>
    simp at e
    simp [gridStep, e]

theorem Spec.Grid.ends {lo hi : ℚ} {N : ℕ} {x : List ℝ} (h : Grid lo hi N x) (hN : 2 ≤ N) :
    x.head? = some (lo : ℝ) ∧ x.getLast? = some (hi : ℝ) := by
  have hl := h.1
  have e0 := h.2.1 (by omega)
  have e1 := h.2.2.1 (by omega)
  rw [List.getD_eq_getElem _ _ (by omega)] at e0 e1
  constructor
  · rw [List.head?_eq_getElem?, List.getElem?_eq_getElem (by omega), e0]
  · rw [List.getLast?_eq_getElem?, List.getElem?_eq_getElem (by omega), ← e1]
    congr 2
    omega

theorem samplesFun_wavefun {w : ContWavelet} {f : ℝ → ℂ} (hf : SamplesFun w f) (p : ℕ) :
    ∃ x psi, Grid w.lower w.upper (2 ^ p) x ∧ w.wavefun p none = .ok (psi, x) ∧ psi.toComplex = x.map f ∧
      (∀ step, IsIntegral (x.map f) step (psi.integrate step).toComplex) ∧
      (w.complexCwt = false → ∃ g : ℝ → ℝ, (∀ t, f t = g t) ∧ psi = .real (x.map g)) := by
  rcases hf with ⟨hc, g, hg, hfg⟩ | ⟨hc, hg⟩
  · obtain ⟨x, h1, h2⟩ := hg w.lower w.upper p none (2 ^ p) ⟨by omega, by simp⟩ Nat.one_le_two_pow
    refine ⟨x, .real (x.map g), h1, h2, ?_, ?_, fun _ => ⟨g, hfg, rfl⟩⟩
    · simp only [Psi.toComplex, List.map_map]
      exact List.map_congr_left fun t _ => (hfg t).symm
    · intro step
      obtain ⟨i1, i2⟩ := isIntegral_integrateArr (x.map g) step
      refine ⟨by simp [Psi.integrate, Psi.toComplex, i1], ?_⟩
      intro i hi
      simp only [List.length_map] at hi i1 i2
      have e := i2 i hi
      simp only [Psi.integrate, Psi.toComplex]
      rw [List.getD_eq_getElem _ _ (by rw [List.length_map, i1]; exact hi), List.getElem_map]
      rw [List.getD_eq_getElem _ _ (by rw [i1]; exact hi)] at e
      rw [e]
      simp only [smul_eq_mul, Complex.real_smul]
      push_cast
      congr 1
      apply sum_congr rfl
      intro j hj
      simp only [mem_range] at hj
      rw [List.getD_eq_getElem _ _ (by simp; omega), List.getD_eq_getElem _ _ (by simp; omega), List.getElem_map,
        List.getElem_map, hfg]
  · obtain ⟨x, h1, h2⟩ := hg w.lower w.upper p none (2 ^ p) ⟨by omega, by simp⟩ Nat.one_le_two_pow
    refine ⟨x, .cplx (x.map f), h1, h2, rfl, fun step => isIntegral_integrateArr _ _, fun h => ?_⟩
    rw [hc] at h
    cases h

/-- **C56 (integrals, continuous wavelets).** -/
theorem C56_integrate_continuous {w : ContWavelet} {f : ℝ → ℂ} (hf : SamplesFun w f) {p : ℕ} (hp : 1 ≤ p) :
    ∃ x I, Grid w.lower w.upper (2 ^ p) x ∧ integrateWavelet (.cont w) p = .ok (.one I x) ∧
      IsIntegral (x.map f) ((w.upper - w.lower) / (2 ^ p - 1)) I.toComplex := by
  obtain ⟨x, psi, h1, h2, h3, h4, -⟩ := samplesFun_wavefun hf p
  have hN : 2 ≤ 2 ^ p := by
    calc 2 = 2 ^ 1 := rfl
      _ ≤ 2 ^ p := Nat.pow_le_pow_right (by norm_num) hp
  refine ⟨x, psi.integrate ((w.upper - w.lower) / (2 ^ p - 1)), h1, ?_, h4 _⟩
  unfold integrateWavelet AnyWavelet.wavefun
  simp only [h2, Py_bind_ok, h1.step hN]
  congr 3
  push_cast [show 1 ≤ 2 ^ p by omega]
  rfl

/-- **C56 (integrals, rejections).** A continuous wavelet at precision 0 has one sample: `IndexError`.  A discrete
wavelet at a precision below one: `ValueError`. -/
theorem C56_integrate_rejects {w : ContWavelet} {f : ℝ → ℂ} (hf : SamplesFun w f) {o : WaveletObj ℝ} (hw : o.w.Ok)
    {p : ℤ} (hp : p < 1) :
    integrateWavelet (.cont w) 0 = .error .index ∧ (p < 0 → integrateWavelet (.cont w) p = .error .runtime) ∧
      integrateWavelet (.disc o) p = .error .value := by
  refine ⟨?_, fun h => ?_, ?_⟩
  · obtain ⟨x, psi, h1, h2, -⟩ := samplesFun_wavefun hf 0
    unfold integrateWavelet AnyWavelet.wavefun
    have h2' : w.wavefun 0 none = .ok (psi, x) := h2
    simp only [h2', Py_bind_ok]
    have hl : x.length = 1 := h1.1
    obtain ⟨a, rfl⟩ := List.length_eq_one_iff.mp hl
    rfl
  · unfold integrateWavelet AnyWavelet.wavefun
    simp only [wavefun_zero w (level := p) (length := none) h, Py_bind_error]
  · unfold integrateWavelet AnyWavelet.wavefun
    simp only [wavefun_err hw hp, Py_bind_error]

/-- The number of cycles that `central_frequency` divides by the length of the interval: for real samples the first
peak `k`, except that `k+1` is used when `2k+1` is the number of samples. -/
def cyclesReal (N k : ℕ) : ℕ := if 2 * k + 1 = N then k + 1 else k

theorem cycles_real {N k : ℕ} (h : 2 * k ≤ N) : (if N < 2 * (k + 1) then N - k else k) = cyclesReal N k := by
  unfold cyclesReal
  split_ifs <;> omega

theorem dyadic_ends {L : ℕ} {x : List ℝ} (h : DyadicGrid L x) (h2 : 2 ≤ x.length) :
    x.head? = some 0 ∧ x.getLast? = some (((x.length - 1 : ℕ) : ℝ) / 2 ^ L) ∧ (0 : ℝ) < ((x.length - 1 : ℕ) : ℝ) / 2 ^ L := by
  have e0 := h 0 (by omega)
  have e1 := h (x.length - 1) (by omega)
  rw [List.getD_eq_getElem _ _ (by omega)] at e0 e1
  refine ⟨?_, ?_, ?_⟩
  · rw [List.head?_eq_getElem?, List.getElem?_eq_getElem (by omega), e0]
    simp
  · rw [List.getLast?_eq_getElem?, List.getElem?_eq_getElem (by omega), e1]
  · have : 0 < x.length - 1 := by omega
    positivity

theorem centralFrequencyOf_real {l x : List ℝ} {x0 xl : ℝ} (h : 2 ≤ l.length) (h0 : x.head? = some x0)
    (hl : x.getLast? = some xl) (hx : x0 < xl) :
    ∃ k, FirstPeak (l.map fun v : ℝ => (v : ℂ)) k ∧ centralFrequencyOf (l.map fun v : ℝ => (v : ℂ)) x =
      .ok ((cyclesReal l.length k : ℝ) / (xl - x0)) := by
  obtain ⟨k, h1, h2⟩ := centralFrequencyOf_eq (psi := l.map fun v : ℝ => (v : ℂ)) (by simpa using h) h0 hl hx
  refine ⟨k, h1, ?_⟩
  rw [h2, List.length_map, cycles_real (firstPeak_real h1)]

/-- **C56 (central frequency, orthogonal wavelets).** The number of cycles at the first peak of the Fourier transform of
the sampled wavelet, divided by the length of the interval. -/
theorem C56_central_frequency_orthogonal {o : WaveletObj ℝ} (hw : o.w.Ok) {L : ℕ} {phi psi x : List ℝ}
    (h : o.wavefun L = .ok (.orth phi psi x)) :
    ∃ k, FirstPeak (psi.map fun v : ℝ => (v : ℂ)) k ∧ 2 * k ≤ psi.length ∧
      centralFrequency (.disc o) L = .ok (cyclesReal psi.length k * 2 ^ L / (psi.length - 1)) := by
  obtain ⟨hL, hx, hg, -, ⟨b1, -, -⟩⟩ := orth_inv hw h
  have h2 := (samples_two hw L).1
  obtain ⟨e1, e2, e3⟩ := dyadic_ends hg (by omega)
  obtain ⟨k, h3, h4⟩ := centralFrequencyOf_real (l := psi) (by omega) e1 e2 e3
  refine ⟨k, h3, firstPeak_real h3, ?_⟩
  unfold centralFrequency AnyWavelet.wavefun
  simp only [h, Py_bind_ok, Psi.toComplex]
  rw [h4, show psi.length = x.length by omega, sub_zero, div_div_eq_mul_div]
  push_cast [show 1 ≤ x.length by omega]
  rfl

/-- **C56 (central frequency, other wavelets).** The wavelet for decomposition is used. -/
theorem C56_central_frequency_biorthogonal {o : WaveletObj ℝ} (hw : o.w.Ok) {L : ℕ}
    {phi_d psi_d phi_r psi_r x : List ℝ} (h : o.wavefun L = .ok (.bior phi_d psi_d phi_r psi_r x)) :
    ∃ k, FirstPeak (psi_d.map fun v : ℝ => (v : ℂ)) k ∧ 2 * k ≤ psi_d.length ∧
      centralFrequency (.disc o) L = .ok (cyclesReal psi_d.length k * 2 ^ L / (psi_d.length - 1)) := by
  obtain ⟨hL, hx, hg, -, ⟨b1, -, -⟩, -, -⟩ := bior_inv hw h
  have h2 := (samples_two hw L).2
  obtain ⟨e1, e2, e3⟩ := dyadic_ends hg (by omega)
  obtain ⟨k, h3, h4⟩ := centralFrequencyOf_real (l := psi_d) (by omega) e1 e2 e3
  refine ⟨k, h3, firstPeak_real h3, ?_⟩
  unfold centralFrequency AnyWavelet.wavefun
  simp only [h, Py_bind_ok, Psi.toComplex]
  rw [h4, show psi_d.length = x.length by omega, sub_zero, div_div_eq_mul_div]
  push_cast [show 1 ≤ x.length by omega]
  rfl

/-- **C56 (central frequency, continuous wavelets).** For a complex wavelet a peak `k` in the upper half of the
frequencies stands for a negative frequency and `N - k` is used; for a real one the peak is in the lower half. -/
theorem C56_central_frequency_continuous {w : ContWavelet} {f : ℝ → ℂ} (hf : SamplesFun w f) (hb : w.lower < w.upper)
    {p : ℕ} (hp : 1 ≤ p) :
    ∃ x k, Grid w.lower w.upper (2 ^ p) x ∧ FirstPeak (x.map f) k ∧
      centralFrequency (.cont w) p =
        .ok (((if 2 ^ p < 2 * (k + 1) then 2 ^ p - k else k : ℕ) : ℝ) / (w.upper - w.lower)) ∧
      (w.complexCwt = false → 2 * k ≤ 2 ^ p ∧ centralFrequency (.cont w) p = .ok (k / (w.upper - w.lower))) := by
  obtain ⟨x, psi, h1, h2, h3, -, h5⟩ := samplesFun_wavefun hf p
  have hN : 2 ≤ 2 ^ p := by
    calc 2 = 2 ^ 1 := rfl
      _ ≤ 2 ^ p := Nat.pow_le_pow_right (by norm_num) hp
  obtain ⟨e1, e2⟩ := h1.ends hN
  have hxl : x.length = 2 ^ p := h1.1
  obtain ⟨k, k1, k2⟩ := centralFrequencyOf_eq (psi := x.map f) (by simp [hxl, hN]) e1 e2 (by exact_mod_cast hb)
  have hc : centralFrequency (.cont w) p =
        .ok (((if 2 ^ p < 2 * (k + 1) then 2 ^ p - k else k : ℕ) : ℝ) / (w.upper - w.lower)) := by
    unfold centralFrequency AnyWavelet.wavefun
    simp only [h2, Py_bind_ok, h3, k2, List.length_map, hxl]
  refine ⟨x, k, h1, k1, hc, fun hreal => ?_⟩
  obtain ⟨g, hg, -⟩ := h5 hreal
  have k1' : FirstPeak ((x.map g).map fun v : ℝ => (v : ℂ)) k := by
    rw [List.map_map]
    rwa [show x.map f = x.map ((fun v : ℝ => (v : ℂ)) ∘ g) from List.map_congr_left fun t _ => hg t] at k1
  have hk := firstPeak_real k1'
  rw [List.length_map, hxl] at hk
  refine ⟨hk, ?_⟩
  rw [hc, cycles_real hk]
  unfold cyclesReal
  rw [if_neg]
  intro h
  obtain ⟨q, rfl⟩ : ∃ q, p = q + 1 := ⟨p - 1, by omega⟩
  rw [pow_succ] at h
  omega

/-- **C56 (central frequency, rejections).** A continuous wavelet at precision 0 has one sample: `AssertionError`. -/
theorem C56_central_frequency_rejects {w : ContWavelet} {f : ℝ → ℂ} (hf : SamplesFun w f) {o : WaveletObj ℝ}
    (hw : o.w.Ok) {p : ℤ} (hp : p < 1) :
    centralFrequency (.cont w) 0 = .error .runtime ∧ (p < 0 → centralFrequency (.cont w) p = .error .runtime) ∧
      centralFrequency (.disc o) p = .error .value := by
  refine ⟨?_, fun h => ?_, ?_⟩
  · obtain ⟨x, psi, h1, h2, -⟩ := samplesFun_wavefun hf 0
    unfold centralFrequency AnyWavelet.wavefun
    have h2' : w.wavefun 0 none = .ok (psi, x) := h2
    simp only [h2', Py_bind_ok]
    have hl : x.length = 1 := h1.1
    obtain ⟨a, rfl⟩ := List.length_eq_one_iff.mp hl
    simp [centralFrequencyOf]
  · unfold centralFrequency AnyWavelet.wavefun
    simp only [wavefun_zero w (level := p) (length := none) h, Py_bind_error]
  · unfold centralFrequency AnyWavelet.wavefun
    simp only [wavefun_err hw hp, Py_bind_error]

/-- **C56 (a peak reported too high).** With an odd number of samples and the peak at the highest frequency below
half the sampling rate, one cycle too many is returned: for three real samples with the peak at one cycle, the result
is two cycles. -/
theorem C56_odd_peak {l x : List ℝ} {x0 xl : ℝ} (h : l.length = 3) (h0 : x.head? = some x0)
    (hl : x.getLast? = some xl) (hx : x0 < xl) :
    FirstPeak (l.map fun v : ℝ => (v : ℂ)) 1 ∧ centralFrequencyOf (l.map fun v : ℝ => (v : ℂ)) x = .ok (2 / (xl - x0)) := by
  obtain ⟨k, h1, h2⟩ := centralFrequencyOf_real (l := l) (by omega) h0 hl hx
  have := firstPeak_real h1
  have hk : k = 1 := by have := h1.1; omega
  subst hk
  refine ⟨h1, ?_⟩
  rw [h2, h]
  simp [cyclesReal]

/-- **C56 (scales and frequencies).** `scale2frequency` and `frequency2scale` divide the central frequency, so they are
inverse to each other, and the frequency is positive for a positive scale. -/
theorem C56_scale_frequency {w : AnyWavelet} {p : ℤ} {s f : ℝ} (hs : 0 < s) (h : scale2frequency w s p = .ok f)
    (hc : ∃ c, 0 < c ∧ centralFrequency w p = .ok c) : 0 < f ∧ frequency2scale w f p = .ok s := by
  obtain ⟨c, c0, hc⟩ := hc
  unfold scale2frequency at h
  rw [hc, Py_bind_ok] at h
  simp only [Except.ok.injEq] at h
  have hf : 0 < f := by rw [← h]; positivity
  refine ⟨hf, ?_⟩
  unfold frequency2scale
  rw [hc, Py_bind_ok, ← h]
  congr 1
  field_simp

/-- **C56.** The central frequency is positive, at every precision from one on. -/
theorem C56_central_frequency_pos (w : AnyWavelet) (hw : match w with
      | .disc o => o.w.Ok
      | .cont c => c.lower < c.upper ∧ ∃ f, SamplesFun c f) {p : ℕ} (hp : 1 ≤ p) :
    ∃ c, 0 < c ∧ centralFrequency w p = .ok c := by
  cases w with
  | disc o =>
    simp only at hw
    have hcyc : ∀ N k, 1 ≤ k → 1 ≤ cyclesReal N k := by
      intro N k hk; unfold cyclesReal; split_ifs <;> omega
    cases ho : o.orthogonal with
    | true =>
      obtain ⟨phi, psi, x, h1, h2, -, ⟨b1, -⟩, ⟨b2, -⟩⟩ := wavefun_orth hw ho hp
      obtain ⟨k, k1, -, k2⟩ := C56_central_frequency_orthogonal hw h1
      refine ⟨_, ?_, k2⟩
      have := hcyc psi.length k k1.1
      have h3 := (samples_two hw p).1
      have h4 : (2 : ℝ) ≤ psi.length := by rw [b2]; exact_mod_cast h3
      have h5 : (0 : ℝ) < cyclesReal psi.length k := by exact_mod_cast this
      have h6 : (0 : ℝ) < (psi.length : ℝ) - 1 := by linarith
      positivity
    | false =>
      obtain ⟨phi_d, psi_d, phi_r, psi_r, x, h1, h2, -, -, ⟨b2, -⟩, -⟩ := wavefun_bior hw ho hp
      obtain ⟨k, k1, -, k2⟩ := C56_central_frequency_biorthogonal hw h1
      refine ⟨_, ?_, k2⟩
      have := hcyc psi_d.length k k1.1
      have h3 := (samples_two hw p).2
      have h4 : (2 : ℝ) ≤ psi_d.length := by rw [b2]; exact_mod_cast h3
      have h5 : (0 : ℝ) < cyclesReal psi_d.length k := by exact_mod_cast this
      have h6 : (0 : ℝ) < (psi_d.length : ℝ) - 1 := by linarith
      positivity
  | cont c =>
    obtain ⟨hb, f, hf⟩ := hw
    obtain ⟨x, k, h1, k1, h2, -⟩ := C56_central_frequency_continuous hf hb hp
    refine ⟨_, ?_, h2⟩
    have hk1 := k1.1
    have hk2 : k < 2 ^ p := by
      have := k1.2.1
      rw [List.length_map, h1.1] at this
      exact this
    have hn : 0 < (if 2 ^ p < 2 * (k + 1) then 2 ^ p - k else k) := by split_ifs <;> omega
    have h3 : (0 : ℝ) < ((if 2 ^ p < 2 * (k + 1) then 2 ^ p - k else k : ℕ) : ℝ) := by exact_mod_cast hn
    have hb' : (c.lower : ℝ) < c.upper := by exact_mod_cast hb
    have h5 : (0 : ℝ) < (c.upper : ℝ) - c.lower := by linarith
    exact div_pos h3 h5

theorem named_shape {name : String} {w : ContWavelet} (h : contWaveletNamed name = .ok w) :
    ∃ fam number w0, continuousWavelet fam number = some w0 ∧ w.family = w0.family ∧ w.complexCwt = w0.complexCwt ∧
      w.lower = w0.lower ∧ w.upper = w0.upper ∧ (w.fbspOrder = w0.fbspOrder ∨ 1 ≤ w.fbspOrder) := by
  unfold contWaveletNamed at h
  cases h1 : wnameLookup (String.ofList (baseName (List.map Char.toLower name.toList))) with
  | error e =>
    simp only [h1] at h
    simp at h
  | ok v =>
    obtain ⟨fam, number⟩ := v
    simp only [h1, Py_bind_ok] at h
    cases h2 : continuousWavelet fam number with
    | none =>
      rw [h2] at h
      simp at h
    | some w0 =>
      rw [h2] at h
      simp only at h
      split_ifs at h with c1 c2 c3
      · simp only [Py_pure, Except.ok.injEq] at h
        rw [← h]
        exact ⟨fam, number, w0, h2, rfl, rfl, rfl, rfl, Or.inl rfl⟩
      · split at h
        · rename_i b c _
          cases hb : pyFloat b with
          | error e => rw [hb] at h; simp at h
          | ok B =>
            cases hc : pyFloat c with
            | error e => rw [hb, hc] at h; simp at h
            | ok C =>
              rw [hb, hc] at h
              simp only [Py_bind_ok, Py_pure, Except.ok.injEq] at h
              rw [← h]
              exact ⟨fam, number, w0, h2, rfl, rfl, rfl, rfl, Or.inl rfl⟩
        · simp at h
      · split at h
        · rename_i m b c _
          cases hm : pyFloat m with
          | error e => rw [hm] at h; simp at h
          | ok M =>
            cases hb : pyFloat b with
            | error e => rw [hm, hb] at h; simp at h
            | ok B =>
              cases hc : pyFloat c with
              | error e => rw [hm, hb, hc] at h; simp at h
              | ok C =>
                rw [hm, hb, hc] at h
                simp only [Py_bind_ok, Py_pure] at h
                by_cases k1 : M < 1 ∨ M.den ≠ 1
                · rw [if_pos k1] at h
                  simp at h
                · rw [if_neg k1] at h
                  by_cases k2 : 2 ^ 32 ≤ M
                  · rw [if_pos k2] at h
                    simp at h
                  · rw [if_neg k2] at h
                    simp only [Except.ok.injEq] at h
                    rw [← h]
                    refine ⟨fam, number, w0, h2, rfl, rfl, rfl, rfl, Or.inr ?_⟩
                    have k3 : 1 ≤ M := by
                      by_contra h'
                      exact k1 (Or.inl (not_le.mp h'))
                    have k4 : 0 < M.num := Rat.num_pos.mpr (by linarith)
                    change 1 ≤ M.num.toNat
                    omega
        · simp at h


/-- Every object created from a name samples a function on a proper interval, if the parameters in the name are positive
and the order fits an `int`. -/
theorem samplesFun_named {name : String} {w : ContWavelet} (h : contWaveletNamed name = .ok w)
    (hB : w.family = .cmor ∨ w.family = .shan ∨ w.family = .fbsp → 0 < w.bandwidth ∧ 0 < w.center)
    (hM : w.fbspOrder < 2 ^ 31) : w.lower < w.upper ∧ ∃ f, SamplesFun w f := by
  obtain ⟨fam, number, w0, h0, h1, h2, h3, h4, h5⟩ := named_shape h
  have hw0 : w0.lower < w0.upper ∧ ((w0.complexCwt = false ∧ (w0.family = .gaus ∨ w0.family = .mexh ∨ w0.family = .morl)) ∨
      (w0.complexCwt = true ∧ (w0.family = .cgau ∨ w0.family = .cmor ∨ w0.family = .shan ∨ w0.family = .fbsp))) ∧
      (w0.family = .fbsp → 1 ≤ w0.fbspOrder) := by
    cases fam <;> simp only [continuousWavelet] at h0 <;> try cases h0
    case gaus | cgau =>
      by_cases hn : 8 < number
      · rw [if_pos hn] at h0
        cases h0
      · rw [if_neg hn] at h0
        cases h0
        exact ⟨by norm_num, by dsimp only; decide, by dsimp only; decide⟩
    all_goals exact ⟨by norm_num, by dsimp only; decide, by dsimp only; decide⟩
  obtain ⟨a1, a2, a3⟩ := hw0
  refine ⟨by rw [h3, h4]; exact a1, ?_⟩
  rw [← h1, ← h2] at a2
  rcases a2 with ⟨c, f | f | f⟩ | ⟨c, f | f | f | f⟩
  · exact ⟨fun t => (gausAt w.number t : ℂ), Or.inl ⟨c, _, psi_gaus f, fun _ => rfl⟩⟩
  · exact ⟨fun t => (mexhAt t : ℂ), Or.inl ⟨c, _, psi_mexh f, fun _ => rfl⟩⟩
  · exact ⟨fun t => (morlAt t : ℂ), Or.inl ⟨c, _, psi_morl f, fun _ => rfl⟩⟩
  · exact ⟨_, Or.inr ⟨c, psi_cgau f⟩⟩
  · have := hB (Or.inl f)
    exact ⟨_, Or.inr ⟨c, psi_cmor f this.1 this.2⟩⟩
  · have := hB (Or.inr (Or.inl f))
    exact ⟨_, Or.inr ⟨c, psi_shan f this.1 this.2⟩⟩
  · have := hB (Or.inr (Or.inr f))
    refine ⟨_, Or.inr ⟨c, psi_fbsp f this.1 this.2 ?_ hM⟩⟩
    rcases h5 with e | e
    · rw [e]
      exact a3 (h1 ▸ f)
    · exact e

/-- `cwt` and the functions of the wavelet take any object created from a name with positive parameters. -/
theorem C56_named {name : String} {w : ContWavelet} (h : contWaveletNamed name = .ok w)
    (hB : w.family = .cmor ∨ w.family = .shan ∨ w.family = .fbsp → 0 < w.bandwidth ∧ 0 < w.center)
    (hM : w.fbspOrder < 2 ^ 31) {p : ℕ} (hp : 1 ≤ p) :
    (∃ I x, integrateWavelet (.cont w) p = .ok (.one I x)) ∧ ∃ c, 0 < c ∧ centralFrequency (.cont w) p = .ok c := by
  obtain ⟨h1, f, h2⟩ := samplesFun_named h hB hM
  obtain ⟨x, I, -, h3, -⟩ := C56_integrate_continuous h2 hp
  exact ⟨⟨I, x, h3⟩, C56_central_frequency_pos (.cont w) ⟨h1, f, h2⟩ hp⟩

example : ∃ w, contWaveletNamed "cmor1.5-1.0" = .ok w ∧ w.family = .cmor ∧ 0 < w.bandwidth ∧ 0 < w.center ∧
    w.fbspOrder < 2 ^ 31 :=
  ⟨{ (blankParam "cmor".toList) with name := "cmor1.5-1.0", bandwidth := 3 / 2, center := 1 }, by decide +kernel⟩

/-- A discrete wavelet object whose samples meet the hypotheses above, at every level from one on. -/
example (orth : Bool) : (haarObj orth).w.Ok ∧ ((haarObj orth).orthogonal = orth) := ⟨haarR_ok, rfl⟩

theorem mapM_const_ok {A B : Type} {f : A → Py B} {g : A → B} : ∀ {l : List A}, (∀ a ∈ l, f a = .ok (g a)) →
    l.mapM f = .ok (l.map g)
  | [], _ => rfl
  | a :: l, h => by
    rw [List.mapM_cons, h a (by simp), Py_bind_ok, mapM_const_ok (fun b hb => h b (by simp [hb]))]
    rfl

/-- **C56 (`cwt` from the wavelet).** Partial: discrete wavelets are rejected (`C56_cwt_discrete_raises`). For a continuous wavelet that samples `f` on `[lower, upper]`, `cwt` returns the
transform of property C40 for the integral of the conjugate of `f` on 1024 points, and for each scale the central
frequency divided by the scale and the sampling period; the scales for which it returns a value are those above
`1023 / (1024·(upper - lower))`. -/
theorem C56_cwt_partial {w : ContWavelet} {f : ℝ → ℂ} (hf : SamplesFun w f) (hb : w.lower < w.upper) :
    ∃ x I cf, Grid w.lower w.upper 1024 x ∧
      IsIntegral (x.map fun t => starRingEnd ℂ (f t)) ((w.upper - w.lower) / 1023) I ∧
      0 < cf ∧ centralFrequency (.cont w) 10 = .ok cf ∧
      ∀ {method : CwtMethod ℂ} (_ : MethodOk method) {data : Arr ℂ} {axis : ℤ} {ax : ℕ}
        (_ : AxisIs data.ndim axis ax) (_ : 1 ≤ data.shape.getD ax 0) (T : ℝ) {scales : List ℝ},
        (∀ g : ℝ → List ℂ, (∀ s ∈ scales, 0 < s ∧ 1023 / 1024 < s * (w.upper - w.lower) ∧
            SampledAt I (w.lower : ℝ) w.upper ((w.upper - w.lower) / 1023) s (g s)) →
          cwtWavelet data scales (.cont w) T method axis =
            .ok (scales.map fun s => data.along ax (data.shape.getD ax 0) (cwtLine ((√s : ℝ) : ℂ) (g s)),
              scales.map fun s => cf / s / T)) ∧
        ((∃ s ∈ scales, s ≤ 0 ∨ s * (w.upper - w.lower) ≤ 1023 / 1024) →
          cwtWavelet data scales (.cont w) T method axis = .error .value) := by
  obtain ⟨x, psi, h1, h2, h3, h4, h5⟩ := samplesFun_wavefun hf 10
  obtain ⟨cf, cf0, hcf⟩ := C56_central_frequency_pos (.cont w) ⟨hb, f, hf⟩ (p := 10) (by norm_num)
  have hb' : (w.lower : ℝ) < w.upper := by exact_mod_cast hb
  set step : ℝ := (w.upper - w.lower) / 1023 with hstep
  have hst : 0 < step := by rw [hstep]; apply div_pos <;> linarith
  have hgs : gridStep x = .ok step := by
    rw [h1.step (by norm_num), hstep]
    norm_num
  have hint : integrateWavelet (.cont w) 10 = .ok (.one (psi.integrate step) x) := by
    unfold integrateWavelet AnyWavelet.wavefun
    have h2' : w.wavefun 10 none = .ok (psi, x) := h2
    simp only [h2', Py_bind_ok, hgs]
  obtain ⟨e1, e2⟩ := h1.ends (by norm_num)
  set I : List ℂ := if w.complexCwt then (psi.integrate step).toComplex.map (starRingEnd ℂ)
    else (psi.integrate step).toComplex with hI
  have hII : IsIntegral (x.map fun t => starRingEnd ℂ (f t)) step I := by
    cases hc : w.complexCwt with
    | true =>
      obtain ⟨i1, i2⟩ := h4 step
      rw [hI, hc, if_pos rfl]
      refine ⟨by simpa using i1, fun i hi => ?_⟩
      simp only [List.length_map] at hi i1 i2
      have e := i2 i hi
      rw [List.getD_eq_getElem _ _ (by rw [i1]; exact hi)] at e
      rw [List.getD_eq_getElem _ _ (by rw [List.length_map, i1]; exact hi), List.getElem_map, e]
      simp only [Complex.real_smul, map_mul, Complex.conj_ofReal, map_sum]
      congr 1
      apply sum_congr rfl
      intro j hj
      simp only [mem_range] at hj
      rw [List.getD_eq_getElem _ _ (by simp; omega), List.getD_eq_getElem _ _ (by simp; omega), List.getElem_map,
        List.getElem_map]
    | false =>
      obtain ⟨g, hg, -⟩ := h5 hc
      rw [hI, hc, if_neg (by simp)]
      have : (x.map fun t => starRingEnd ℂ (f t)) = x.map f :=
        List.map_congr_left fun t _ => by rw [hg, Complex.conj_ofReal]
      rw [this]
      exact h4 step
  have hIl : I.length = 1024 := by rw [hII.1, List.length_map, h1.1]; norm_num
  refine ⟨x, I, cf, h1, hII, cf0, hcf, ?_⟩
  intro method hm data axis ax hax hn T scales
  have hrun : ∀ out, (∀ s ∈ scales, 0 < s) →
      cwt method I (w.lower : ℝ) w.upper step (fun s => ((√s : ℝ) : ℂ)) data axis scales = .ok out →
      cwtWavelet data scales (.cont w) T method axis = .ok (out, scales.map fun s => cf / s / T) := by
    intro out hpos hout
    unfold cwtWavelet
    have hany : (scales.any fun s => decide (s ≤ 0)) = false := by
      rw [List.any_eq_false]
      intro s hs
      have := hpos s hs
      simpa using this
    have hhd : x.headD 0 = w.lower := by rw [List.headD_eq_head?_getD, e1]; rfl
    have htl : x.getLastD 0 = w.upper := by rw [List.getLastD_eq_getLast?, e2]; rfl
    have hfr : (scales.mapM fun s => scale2frequency (.cont w) s 10) = .ok (scales.map fun s => cf / s) :=
      mapM_const_ok fun s _ => by
        unfold scale2frequency
        have hcf' : centralFrequency (.cont w) 10 = .ok cf := hcf
        rw [hcf', Py_bind_ok]
    simp only [hany, Bool.false_eq_true, if_false, AnyWavelet.complexCwt, Py_bind_ok, hint, hgs, hhd, htl, ← hI, hout,
      hfr, List.map_map]
    rfl
  have herr : cwt method I (w.lower : ℝ) w.upper step (fun s => ((√s : ℝ) : ℂ)) data axis scales = .error .value →
      cwtWavelet data scales (.cont w) T method axis = .error .value := by
    intro hout
    unfold cwtWavelet
    have hhd : x.headD 0 = w.lower := by rw [List.headD_eq_head?_getD, e1]; rfl
    have htl : x.getLastD 0 = w.upper := by rw [List.getLastD_eq_getLast?, e2]; rfl
    cases hany : (scales.any fun s => decide (s ≤ 0)) with
    | true => simp only [if_true]; rfl
    | false =>
      simp only [Bool.false_eq_true, if_false, AnyWavelet.complexCwt, Py_bind_ok, hint, hgs, hhd, htl, ← hI, hout,
        Py_bind_error]
  have hcond : ∀ s : ℝ, 1 < s * step * I.length ↔ 1023 / 1024 < s * (w.upper - w.lower) := by
    intro s
    rw [hIl, hstep]
    constructor
    · intro h
      have e : s * ((w.upper - w.lower) / 1023) * (1024 : ℕ) = s * (w.upper - w.lower) * (1024 / 1023 : ℝ) := by
        push_cast; ring
      rw [e] at h
      nlinarith
    · intro h
      have e : s * ((w.upper - w.lower) / 1023) * (1024 : ℕ) = s * (w.upper - w.lower) * (1024 / 1023 : ℝ) := by
        push_cast; ring
      rw [e]
      nlinarith
  refine ⟨fun g hs => hrun _ (fun s h => (hs s h).1) ?_, fun hbad => herr ?_⟩
  · exact C40_values hm hst _ hax hn fun s h => ⟨(hs s h).1, (hs s h).2.2,
      ((hs s h).2.2.two (hs s h).1 hst hb').mpr ((hcond s).mpr (hs s h).2.1)⟩
  · rcases C40_accepts hm (psi := I) (by intro h; rw [h] at hIl; simp at hIl) hst hb' (fun s => ((√s : ℝ) : ℂ)) hax hn
      scales with ⟨h', -⟩ | ⟨-, h'⟩
    · obtain ⟨s, hs, h⟩ := hbad
      have := h' s hs
      rcases h with h | h
      · linarith [this.1]
      · have := (hcond s).mp this.2
        linarith
    · exact h'

/-- **C56 (`cwt` with a discrete wavelet).** The documentation of `cwt` accepts discrete wavelets, but they have no
attribute `complex_cwt`: `AttributeError`, for all data and positive scales. -/
theorem C56_cwt_discrete_raises (o : WaveletObj ℝ) (data : Arr ℂ) {scales : List ℝ} (hs : ∀ s ∈ scales, 0 < s) (T : ℝ)
    (method : CwtMethod ℂ) (axis : ℤ) : cwtWavelet data scales (.disc o) T method axis = .error .attr := by
  unfold cwtWavelet
  have hany : (scales.any fun s => decide (s ≤ 0)) = false := by
    rw [List.any_eq_false]
    intro s h
    have := hs s h
    simpa using this
  simp only [hany, Bool.false_eq_true, if_false, AnyWavelet.complexCwt, Py_bind_error]

example : ∀ s ∈ [(1 : ℝ), 2], 0 < s := by simp

end Pywt
