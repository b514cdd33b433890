import Verif.Proof.WavefunProps
import Verif.Props.Swt
import Verif.Proof.Examples

/-!
# Property C55: what `Wavelet.wavefun` returns

`Verif.Spec.Wavefun` holds the specification: a list of samples at level `L` stands for a function on the grid
`m / 2^L`; `TwoScale`, `integral`, `innerShift` and `translates` are about such functions.
-/

set_option autoImplicit false

namespace Pywt

open Finset Spec

/-- **C55 (shape, orthogonal wavelets).** `[phi, psi, x]` of one length, `(F-1)·2^L + 1` for filters of length `F > 2`,
with the grid `0, 1/2^L, 2/2^L, …` of the interval `[0, F-1]`; the functions vanish outside the open interval. -/
theorem C55_wavefun_orthogonal {o : WaveletObj ℝ} (hw : o.w.Ok) (ho : o.orthogonal = true) {L : ℕ} (hL : 1 ≤ L) :
    ∃ phi psi x, o.wavefun L = .ok (.orth phi psi x) ∧
      x.length = (if o.w.dec_len = 2 then 2 ^ L + 2 else (o.w.dec_len - 1) * 2 ^ L + 1) ∧
      phi.length = x.length ∧ psi.length = x.length ∧ DyadicGrid L x ∧
      ∀ m : ℤ, (tap phi m ≠ 0 ∨ tap psi m ≠ 0) → 1 ≤ m ∧ m ≤ (o.w.dec_len - 1) * 2 ^ L - (o.w.dec_len - 2) := by
  obtain ⟨phi, psi, x, h1, h2, h3, ⟨a1, a2, -⟩, ⟨b1, b2, -⟩⟩ := wavefun_orth hw ho hL
  refine ⟨phi, psi, x, h1, h2, by rw [a1, h2], by rw [b1, h2], h3, ?_⟩
  intro m hm
  have hk := keep_nat (F := o.w.dec_len) (L := L) hw.1
  rw [getKeepLength_eq] at hk
  have : (1 ≤ m ∧ m ≤ lastSample o.w.dec_len L) := by rcases hm with h | h; exacts [a2 m h, b2 m h]
  rw [← hk] at this
  refine ⟨this.1, by linarith [this.2]⟩

/-- **C55 (shape, other wavelets).** `[phi_d, psi_d, phi_r, psi_r, x]` of one length, `(F-1)·2^L` for `F > 2`. -/
theorem C55_wavefun_biorthogonal {o : WaveletObj ℝ} (hw : o.w.Ok) (ho : o.orthogonal = false) {L : ℕ} (hL : 1 ≤ L) :
    ∃ phi_d psi_d phi_r psi_r x, o.wavefun L = .ok (.bior phi_d psi_d phi_r psi_r x) ∧
      x.length = (if o.w.dec_len = 2 then 2 ^ L + 2 else (o.w.dec_len - 1) * 2 ^ L) ∧
      phi_d.length = x.length ∧ psi_d.length = x.length ∧ phi_r.length = x.length ∧ psi_r.length = x.length ∧
      DyadicGrid L x ∧
      ∀ m : ℤ, (tap phi_d m ≠ 0 ∨ tap psi_d m ≠ 0 ∨ tap phi_r m ≠ 0 ∨ tap psi_r m ≠ 0) →
        1 ≤ m ∧ m ≤ (o.w.dec_len - 1) * 2 ^ L - (o.w.dec_len - 2) := by
  obtain ⟨phi_d, psi_d, phi_r, psi_r, x, h1, h2, h3, ⟨a1, a2, -⟩, ⟨b1, b2, -⟩, ⟨c1, c2, -⟩, ⟨d1, d2, -⟩⟩ :=
    wavefun_bior hw ho hL
  refine ⟨phi_d, psi_d, phi_r, psi_r, x, h1, h2, by rw [a1, h2], by rw [b1, h2], by rw [c1, h2], by rw [d1, h2], h3, ?_⟩
  intro m hm
  have hdi : o.w.inverse.dec_len = o.w.dec_len := by
    have := hw.2.2.2.1
    simp only [Wavelet.dec_len, Wavelet.inverse, List.length_reverse]
    exact this
  rw [hdi] at a2 b2
  have hk := keep_nat (F := o.w.dec_len) (L := L) hw.1
  rw [getKeepLength_eq] at hk
  have : (1 ≤ m ∧ m ≤ lastSample o.w.dec_len L) := by rcases hm with h | h | h | h; exacts [a2 m h, b2 m h, c2 m h, d2 m h]
  rw [← hk] at this
  refine ⟨this.1, by linarith [this.2]⟩

/-- **C55 (rejections).** A level below one raises `ValueError`, and every other level is accepted. -/
theorem C55_wavefun_levels {o : WaveletObj ℝ} (hw : o.w.Ok) (level : ℤ) :
    (level < 1 → o.wavefun level = .error .value) ∧ (1 ≤ level → ∃ f, o.wavefun level = .ok f) := by
  refine ⟨wavefun_err hw, fun h => ?_⟩
  obtain ⟨L, rfl⟩ : ∃ L : ℕ, level = L := ⟨level.toNat, by omega⟩
  cases ho : o.orthogonal with
  | true =>
    obtain ⟨phi, psi, x, h1, -⟩ := wavefun_orth hw ho (L := L) (by omega)
    exact ⟨_, h1⟩
  | false =>
    obtain ⟨phi_d, psi_d, phi_r, psi_r, x, h1, -⟩ := wavefun_bior hw ho (L := L) (by omega)
    exact ⟨_, h1⟩

theorem orth_inv {o : WaveletObj ℝ} (hw : o.w.Ok) {L : ℕ} {phi psi x : List ℝ}
    (h : o.wavefun L = .ok (.orth phi psi x)) : 1 ≤ L ∧ x.length = orthSamples o.w.dec_len L ∧ DyadicGrid L x ∧
      GoodSamples o.w o.w.rec_lo L (orthSamples o.w.dec_len L) (√2 ^ L) phi ∧
      GoodSamples o.w o.w.rec_hi L (orthSamples o.w.dec_len L) (√2 ^ L) psi := by
  have hL : 1 ≤ L := by
    by_contra hc
    rw [wavefun_err hw (by omega)] at h
    cases h
  refine ⟨hL, ?_⟩
  cases ho : o.orthogonal with
  | true =>
    obtain ⟨phi', psi', x', h1, h2⟩ := wavefun_orth hw ho (L := L) hL
    rw [h1] at h
    simp only [Except.ok.injEq, WaveFuns.orth.injEq] at h
    obtain ⟨rfl, rfl, rfl⟩ := h
    exact h2
  | false =>
    obtain ⟨phi_d, psi_d, phi_r, psi_r, x, h1, -⟩ := wavefun_bior hw ho (L := L) hL
    rw [h1] at h
    cases h

/-- The sign of the sampled wavelets: `-1` for a wavelet flagged biorthogonal whose number of vanishing moments is not
1 modulo 4. -/
def psiSign {R : Type} (o : WaveletObj R) : ℝ := if o.biorthogonal ∧ o.vmPsi % 4 ≠ 1 then -1 else 1

theorem bior_inv {o : WaveletObj ℝ} (hw : o.w.Ok) {L : ℕ} {phi_d psi_d phi_r psi_r x : List ℝ}
    (h : o.wavefun L = .ok (.bior phi_d psi_d phi_r psi_r x)) : 1 ≤ L ∧
      x.length = biorSamples o.w.dec_len L ∧ DyadicGrid L x ∧
      GoodSamples o.w.inverse o.w.dec_lo.reverse L (biorSamples o.w.dec_len L) (√2 ^ L) phi_d ∧
      GoodSamples o.w.inverse o.w.dec_hi.reverse L (biorSamples o.w.dec_len L) (psiSign o * √2 ^ L) psi_d ∧
      GoodSamples o.w o.w.rec_lo L (biorSamples o.w.dec_len L) (√2 ^ L) phi_r ∧
      GoodSamples o.w o.w.rec_hi L (biorSamples o.w.dec_len L) (psiSign o * √2 ^ L) psi_r := by
  have hL : 1 ≤ L := by
    by_contra hc
    rw [wavefun_err hw (by omega)] at h
    cases h
  refine ⟨hL, ?_⟩
  cases ho : o.orthogonal with
  | false =>
    obtain ⟨phi_d', psi_d', phi_r', psi_r', x', h1, h2⟩ := wavefun_bior hw ho (L := L) hL
    rw [h1] at h
    simp only [Except.ok.injEq, WaveFuns.bior.injEq] at h
    obtain ⟨rfl, rfl, rfl, rfl, rfl⟩ := h
    exact h2
  | true =>
    obtain ⟨phi_d, psi_d, x, h1, -⟩ := wavefun_orth hw ho (L := L) hL
    rw [h1] at h
    cases h

theorem psiSign_sq {R : Type} (o : WaveletObj R) : psiSign o * psiSign o = 1 := by
  unfold psiSign; split_ifs <;> norm_num

/-- **C55 (level one).** At level one the samples are the filters times `√2`, after a zero. -/
theorem C55_level_one {o : WaveletObj ℝ} (hw : o.w.Ok) {phi psi x : List ℝ} (h : o.wavefun 1 = .ok (.orth phi psi x))
    (m : ℤ) : tap phi m = √2 * tap o.w.rec_lo (m - 1) ∧ tap psi m = √2 * tap o.w.rec_hi (m - 1) := by
  obtain ⟨-, -, -, ⟨-, -, a⟩, ⟨-, -, b⟩⟩ := orth_inv (L := 1) hw h
  rw [pow_one] at a b
  exact ⟨levelOne_of a m, levelOne_of b m⟩

/-- **C55 (level one, other wavelets).** -/
theorem C55_level_one_biorthogonal {o : WaveletObj ℝ} (hw : o.w.Ok) {phi_d psi_d phi_r psi_r x : List ℝ}
    (h : o.wavefun 1 = .ok (.bior phi_d psi_d phi_r psi_r x)) (m : ℤ) :
    tap phi_d m = √2 * tap o.w.dec_lo.reverse (m - 1) ∧ tap psi_d m = psiSign o * √2 * tap o.w.dec_hi.reverse (m - 1) ∧
      tap phi_r m = √2 * tap o.w.rec_lo (m - 1) ∧ tap psi_r m = psiSign o * √2 * tap o.w.rec_hi (m - 1) := by
  obtain ⟨-, -, -, ⟨-, -, a⟩, ⟨-, -, b⟩, ⟨-, -, c⟩, ⟨-, -, d⟩⟩ := bior_inv (L := 1) hw h
  rw [pow_one] at a b c d
  exact ⟨levelOne_of a m, levelOne_of b m, levelOne_of c m, levelOne_of d m⟩

/-- **C55 (two-scale equation).** The samples at level `L+1` follow from the scaling function at level `L`:
`phi(x) = √2 Σ rec_lo[k] phi(2x-k)` and `psi(x) = √2 Σ rec_hi[k] phi(2x-k)` at every point of the finer grid.  With
`C55_level_one` this determines all samples at all levels. -/
theorem C55_two_scale {o : WaveletObj ℝ} (hw : o.w.Ok) {L : ℕ} {phi psi x phi' psi' x' : List ℝ}
    (h : o.wavefun L = .ok (.orth phi psi x)) (h' : o.wavefun (L + 1 : ℕ) = .ok (.orth phi' psi' x')) :
    TwoScale o.w.rec_lo L phi' phi ∧ TwoScale o.w.rec_hi L psi' phi := by
  obtain ⟨hL, -, -, ⟨-, -, a⟩, -⟩ := orth_inv hw h
  obtain ⟨-, -, -, ⟨-, -, a'⟩, ⟨-, -, b'⟩⟩ := orth_inv hw h'
  rw [pow_succ', Nat.add_sub_cancel] at a' b'
  exact ⟨twoScale_of_one hL a' a, twoScale_of_one hL b' a⟩

/-- **C55 (two-scale equation, other wavelets).** The functions for decomposition satisfy it with the time-reversed
decomposition filters. -/
theorem C55_two_scale_biorthogonal {o : WaveletObj ℝ} (hw : o.w.Ok) {L : ℕ}
    {phi_d psi_d phi_r psi_r x phi_d' psi_d' phi_r' psi_r' x' : List ℝ}
    (h : o.wavefun L = .ok (.bior phi_d psi_d phi_r psi_r x))
    (h' : o.wavefun (L + 1 : ℕ) = .ok (.bior phi_d' psi_d' phi_r' psi_r' x')) :
    TwoScale o.w.dec_lo.reverse L phi_d' phi_d ∧
      TwoScale (o.w.dec_hi.reverse.map (psiSign o * ·)) L psi_d' phi_d ∧
      TwoScale o.w.rec_lo L phi_r' phi_r ∧ TwoScale (o.w.rec_hi.map (psiSign o * ·)) L psi_r' phi_r := by
  obtain ⟨hL, -, -, ⟨-, -, a⟩, -, ⟨-, -, c⟩, -⟩ := bior_inv hw h
  obtain ⟨-, -, -, ⟨-, -, a'⟩, ⟨-, -, b'⟩, ⟨-, -, c'⟩, ⟨-, -, d'⟩⟩ := bior_inv hw h'
  rw [pow_succ', Nat.add_sub_cancel] at a' b' c' d'
  exact ⟨twoScale_of_one hL a' a, twoScale_of hL b' a, twoScale_of_one hL c' c, twoScale_of hL d' c⟩

/-- **C55 (integrals).** The scaling function has integral one and the wavelet integral zero, as Riemann sums over the
samples, if the taps of `rec_lo` sum to `√2` and those of `rec_hi` to zero. -/
theorem C55_integrals {o : WaveletObj ℝ} (hw : o.w.Ok) {L : ℕ} {phi psi x : List ℝ}
    (h : o.wavefun L = .ok (.orth phi psi x)) (hlo : o.w.rec_lo.sum = √2) (hhi : o.w.rec_hi.sum = 0) :
    integral L phi = 1 ∧ integral L psi = 0 := by
  obtain ⟨hL, -, -, ⟨-, -, a⟩, ⟨-, -, b⟩⟩ := orth_inv hw h
  have e : √2 ^ (L - 1) * √2 = √2 ^ L := by rw [← pow_succ]; congr 1; omega
  unfold integral
  rw [sum_of_cascade a, sum_of_cascade b, hlo, hhi, ← mul_assoc, e, sqrt_two_pow]
  refine ⟨div_self (by positivity), by simp⟩

/-- **C55 (integrals, other wavelets).** -/
theorem C55_integrals_biorthogonal {o : WaveletObj ℝ} (hw : o.w.Ok) {L : ℕ} {phi_d psi_d phi_r psi_r x : List ℝ}
    (h : o.wavefun L = .ok (.bior phi_d psi_d phi_r psi_r x)) (hlo : o.w.rec_lo.sum = √2) (hhi : o.w.rec_hi.sum = 0)
    (hlo' : o.w.dec_lo.sum = √2) (hhi' : o.w.dec_hi.sum = 0) :
    integral L phi_d = 1 ∧ integral L psi_d = 0 ∧ integral L phi_r = 1 ∧ integral L psi_r = 0 := by
  obtain ⟨hL, -, -, ⟨-, -, a⟩, ⟨-, -, b⟩, ⟨-, -, c⟩, ⟨-, -, d⟩⟩ := bior_inv hw h
  have e : √2 ^ (L - 1) * √2 = √2 ^ L := by rw [← pow_succ]; congr 1; omega
  have h1 : o.w.inverse.rec_lo.sum = √2 := by simp only [Wavelet.inverse, List.sum_reverse]; exact hlo'
  have h2 : o.w.dec_lo.reverse.sum = √2 := by rw [List.sum_reverse]; exact hlo'
  have h3 : o.w.dec_hi.reverse.sum = 0 := by rw [List.sum_reverse]; exact hhi'
  have p : (2 : ℝ) ^ L ≠ 0 := by positivity
  unfold integral
  refine ⟨?_, ?_, ?_, ?_⟩
  · rw [sum_of_cascade a, h1, h2, ← mul_assoc, e, sqrt_two_pow, div_self p]
  · rw [sum_of_cascade b, h3]; simp
  · rw [sum_of_cascade c, hlo, ← mul_assoc, e, sqrt_two_pow, div_self p]
  · rw [sum_of_cascade d, hhi]; simp

/-- **C55 (partition of unity).** The translates of the scaling function by integers add up to one at every point of
the grid, if the even taps and the odd taps of the filter both sum to `1/√2`. -/
theorem C55_partition_of_unity {o : WaveletObj ℝ} (hw : o.w.Ok) {L : ℕ} {phi psi x : List ℝ}
    (h : o.wavefun L = .ok (.orth phi psi x)) (hs : SumRules o.w.rec_lo) (r : ℤ) : translates L phi r = 1 := by
  obtain ⟨hL, -, -, ⟨-, -, a⟩, -⟩ := orth_inv hw h
  rw [translates_of hL hs a, ← mul_pow, mul_one_div_cancel (by simp), one_pow]

/-- **C55 (partition of unity, other wavelets).** -/
theorem C55_partition_of_unity_biorthogonal {o : WaveletObj ℝ} (hw : o.w.Ok) {L : ℕ}
    {phi_d psi_d phi_r psi_r x : List ℝ} (h : o.wavefun L = .ok (.bior phi_d psi_d phi_r psi_r x)) (r : ℤ) :
    (SumRules o.w.rec_lo → translates L phi_r r = 1) ∧ (SumRules o.w.dec_lo.reverse → translates L phi_d r = 1) := by
  obtain ⟨hL, -, -, ⟨-, -, a⟩, -, ⟨-, -, c⟩, -⟩ := bior_inv hw h
  refine ⟨fun hs => ?_, fun hs => ?_⟩
  · rw [translates_of hL hs c, ← mul_pow, mul_one_div_cancel (by simp), one_pow]
  · rw [translates_of hL hs a, ← mul_pow, mul_one_div_cancel (by simp), one_pow]

/-- **C55 (orthonormality).** For an orthogonal bank the translates of the scaling function and of the wavelet by
integers are orthonormal, as Riemann sums over the samples, at every level. -/
theorem C55_orthonormal {o : WaveletObj ℝ} (hw : o.w.Ok) (hlo : o.w.rec_lo = o.w.dec_lo.reverse)
    (hhi : o.w.rec_hi = o.w.dec_hi.reverse) (hpr : PR o.w.dec_lo o.w.dec_hi o.w.rec_lo o.w.rec_hi) {L : ℕ}
    {phi psi x : List ℝ} (h : o.wavefun L = .ok (.orth phi psi x)) (k : ℤ) :
    innerShift L phi phi k = (if k = 0 then 1 else 0) ∧ innerShift L psi psi k = (if k = 0 then 1 else 0) ∧
      innerShift L phi psi k = 0 ∧ innerShift L psi phi k = 0 := by
  obtain ⟨hL, -, -, ⟨-, -, a⟩, ⟨-, -, b⟩⟩ := orth_inv hw h
  obtain ⟨d1, d2, d3, d4⟩ := dualTaps_PR hw hpr
  rw [← hlo] at d1 d2
  rw [← hhi] at d3 d4
  have e : 1 * (√2 ^ L * √2 ^ L) / 2 ^ L = (1 : ℝ) := by rw [sqrt_two_pow, one_mul, div_self (by positivity)]
  refine ⟨?_, ?_, ?_, ?_⟩
  · rw [inner_of hL d1 d1 a a, e]
  · rw [inner_of hL d1 d4 b b, e]
  · rw [inner_of hL d1 d3 a b]; simp
  · rw [inner_of hL d1 d2 b a]; simp

/-- **C55 (biorthonormality).** For any perfect-reconstruction bank the functions for reconstruction are dual to those
for decomposition. -/
theorem C55_biorthonormal {o : WaveletObj ℝ} (hw : o.w.Ok) (hpr : PR o.w.dec_lo o.w.dec_hi o.w.rec_lo o.w.rec_hi)
    {L : ℕ} {phi_d psi_d phi_r psi_r x : List ℝ} (h : o.wavefun L = .ok (.bior phi_d psi_d phi_r psi_r x)) (k : ℤ) :
    innerShift L phi_r phi_d k = (if k = 0 then 1 else 0) ∧ innerShift L psi_r psi_d k = (if k = 0 then 1 else 0) ∧
      innerShift L phi_r psi_d k = 0 ∧ innerShift L psi_r phi_d k = 0 := by
  obtain ⟨hL, -, -, ⟨-, -, a⟩, ⟨-, -, b⟩, ⟨-, -, c⟩, ⟨-, -, d⟩⟩ := bior_inv hw h
  obtain ⟨d1, d2, d3, d4⟩ := dualTaps_PR hw hpr
  have e : 1 * (√2 ^ L * √2 ^ L) / 2 ^ L = (1 : ℝ) := by rw [sqrt_two_pow, one_mul, div_self (by positivity)]
  have e2 : 1 * ((psiSign o * √2 ^ L) * (psiSign o * √2 ^ L)) / 2 ^ L = (1 : ℝ) := by
    rw [mul_mul_mul_comm, psiSign_sq, one_mul, one_mul, sqrt_two_pow, div_self (by positivity)]
  refine ⟨?_, ?_, ?_, ?_⟩
  · rw [inner_of hL d1 d1 c a, e]
  · rw [inner_of hL d1 d4 d b, e2]
  · rw [inner_of hL d1 d3 c b]; simp
  · rw [inner_of hL d1 d2 d a]; simp

/-- **C55 fails across pickling:** a pickled or copied orthogonal wavelet returns five functions instead of three. -/
theorem C55_pickle_changes_wavefun {o o' : WaveletObj ℝ} (hw : o.w.Ok) (ho : o.orthogonal = true)
    (h : o.unpickle = .ok o') {L : ℕ} (hL : 1 ≤ L) :
    (∃ phi psi x, o.wavefun L = .ok (.orth phi psi x)) ∧
      ∃ phi_d psi_d phi_r psi_r x, o'.wavefun L = .ok (.bior phi_d psi_d phi_r psi_r x) := by
  obtain ⟨o'', e1, -, e2⟩ := C39_pickle o hw
  rw [h] at e1
  cases e1
  obtain ⟨phi, psi, x, h1, -⟩ := wavefun_orth hw ho hL
  obtain ⟨phi_d, psi_d, phi_r, psi_r, x', h2, -⟩ :=
    wavefun_bior (o := o') (by rw [e2]; exact hw) (C39_pickle_loses_properties o o' h).1 hL
  exact ⟨⟨_, _, _, h1⟩, ⟨_, _, _, _, _, h2⟩⟩

/-! The hypotheses are met by the Haar wavelet. -/

/-- The Haar wavelet as an object, flagged as given. -/
noncomputable def haarObj (orth : Bool) : WaveletObj ℝ :=
  ⟨"haar", 0, haarR, orth, true, .asymmetric, "Haar", "haar", 1, 0⟩

example : (haarObj true).w.Ok ∧ (haarObj true).orthogonal = true ∧ (haarObj true).w.rec_lo = (haarObj true).w.dec_lo.reverse ∧
    (haarObj true).w.rec_hi = (haarObj true).w.dec_hi.reverse ∧
    PR (haarObj true).w.dec_lo (haarObj true).w.dec_hi (haarObj true).w.rec_lo (haarObj true).w.rec_hi :=
  ⟨haarR_ok, rfl, rfl, rfl, haarR_PR⟩

example : SumRules (haarObj true).w.rec_lo ∧ (haarObj true).w.rec_lo.sum = √2 ∧ (haarObj true).w.rec_hi.sum = 0 := by
  have h : √2 * √2 = 2 := Real.mul_self_sqrt (by norm_num)
  have h2 : √2 ≠ 0 := by simp
  refine ⟨?_, ?_, ?_⟩
  · intro p hp
    interval_cases p <;> simp [haarObj, haarR, sum_range_succ]
  · simp only [haarObj, haarR, List.sum_cons, List.sum_nil, add_zero]
    field_simp
    linarith
  · simp [haarObj, haarR]

end Pywt
