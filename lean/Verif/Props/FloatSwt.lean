import Verif.Proof.FloatSwtTop
import Verif.Props.Float

/-!
# C66: the stationary transform in floating-point arithmetic
-/

set_option autoImplicit false

namespace Pywt

open Finset Spec Sim

variable {fl : ℝ → ℝ} {u κ Ω : ℝ}

/-- **C66 (formats).** IEEE rounding leaves machine numbers alone. -/
theorem C66_keeps : Keeps binary64 ∧ Keeps binary32 :=
  ⟨ieee_keeps (by norm_num) _, ieee_keeps (by norm_num) _⟩

/-- **C66 (`swt`).** If `swt` succeeds in exact arithmetic then, unless something overflows, it succeeds in floating
point, in the same format, and every coefficient of every level is within the stated distance of the exact one.  At
level `j` the filters have `2^j - 1` zeros between two taps and the code multiplies every one of them with a sample; the
bound has only the taps in it. -/
theorem C66_swt_rounding (H : Rounds fl u κ Ω) (Kp : Keeps fl) {w : Wavelet ℝ} (hw : w.Ok) {d : ℕ} {X e : ℝ}
    (hX : 0 ≤ X) (he : 0 ≤ e) {n : ℕ}
    (hfit : ∀ j < n, DwtFits u κ Ω .periodization w (d + j * dwtDepth .periodization w.dec_len)
      (decBound .periodization w κ X j) (decBound .periodization w 0 e j)) {start : ℤ} {trim : Bool}
    {x' : List (Fl fl)} {x : List ℝ} (hx : Accurate u d X e x' x) {cs : SwtCoeffs (List ℝ)}
    (h : swt w (some (n : ℤ)) start trim none x = .ok cs) :
    ∃ cs', swt (w.toFl fl) (some (n : ℤ)) start trim none x' = .ok cs' ∧
      SwtAccurate u (d + n * dwtDepth .periodization w.dec_len) (decBound .periodization w κ X n)
        (decBound .periodization w 0 e n) cs' cs :=
  swt_near H Kp hw hX he hfit hx cs h

/-- **C66 (`iswt`).** The same for the inverse, for arbitrary coefficients in both formats. -/
theorem C66_iswt_rounding [Invertible (2 : ℝ)] (H : Rounds fl u κ Ω) {w : Wavelet ℝ} {d : ℕ} {X e : ℝ} (hX : 0 ≤ X)
    (he : 0 ≤ e) {cs' : SwtCoeffs (List (Fl fl))} {cs : SwtCoeffs (List ℝ)} (hcs : SwtAccurate u d X e cs' cs)
    (hfit : ∀ j < swtLevels cs, IswtFits u κ Ω w (d + j * iswtDepth w) (swtRecBound w κ X j) (swtRecBound w 0 e j))
    {y : List ℝ} (h : iswt w none cs = .ok y) :
    ∃ y', iswt (w.toFl fl) none cs' = .ok y' ∧
      Accurate u (d + swtLevels cs * iswtDepth w) (swtRecBound w κ X (swtLevels cs))
        (swtRecBound w 0 e (swtLevels cs)) y' y :=
  iswt_near H hX he hcs hfit y h

/-- **C66 (`norm=True`).** Both functions use the bank with rounded scaled coefficients; the other statements apply to
it. -/
theorem C66_norm (c : ℝ) (w : Wavelet ℝ) (level : Option ℤ) (start : ℤ) (trim : Bool) (x : List (Fl fl))
    (cs : SwtCoeffs (List (Fl fl))) :
    swt (w.toFl fl) level start trim (some ⟨c⟩) x = swt ((scaledBank fl c w).toFl fl) level start trim none x ∧
      iswt (w.toFl fl) (some ⟨c⟩) cs = iswt ((scaledBank fl c w).toFl fl) none cs := by
  simp only [swt, iswt, Wavelet.normed, rescale_toFl, and_self]

/-- **C66 (round trip).** `iswt(swt(x))` in floating point, for any number of levels: `x` up to the reconstruction error
`ε` of the filters and the rounding errors of both transforms. -/
theorem C66_roundtrip (H : Rounds fl u κ Ω) (Kp : Keeps fl) {w : Wavelet ℝ} (hw : w.Ok) {ε : ℝ} (hε : 0 ≤ ε)
    (hpr : PRWithin ε w.dec_lo w.dec_hi w.rec_lo w.rec_hi) {x : List ℝ} {X : ℝ} {n : ℕ} (hx : x ≠ []) (hn : 1 ≤ n)
    (hX0 : 0 ≤ X) (hX : ∀ v ∈ x, |v| ≤ X) (hlev : 2 ^ n ∣ x.length)
    (hdec : ∀ j < n, DwtFits u κ Ω .periodization w (j * dwtDepth .periodization w.dec_len)
      (decBound .periodization w κ X j) 0)
    (hrec : ∀ k < n, IswtFits u κ Ω w (n * dwtDepth .periodization w.dec_len + k * iswtDepth w)
      (swtRecBound w κ (decBound .periodization w κ X n) k)
      (swtChainErr w (ε * decBound .periodization w κ X n) k)) (trim : Bool) :
    ∃ cs y, swt (w.toFl fl) (some (n : ℤ)) 0 trim none (toFl fl x) = .ok cs ∧
      iswt (w.toFl fl) none cs = .ok y ∧
      Accurate u (n * dwtDepth .periodization w.dec_len + n * iswtDepth w)
        (swtRecBound w κ (decBound .periodization w κ X n) n)
        (swtChainErr w (ε * decBound .periodization w κ X n) n) y x :=
  haveI : Invertible (2 : ℝ) := invertibleOfNonzero two_ne_zero
  iswt_swt_near H Kp hw hε hpr hx hn hX0 hX hlev hdec hrec trim

/-- **C66 (built-in wavelets).** For every built-in discrete wavelet, in every format: `iswt(swt(x))` over `n` levels
returns as many samples as `x` has, and each is within `32^n (X + 128 κ) (tol + 1248 n u)` of the sample of `x`, where
`tol` is the reconstruction error of the stored coefficients (C35). -/
theorem C66_builtin_roundtrip (H : Rounds fl u κ Ω) (Kp : Keeps fl) (single : Bool) {name : String} {fam : Family}
    {order : ℕ} (h : (name, fam, order) ∈ wnameToCode) (hd : fam.isDiscrete = true) {x : List ℝ} {n : ℕ}
    (hx : x ≠ []) (hn : 1 ≤ n) (hlev : 2 ^ n ∣ x.length) (trim : Bool) {X : ℝ} (hX : ∀ v ∈ x, |v| ≤ X)
    (hnu : 312 * n * u ≤ 1 / 2) (hΩ : 8 * 32 ^ n * (X + 128 * κ) ≤ Ω) :
    ∃ o cs y, waveletNamed single name = .ok o ∧
      swt ((realBank o.w).toFl fl) (some (n : ℤ)) 0 trim none (toFl fl x) = .ok cs ∧
      iswt ((realBank o.w).toFl fl) none cs = .ok y ∧ y.length = x.length ∧
      ∀ i < x.length, |(y.getD i 0).val - x.getD i 0| ≤
        32 ^ n * (X + 128 * κ) * (((tolerance single fam).1 : ℝ) / (tolerance single fam).2 + 1248 * n * u) :=
  swt_builtin_roundtrip H Kp h hd hx hn hlev trim hX hnu hΩ

example : ("db4", Family.db, 4) ∈ wnameToCode ∧ Family.db.isDiscrete = true ∧
    2 ^ 2 ∣ [(1 : ℝ), -2, 3, 0].length ∧ (∀ v ∈ [(1 : ℝ), -2, 3, 0], |v| ≤ 3) ∧
    312 * ((2 : ℕ) : ℝ) * 2 ^ (-53 : ℤ) ≤ 1 / 2 ∧
    Rounds binary64 ((2 : ℝ) ^ (-53 : ℤ)) ((2 : ℝ) ^ (-1022 : ℤ)) (8 * 32 ^ 2 * (3 + 128 * (2 : ℝ) ^ (-1022 : ℤ))) := by
  refine ⟨by decide +kernel, rfl, by simp, ?_, by norm_num, (C61_ieee _).1⟩
  intro v hv
  simp only [List.mem_cons, List.not_mem_nil, or_false] at hv
  rcases hv with rfl | rfl | rfl | rfl <;> norm_num [abs_of_nonneg, abs_neg]

/-- The hypotheses of the general round trip, for one level of the bank with coefficients 1/2 and 1. -/
theorem halfBank_swt_fits : DwtFits (2 ^ (-53 : ℤ)) (2 ^ (-1022 : ℤ)) 1000 .periodization halfBank 0 5 0 ∧
    IswtFits (2 ^ (-53 : ℤ)) (2 ^ (-1022 : ℤ)) 1000 halfBank (dwtDepth .periodization halfBank.dec_len)
      (decBound .periodization halfBank (2 ^ (-1022 : ℤ)) 5 1) 0 := by
  have h0 : (0 : ℝ) ≤ 2 ^ (-53 : ℤ) := by positivity
  have h1 : ((2 : ℝ) ^ (-53 : ℤ)) ≤ 1 / 1000 := by norm_num
  have h2 : ((2 : ℝ) ^ (-1022 : ℤ)) ≤ 1 / 16 :=
    (zpow_le_zpow_right₀ (by norm_num) (by norm_num : (-1022 : ℤ) ≤ -4)).trans (by norm_num)
  have h3 : (0 : ℝ) ≤ 2 ^ (-1022 : ℤ) := by positivity
  generalize (2 : ℝ) ^ (-53 : ℤ) = u at *
  generalize (2 : ℝ) ^ (-1022 : ℤ) = κ at *
  have hp : ∀ n ≤ 12, (1 + u) ^ n ≤ 2 := by
    intro n hn
    refine (pow_le_pow_left₀ (by linarith) (show 1 + u ≤ 1001 / 1000 by linarith) n).trans ?_
    refine (pow_le_pow_right₀ (by norm_num) hn).trans ?_
    norm_num
  have key : ∀ n ≤ 12, ∀ b : ℝ, 0 ≤ b → b ≤ 500 → (1 + u) ^ n * b ≤ 1000 := by
    intro n hn b hb hb'
    have := mul_le_mul (hp n hn) hb' hb (by norm_num)
    linarith
  have hdb : decBound .periodization halfBank κ 5 1 = 5 + 4 * κ := by
    have e1 : dwtBound .periodization halfBank.dec_lo κ 5 = 5 + 4 * κ := by
      simp only [dwtBound, extBound, reduceCtorEq, or_self, if_false]; norm_num [l1, halfBank, abs_of_nonneg]
    have e2 : dwtBound .periodization halfBank.dec_hi κ 5 = 5 + 4 * κ := by
      simp only [dwtBound, extBound, reduceCtorEq, or_self, if_false]; norm_num [l1, halfBank, abs_of_nonneg, abs_div]
    show max 5 (max _ _) = _
    simp only [decBound, e1, e2, max_self]
    exact max_eq_right (by linarith)
  rw [hdb]
  unfold DwtFits IswtFits
  simp only [halfBank, Wavelet.dec_len, extDepth, dwtDepth, iswtDepth, idwtDepth, iswtBound, dwtBound, idwtBound,
    extBound, l1, List.length_cons, List.length_nil, List.map_cons, List.map_nil, List.sum_cons, List.sum_nil,
    reduceCtorEq, or_self, if_false]
  norm_num [abs_of_nonneg, abs_div]
  refine ⟨?_, ?_⟩ <;> first | (refine key _ (by norm_num) _ ?_ ?_ <;> linarith) | linarith

example : Keeps binary64 ∧ halfBank.Ok ∧ PRWithin 0 halfBank.dec_lo halfBank.dec_hi halfBank.rec_lo halfBank.rec_hi ∧
    2 ^ 1 ∣ [(3 : ℝ), -5].length ∧
    (∀ j < 1, DwtFits (2 ^ (-53 : ℤ)) (2 ^ (-1022 : ℤ)) 1000 .periodization halfBank
      (j * dwtDepth .periodization halfBank.dec_len) (decBound .periodization halfBank (2 ^ (-1022 : ℤ)) 5 j) 0) ∧
    ∀ k < 1, IswtFits (2 ^ (-53 : ℤ)) (2 ^ (-1022 : ℤ)) 1000 halfBank
      (1 * dwtDepth .periodization halfBank.dec_len + k * iswtDepth halfBank)
      (swtRecBound halfBank (2 ^ (-1022 : ℤ)) (decBound .periodization halfBank (2 ^ (-1022 : ℤ)) 5 1) k)
      (swtChainErr halfBank (0 * decBound .periodization halfBank (2 ^ (-1022 : ℤ)) 5 1) k) := by
  refine ⟨C66_keeps.1, by simp [halfBank, Wavelet.Ok], halfBank_pr, by simp, fun j hj => ?_, fun k hk => ?_⟩
  · obtain rfl : j = 0 := by omega
    simpa only [Nat.zero_mul, decBound] using halfBank_swt_fits.1
  · obtain rfl : k = 0 := by omega
    simpa only [Nat.zero_mul, Nat.add_zero, Nat.one_mul, swtRecBound, swtChainErr] using halfBank_swt_fits.2

end Pywt
