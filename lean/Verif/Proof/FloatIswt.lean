import Verif.Proof.FloatSwt
import Verif.Proof.SimSwt

/-!
# Rounding errors of `iswt`
-/

set_option linter.unusedSectionVars false
set_option autoImplicit false

namespace Pywt

open Finset Spec Sim

variable {fl : ℝ → ℝ} {u κ Ω : ℝ}

theorem idwtBound_nonneg {w : Wavelet ℝ} {X : ℝ} (hκ : 0 ≤ κ) (hX : 0 ≤ X) : 0 ≤ idwtBound w κ X := by
  unfold idwtBound
  have h1 := l1_nonneg w.rec_lo
  have h2 := l1_nonneg w.rec_hi
  have h3 : (0 : ℝ) ≤ w.rec_lo.length := Nat.cast_nonneg _
  have h4 : (0 : ℝ) ≤ w.rec_hi.length := Nat.cast_nonneg _
  have h5 := mul_nonneg (add_nonneg h1 h2) hX
  have h6 := mul_nonneg (mul_nonneg (zero_le_two (α := ℝ)) (add_nonneg h3 h4)) hκ
  linarith

theorem swtRecBound_nonneg {w : Wavelet ℝ} {X : ℝ} (hX : 0 ≤ X) (j : ℕ) : 0 ≤ swtRecBound w κ X j := by
  induction j with
  | zero => exact hX
  | succ j ih => exact ih.trans (le_max_left _ _)

/-- The mean of two machine numbers. -/
theorem mean_near (H : Rounds fl u κ Ω) {n : ℕ} {B e a a' b b' : ℝ} (ha : FlNear u n B e a a') (hb : FlNear u n B e b b')
    (hΩ : (1 + u) ^ (n + 2) * (2 * (B + 2 * κ) + 2 * e) ≤ Ω) :
    FlNear u (n + 2) (B + 2 * κ) e (fl (1 / 2 * fl (a + b))) (1 / 2 * (a' + b')) := by
  have hu := H.u_nonneg
  have hκ := H.κ_nonneg
  have hB := ha.nonneg
  have he := ha.2.1
  have hin : ∀ {m : ℕ} {C g : ℝ}, m ≤ n + 2 → 0 ≤ C + g → C + g ≤ 2 * (B + 2 * κ) + 2 * e →
      (1 + u) ^ m * (C + g) ≤ Ω := by
    intro m C g hm h0 h1
    refine le_trans (mul_le_mul (pow_le_pow_right₀ (by linarith) hm) h1 h0 ?_) hΩ
    linarith [pow_ge_one hu (n + 2)]
  have h1 := ha.add hb
  have h2 := h1.round H (hin (by omega) h1.nonneg2 (by linarith))
  have h3 := h2.mul (1 / 2)
  have h4 := h3.round H (hin (by omega) h3.nonneg2 (by rw [abs_of_pos (by norm_num)]; linarith))
  rw [abs_of_pos (by norm_num : (0 : ℝ) < 1 / 2)] at h4
  exact h4.mono hu le_rfl (by linarith) (by linarith)

/-- `iswt` with rounding. -/
theorem iswt_near [Invertible (2 : ℝ)] (H : Rounds fl u κ Ω) {w : Wavelet ℝ} {d : ℕ} {X e : ℝ} (hX : 0 ≤ X) (he : 0 ≤ e)
    {cs' : SwtCoeffs (List (Fl fl))} {cs : SwtCoeffs (List ℝ)} (hcs : SwtAccurate u d X e cs' cs)
    (hfit : ∀ j < swtLevels cs, IswtFits u κ Ω w (d + j * iswtDepth w) (swtRecBound w κ X j)
      (swtRecBound w 0 e j)) :
    PRel (Accurate u (d + swtLevels cs * iswtDepth w) (swtRecBound w κ X (swtLevels cs))
        (swtRecBound w 0 e (swtLevels cs)))
      (iswt (w.toFl fl) none cs') (iswt w none cs) := by
  have hu := H.u_nonneg
  have hκ := H.κ_nonneg
  refine iswt_rel
    (X := fun j (a : Fl fl) (b : ℝ) => FlNear u (d + j * iswtDepth w) (swtRecBound w κ X j)
      (swtRecBound w 0 e j) a.val b)
    (Z := fun j (a : Fl fl) (b : ℝ) => FlNear u (d + j * iswtDepth w + idwtDepth w)
      (idwtBound w κ (swtRecBound w κ X j)) (idwtBound w 0 (swtRecBound w 0 e j)) a.val b)
    (w := w.toFl fl) (w' := w) ?_ ?_ ?_ ?_
  · simp only [Nat.zero_mul, Nat.add_zero, swtRecBound]
    cases cs' <;> cases cs <;> exact hcs
  · intro j hj a b h
    refine FlNear.mono hu h ?_ (le_max_left _ _) (le_max_left _ _)
    have : j * iswtDepth w ≤ (j + 1) * iswtDepth w := Nat.mul_le_mul_right _ (by omega)
    omega
  · intro j hj a a' c c' ha hc
    have hB := swtRecBound_nonneg (w := w) (κ := κ) hX j
    have hE := swtRecBound_nonneg (w := w) (κ := 0) he j
    refine idwt_near H (mode := .periodization) hB hE ?_ (.some ha) (.some hc)
    refine le_trans ?_ (hfit j hj)
    have h1 := idwtBound_nonneg (w := w) hκ hB
    have h2 := idwtBound_nonneg (w := w) (le_refl (0 : ℝ)) hE
    refine mul_le_mul (pow_le_pow_right₀ (by linarith) ?_) ?_ (by linarith) ?_
    · unfold iswtDepth; omega
    · unfold iswtBound; linarith
    · linarith [pow_ge_one hu (d + j * iswtDepth w + iswtDepth w)]
  · intro j hj a a' c c' ha hc
    have h := mean_near H ha hc (by
      have h0 := hfit j hj
      unfold IswtFits iswtBound iswtDepth at h0
      rw [← Nat.add_assoc] at h0
      simpa [iswtDepth] using h0)
    have hd : d + j * iswtDepth w + idwtDepth w + 2 = d + (j + 1) * iswtDepth w := by
      unfold iswtDepth; ring
    rw [hd] at h
    show FlNear u _ _ _ (fl (1 / 2 * fl (a.val + c.val))) ((⅟2 : ℝ) * (a' + c'))
    rw [invOf_eq_inv, ← one_div]
    refine FlNear.mono hu h le_rfl (le_max_right _ _) ?_
    refine le_trans ?_ (le_max_right _ _)
    simp [iswtBound]

end Pywt
