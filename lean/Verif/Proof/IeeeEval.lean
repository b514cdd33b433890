import Verif.Proof.FloatSwtTop

/-!
# Evaluating the IEEE roundings
-/

set_option linter.unusedSectionVars false

namespace Pywt

theorem rne_eq_of_near {t : ℝ} {k : ℤ} (h : |t - k| < 1 / 2) : rne t = k := by
  have e := rne_err t
  rw [abs_lt] at h
  rw [abs_le] at e
  have h1 : (rne t : ℝ) < k + 1 := by linarith
  have h2 : (k : ℝ) - 1 < rne t := by linarith
  have h1' : rne t < k + 1 := by exact_mod_cast h1
  have h2' : k - 1 < rne t := by exact_mod_cast h2
  omega

/-- The rounding of a number with known exponent and nearest significand. -/
theorem ieee_eq {p : ℕ} {emin : ℤ} {t : ℝ} (e k : ℤ) (h1 : (2 : ℝ) ^ (e + p - 1) ≤ |t|) (h2 : |t| < 2 ^ (e + p))
    (he : emin ≤ e) (h3 : |t / 2 ^ e - k| < 1 / 2) : ieee p emin t = k * 2 ^ e := by
  have ht : 0 < |t| := lt_of_lt_of_le (by positivity) h1
  have hl : Int.log 2 |t| = e + p - 1 := by
    have a := (Int.zpow_le_iff_le_log (b := 2) (by norm_num) ht).mp (by exact_mod_cast h1)
    have b := (Int.lt_zpow_iff_log_lt (b := 2) (by norm_num) ht).mp (by exact_mod_cast h2)
    omega
  have hu : ulpExp p emin t = e := by
    unfold ulpExp
    rw [hl]
    omega
  unfold ieee
  rw [hu, rne_eq_of_near h3]

theorem rne_eq_of_even {t : ℝ} {k : ℤ} (h : |t - k| ≤ 1 / 2) (hk : k % 2 = 0) : rne t = k := by
  rcases lt_or_eq_of_le h with h | h
  · exact rne_eq_of_near h
  rcases eq_or_eq_neg_of_abs_eq h with h | h
  · have hf : ⌊t⌋ = k := by rw [Int.floor_eq_iff]; constructor <;> linarith
    unfold rne
    rw [hf, if_neg (by linarith), if_neg (by linarith), if_pos hk]
  · have hf : ⌊t⌋ = k - 1 := by rw [Int.floor_eq_iff]; push_cast; constructor <;> linarith
    unfold rne
    rw [hf, if_neg (by push_cast; linarith), if_neg (by push_cast; linarith), if_neg (by omega)]
    omega

/-- The same for a tie, which goes to the even significand. -/
theorem ieee_eq_tie {p : ℕ} {emin : ℤ} {t : ℝ} (e k : ℤ) (h1 : (2 : ℝ) ^ (e + p - 1) ≤ |t|) (h2 : |t| < 2 ^ (e + p))
    (he : emin ≤ e) (h3 : |t / 2 ^ e - k| ≤ 1 / 2) (hk : k % 2 = 0) : ieee p emin t = k * 2 ^ e := by
  have ht : 0 < |t| := lt_of_lt_of_le (by positivity) h1
  have hl : Int.log 2 |t| = e + p - 1 := by
    have a := (Int.zpow_le_iff_le_log (b := 2) (by norm_num) ht).mp (by exact_mod_cast h1)
    have b := (Int.lt_zpow_iff_log_lt (b := 2) (by norm_num) ht).mp (by exact_mod_cast h2)
    omega
  have hu : ulpExp p emin t = e := by
    unfold ulpExp
    rw [hl]
    omega
  unfold ieee
  rw [hu, rne_eq_of_even h3 hk]

/-- Machine numbers are not changed. -/
theorem ieee_exact {p : ℕ} {emin : ℤ} {t : ℝ} (e m : ℤ) (ht : t = m * 2 ^ e) (hm : |(m : ℝ)| < 2 ^ p) (he : emin ≤ e) :
    ieee p emin t = t := by
  by_cases h0 : t = 0
  · unfold ieee
    rw [h0, zero_div, show rne 0 = 0 by simpa using rne_int 0]
    simp
  have hpos : 0 < |t| := abs_pos.mpr h0
  have he0 : (0 : ℝ) < 2 ^ e := by positivity
  have hlt : |t| < 2 ^ (e + p) := by
    rw [ht, abs_mul, abs_of_pos he0, zpow_add₀ (by norm_num), zpow_natCast, mul_comm]
    exact mul_lt_mul_of_pos_left hm he0
  have hl := (Int.lt_zpow_iff_log_lt (b := 2) (by norm_num) hpos).mp (by exact_mod_cast hlt)
  have hu : ulpExp p emin t ≤ e := by
    unfold ulpExp
    omega
  obtain ⟨d, hd⟩ := Int.le.dest hu
  have : t / 2 ^ ulpExp p emin t = ((m * 2 ^ d : ℤ) : ℝ) := by
    rw [div_eq_iff (by positivity), ht]
    conv_lhs => rw [← hd]
    rw [zpow_add₀ (by norm_num), zpow_natCast]
    push_cast
    rw [← ht]
    ring
  unfold ieee
  rw [this, rne_int, ← this, div_mul_cancel₀ _ (by positivity)]

end Pywt
