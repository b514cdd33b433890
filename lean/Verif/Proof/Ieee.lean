import Verif.Spec.Float
import Mathlib.Tactic.Linarith
import Mathlib.Tactic.Positivity
import Mathlib.Tactic.GCongr
import Mathlib.Tactic.NormNum
import Mathlib.Algebra.Order.Field.Power

/-!
# Rounding to nearest satisfies the standard model
-/

set_option autoImplicit false

namespace Pywt

open Spec

theorem rne_err (t : ℝ) : |(rne t : ℝ) - t| ≤ 1 / 2 := by
  have h1 := Int.floor_le t
  have h2 := Int.lt_floor_add_one t
  unfold rne
  split_ifs with h3 h4 h5 <;> rw [abs_le] <;> push_cast <;> constructor <;> linarith

theorem rne_int (z : ℤ) : rne (z : ℝ) = z := by
  unfold rne
  simp

theorem rne_neg (t : ℝ) : rne (-t) = -rne t := by
  by_cases ht : t = ⌊t⌋
  · rw [ht, ← Int.cast_neg, rne_int, rne_int]
  · have h1 := Int.floor_le t
    have h2 := Int.lt_floor_add_one t
    have h3 : (⌊t⌋ : ℝ) < t := lt_of_le_of_ne h1 (Ne.symm ht)
    have hf : ⌊-t⌋ = -⌊t⌋ - 1 := by
      rw [Int.floor_eq_iff]
      push_cast
      constructor <;> linarith
    unfold rne
    rw [hf]
    push_cast
    split_ifs <;> first | omega | (exfalso; linarith)

theorem ulpExp_neg (p : ℕ) (emin : ℤ) (t : ℝ) : ulpExp p emin (-t) = ulpExp p emin t := by
  unfold ulpExp
  rw [abs_neg]

/-- Rounding to nearest commutes with a change of sign. -/
theorem ieee_neg (p : ℕ) (emin : ℤ) (t : ℝ) : ieee p emin (-t) = -ieee p emin t := by
  unfold ieee
  rw [ulpExp_neg, neg_div, rne_neg]
  push_cast
  ring

theorem ieee_rounds {p : ℕ} (emin : ℤ) (Ω : ℝ) :
    Rounds (ieee p emin) ((2 : ℝ) ^ (-(p : ℤ))) ((2 : ℝ) ^ (emin + p - 1)) Ω where
  u_nonneg := by positivity
  κ_nonneg := by positivity
  err := by
    intro t _
    set e := ulpExp p emin t with he
    have hpos : (0 : ℝ) < 2 ^ e := by positivity
    have h1 : |ieee p emin t - t| ≤ 1 / 2 * 2 ^ e := by
      have h2 := rne_err (t / 2 ^ e)
      have h3 : ieee p emin t - t = ((rne (t / 2 ^ e) : ℝ) - t / 2 ^ e) * 2 ^ e := by
        unfold ieee
        rw [← he, sub_mul, div_mul_cancel₀ _ hpos.ne']
      rw [h3, abs_mul, abs_of_pos hpos]
      exact mul_le_mul_of_nonneg_right h2 hpos.le
    have h0 : (0 : ℝ) ≤ 2 ^ (-(p : ℤ)) := by positivity
    have h4 : (0 : ℝ) ≤ 2 ^ (emin + p - 1) := by positivity
    by_cases ht : t = 0
    · subst ht
      have : ieee p emin 0 = 0 := by
        unfold ieee
        rw [zero_div, show rne 0 = 0 by simpa using rne_int 0]
        simp
      rw [this]
      simp only [sub_self, abs_zero, zero_add]
      exact mul_nonneg h0 h4
    refine h1.trans ?_
    rw [mul_add]
    rcases le_total (Int.log 2 |t| - p + 1) emin with hc | hc
    · have hee : e = emin := by rw [he]; exact max_eq_right hc
      have : (1 : ℝ) / 2 * 2 ^ e = 2 ^ (-(p : ℤ)) * 2 ^ (emin + p - 1) := by
        rw [hee, ← zpow_add₀ (two_ne_zero), show -(p : ℤ) + (emin + p - 1) = emin - 1 by ring,
          zpow_sub_one₀ two_ne_zero]
        ring
      rw [this]
      have := mul_nonneg h0 (abs_nonneg t)
      linarith
    · have hee : e = Int.log 2 |t| - p + 1 := by rw [he]; exact max_eq_left hc
      have hlog : ((2 : ℕ) : ℝ) ^ Int.log 2 |t| ≤ |t| :=
        Int.zpow_log_le_self (by norm_num) (abs_pos.mpr ht)
      have : (1 : ℝ) / 2 * 2 ^ e = 2 ^ (-(p : ℤ)) * 2 ^ Int.log 2 |t| := by
        rw [hee, ← zpow_add₀ (two_ne_zero), zpow_add_one₀ two_ne_zero,
          show Int.log 2 |t| - (p : ℤ) = -(p : ℤ) + Int.log 2 |t| by ring]
        ring
      rw [this]
      push_cast at hlog
      have h5 := mul_le_mul_of_nonneg_left hlog h0
      have h6 := mul_nonneg h0 h4
      linarith

end Pywt
