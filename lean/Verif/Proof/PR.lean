import Verif.Proof.UpConv
import Verif.Spec.Bank
import Mathlib.Algebra.Module.BigOperators

/-! Perfect reconstruction at the level of bi-infinite signals. -/

namespace Pywt

open Finset Spec

set_option linter.unusedSectionVars false

variable {R M : Type} [Ring R] [AddCommGroup M] [Module R M]

/-- One channel, grouped by total delay. -/
theorem channel_eq (g f : List R) (e : ℤ → M) (n o1 o2 : ℤ) :
    conv g (upsample fun k => conv f e (2 * k + o1)) (n + o2) =
      ∑ s ∈ range (g.length + f.length),
        parityCoeff g f ((n + o2) % 2).toNat s • e (n + o2 + o1 - s) := by
  have h1 : ∀ s ∈ range (g.length + f.length),
      parityCoeff g f ((n + o2) % 2).toNat s • e (n + o2 + o1 - s) =
      ∑ t ∈ range g.length, ∑ l ∈ range f.length,
        if t + l = s then (if t % 2 = ((n + o2) % 2).toNat then
          (g.getD t 0 * f.getD l 0) • e (n + o2 + o1 - (t + l)) else 0) else 0 := by
    intro s _
    unfold parityCoeff
    rw [sum_smul]
    apply sum_congr rfl; intro t _
    rw [sum_smul]
    apply sum_congr rfl; intro l _
    by_cases hs : t + l = s
    · subst hs
      by_cases ht : t % 2 = ((n + o2) % 2).toNat
      · simp [ht]
      · simp [ht]
    · simp [hs]
  rw [sum_congr rfl h1, sum_comm]
  unfold conv
  apply sum_congr rfl
  intro t ht
  rw [sum_comm]
  have h2 : ∀ l ∈ range f.length, (∑ s ∈ range (g.length + f.length),
      if t + l = s then (if t % 2 = ((n + o2) % 2).toNat then
          (g.getD t 0 * f.getD l 0) • e (n + o2 + o1 - (t + l)) else 0) else 0) =
      if t % 2 = ((n + o2) % 2).toNat then
          (g.getD t 0 * f.getD l 0) • e (n + o2 + o1 - (t + l)) else 0 := by
    intro l hl
    simp only [mem_range] at ht hl
    rw [sum_ite_eq, if_pos (by simp; omega)]
  rw [sum_congr rfl h2]
  unfold upsample
  by_cases hp : (n + o2 - t) % 2 = 0
  · have hp' : t % 2 = ((n + o2) % 2).toNat := by omega
    rw [if_pos hp, smul_sum]
    apply sum_congr rfl
    intro l _
    rw [if_pos hp', mul_smul]
    congr 3
    omega
  · have hp' : ¬ t % 2 = ((n + o2) % 2).toNat := by omega
    rw [if_neg hp, smul_zero]
    symm
    apply sum_eq_zero
    intro l _
    rw [if_neg hp']

/-- Perfect reconstruction of bi-infinite signals, for any split `o1 + o2 = F - 1` of the delay. -/
theorem pr_key {dlo dhi rlo rhi : List R} (hpr : PR dlo dhi rlo rhi)
    (h1 : dhi.length = dlo.length) (h2 : rlo.length = dlo.length) (h3 : rhi.length = dlo.length)
    (h4 : 1 ≤ dlo.length)
    (e : ℤ → M) (n o1 o2 : ℤ) (ho : o1 + o2 = dlo.length - 1) :
    conv rlo (upsample fun k => conv dlo e (2 * k + o1)) (n + o2) +
      conv rhi (upsample fun k => conv dhi e (2 * k + o1)) (n + o2) = e n := by
  rw [channel_eq, channel_eq, h1, h2, h3, ← sum_add_distrib]
  rw [sum_eq_single (dlo.length - 1)]
  · rw [← add_smul, hpr _ (by omega), if_pos (by omega), one_smul]
    congr 1; omega
  · intro s _ hs
    rw [← add_smul, hpr _ (by omega), if_neg (by omega), zero_smul]
  · intro h
    simp only [mem_range] at h
    omega

end Pywt
