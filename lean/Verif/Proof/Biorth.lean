import Verif.Proof.PR
import Mathlib.Algebra.Polynomial.Coeff
import Mathlib.Tactic.LinearCombination

/-!
A perfect-reconstruction filter bank is biorthogonal: the polyphase matrices commute up to a delay, so analysis after
synthesis is the identity as well.
-/

namespace Pywt

open Finset Spec Polynomial

set_option linter.unusedSectionVars false

section
variable {R : Type} [CommRing R]

/-- The taps of parity `p` as a polynomial. -/
noncomputable def phase (f : List R) (p : ℕ) : R[X] :=
  ∑ i ∈ range f.length, if i % 2 = p then monomial (i / 2) (f.getD i 0) else 0

theorem coeff_phase_mul (g f : List R) {p q : ℕ} (hp : p < 2) (hq : q < 2) (k : ℕ) :
    (phase g p * phase f q).coeff k = parityCoeff g f p (2 * k + p + q) := by
  unfold phase parityCoeff
  rw [sum_mul_sum, finsetSum_coeff]
  refine sum_congr rfl fun t _ => ?_
  rw [finsetSum_coeff]
  refine sum_congr rfl fun l _ => ?_
  by_cases ht : t % 2 = p
  · by_cases hl : l % 2 = q
    · rw [if_pos ht, if_pos hl, monomial_mul_monomial, coeff_monomial]
      by_cases h : t / 2 + l / 2 = k
      · rw [if_pos h, if_pos ⟨ht, by omega⟩]
      · rw [if_neg h, if_neg (by rintro ⟨-, h'⟩; omega)]
    · rw [if_neg hl, mul_zero, coeff_zero, if_neg (by rintro ⟨-, h'⟩; omega)]
  · rw [if_neg ht, zero_mul, coeff_zero, if_neg (fun h => ht h.1)]

theorem prodCoeff_split (f g : List R) (s : ℕ) :
    prodCoeff f g s = parityCoeff f g 0 s + parityCoeff f g 1 s := by
  unfold prodCoeff parityCoeff
  rw [← sum_add_distrib]
  refine sum_congr rfl fun t _ => ?_
  rw [← sum_add_distrib]
  refine sum_congr rfl fun l _ => ?_
  by_cases h : t + l = s
  · rcases Nat.mod_two_eq_zero_or_one t with ht | ht <;> simp [h, ht]
  · simp [h]

/-- If two polynomial matrices multiply to a power of `X`, they commute. -/
theorem two_by_two_comm {a b c d a' b' c' d' : R[X]} {m : ℕ}
    (h1 : a * a' + b * c' = X ^ m) (h2 : a * b' + b * d' = 0) (h3 : c * a' + d * c' = 0)
    (h4 : c * b' + d * d' = X ^ m) :
    a' * a + b' * c = X ^ m ∧ a' * b + b' * d = 0 ∧ c' * a + d' * c = 0 ∧ c' * b + d' * d = X ^ m := by
  have hx : ∀ p : R[X], X ^ (2 * m) * p = 0 → p = 0 := by
    intro p hp
    exact mul_X_pow_eq_zero (n := 2 * m) (by rw [mul_comm]; exact hp)
  have hdet : (a * d - b * c) * (a' * d' - b' * c') = X ^ (2 * m) := by
    have : (X : R[X]) ^ (2 * m) = X ^ m * X ^ m := by ring
    rw [this]
    linear_combination (c * b' + d * d') * h1 + X ^ m * h4 - (c * a' + d * c') * h2
  have key : ∀ p : R[X], (a * d - b * c) * p = 0 → p = 0 := by
    intro p hp
    apply hx
    rw [← hdet]
    linear_combination (a' * d' - b' * c') * hp
  have key' : ∀ p q : R[X], (a * d - b * c) * p = (a * d - b * c) * q → p = q := fun p q h => by
    have := key (p - q) (by linear_combination h)
    linear_combination this
  refine ⟨?_, ?_, ?_, ?_⟩
  · apply key'
    linear_combination (d * a) * h1 - (b * a) * h3 + (d * c) * h2 - (b * c) * h4
  · apply key'
    linear_combination (d * b) * h1 - (b * b) * h3 + (d * d) * h2 - (b * d) * h4
  · apply key'
    linear_combination (-c * a) * h1 + (a * a) * h3 - (c * c) * h2 + (a * c) * h4
  · apply key'
    linear_combination (-c * b) * h1 + (a * b) * h3 - (c * d) * h2 + (a * d) * h4

/-- Analysis after synthesis: the products of analysis and synthesis filters, at odd delays. -/
theorem PR_dual {dl dh rl rh : List R} (hF : dl.length % 2 = 0) (h2 : 2 ≤ dl.length) (h : PR dl dh rl rh) {s : ℕ}
    (hs : s % 2 = 1) :
    prodCoeff dl rl s = (if s + 1 = dl.length then 1 else 0) ∧ prodCoeff dl rh s = 0 ∧ prodCoeff dh rl s = 0 ∧
      prodCoeff dh rh s = (if s + 1 = dl.length then 1 else 0) := by
  set m := dl.length / 2 - 1 with hm
  have hl : dl.length = 2 * m + 2 := by omega
  have e : ∀ p q, p < 2 → q < 2 → phase rl p * phase dl q + phase rh p * phase dh q =
      if p + q = 1 then (X : R[X]) ^ m else 0 := by
    intro p q hp hq
    ext k
    rw [coeff_add, coeff_phase_mul _ _ hp hq, coeff_phase_mul _ _ hp hq, h p hp]
    by_cases h1 : p + q = 1
    · rw [if_pos h1, coeff_X_pow]
      by_cases h3 : k = m
      · rw [if_pos (by omega), if_pos h3]
      · rw [if_neg (by omega), if_neg h3]
    · rw [if_neg h1, coeff_zero, if_neg (by omega)]
  have := two_by_two_comm (a := phase rl 0) (b := phase rh 0) (c := phase rl 1) (d := phase rh 1)
    (a' := phase dl 1) (b' := phase dl 0) (c' := phase dh 1) (d' := phase dh 0) (m := m)
    (by simpa using e 0 1 (by omega) (by omega)) (by simpa using e 0 0 (by omega) (by omega))
    (by simpa using e 1 1 (by omega) (by omega)) (by simpa using e 1 0 (by omega) (by omega))
  obtain ⟨k, rfl⟩ : ∃ k, s = 2 * k + 1 := ⟨s / 2, by omega⟩
  have c : ∀ (f g : List R), prodCoeff f g (2 * k + 1) =
      (phase f 1 * phase g 0 + phase f 0 * phase g 1).coeff k := by
    intro f g
    rw [coeff_add, coeff_phase_mul _ _ (by omega) (by omega), coeff_phase_mul _ _ (by omega) (by omega),
      prodCoeff_split, add_comm]
  have hk : (if 2 * k + 1 + 1 = dl.length then (1 : R) else 0) = ((X : R[X]) ^ m).coeff k := by
    rw [coeff_X_pow]
    by_cases h3 : k = m
    · rw [if_pos (by omega), if_pos h3]
    · rw [if_neg (by omega), if_neg h3]
  obtain ⟨h1, h2', h3, h4⟩ := this
  rw [hk, c, c, c, c, h1, h2', h3, h4]
  simp

end

section
variable {R M : Type} [CommRing R] [AddCommGroup M] [Module R M]

/-- A synthesis filter followed by an analysis filter, grouped by total delay. -/
theorem conv_conv (f g : List R) (e : ℤ → M) (p o : ℤ) :
    conv f (fun n => conv g e (n + o)) p = ∑ s ∈ range (f.length + g.length), prodCoeff f g s • e (p + o - s) := by
  have h1 : ∀ s ∈ range (f.length + g.length), prodCoeff f g s • e (p + o - s) =
      ∑ t ∈ range f.length, ∑ l ∈ range g.length,
        if t + l = s then (f.getD t 0 * g.getD l 0) • e (p + o - (t + l)) else 0 := by
    intro s _
    unfold prodCoeff
    rw [sum_smul]
    refine sum_congr rfl fun t _ => ?_
    rw [sum_smul]
    refine sum_congr rfl fun l _ => ?_
    by_cases hs : t + l = s
    · subst hs
      simp
    · simp [hs]
  rw [sum_congr rfl h1, sum_comm]
  unfold conv
  refine sum_congr rfl fun t ht => ?_
  rw [sum_comm, smul_sum]
  refine sum_congr rfl fun l hl => ?_
  simp only [mem_range] at ht hl
  rw [sum_ite_eq, if_pos (by simp; omega), mul_smul]
  congr 3
  ring

/-- Analysis after synthesis at the level of bi-infinite sequences. -/
theorem conv_upsample_dual {f g : List R} {F : ℕ} {δ : R} (hF : F % 2 = 0) (h2 : 2 ≤ F) (hf : f.length = F)
    (hg : g.length = F) (h : ∀ s, s % 2 = 1 → prodCoeff f g s = if s + 1 = F then δ else 0) (a : ℤ → M) (k o1 o2 : ℤ)
    (ho : o1 + o2 = F - 1) :
    conv f (fun n => conv g (upsample a) (n + o2)) (2 * k + o1) = δ • a k := by
  rw [conv_conv, sum_eq_single (F - 1)]
  · rw [h _ (by omega), if_pos (by omega)]
    congr 1
    unfold upsample
    have e : 2 * k + o1 + o2 - ((F - 1 : ℕ) : ℤ) = 2 * k := by
      push_cast [show 1 ≤ F by omega]
      linarith
    rw [e, if_pos (by omega)]
    congr 1
    omega
  · intro s _ hs
    by_cases hp : s % 2 = 1
    · rw [h s hp, if_neg (by omega), zero_smul]
    · unfold upsample
      rw [if_neg, smul_zero]
      omega
  · intro hn
    exact absurd (mem_range.mpr (by omega)) hn

end

end Pywt
