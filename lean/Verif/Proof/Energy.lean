import Verif.Proof.Swt
import Mathlib.Algebra.BigOperators.Ring.Finset

/-! Energy preservation for orthogonal banks. -/

namespace Pywt

open Finset Spec

set_option linter.unusedSectionVars false

variable {R : Type} [CommRing R]

theorem sum_period_shift_nat {A : Type} [AddCommGroup A] {g : ℤ → A} {N : ℕ}
    (hg : ∀ p, g (p + N) = g p) (c : ℕ) :
    ∑ n ∈ range N, g (n + c) = ∑ n ∈ range N, g n := by
  induction c with
  | zero => simp
  | succ c ih =>
    rw [← ih]
    have h1 := sum_range_succ (fun n : ℕ => g ((n : ℤ) + c)) N
    have h2 := sum_range_succ' (fun n : ℕ => g ((n : ℤ) + c)) N
    rw [h1] at h2
    have h3 : g ((N : ℤ) + c) = g ((0 : ℕ) + c) := by
      rw [add_comm, hg]; simp
    rw [h3] at h2
    have h4 := add_right_cancel h2
    rw [h4]
    apply sum_congr rfl
    intro n _
    congr 1
    push_cast
    ring

theorem sum_period_shift {A : Type} [AddCommGroup A] {g : ℤ → A} {N : ℕ}
    (hg : ∀ p, g (p + N) = g p) (c : ℤ) :
    ∑ n ∈ range N, g (n + c) = ∑ n ∈ range N, g n := by
  rcases Int.eq_nat_or_neg c with ⟨k, rfl | rfl⟩
  · exact sum_period_shift_nat hg k
  · have := sum_period_shift_nat (g := fun p => g (p + -(k : ℤ))) (N := N) (by
      intro p
      rw [show p + N + -(k : ℤ) = p + -(k : ℤ) + N by ring, hg]) k
    rw [← this]
    apply sum_congr rfl
    intro n _
    congr 1
    ring

theorem ext_periodic_add (x : List R) (p : ℤ) :
    Spec.ext .periodic x (p + x.length) = Spec.ext .periodic x p := by
  simp [Spec.ext]

/-- The synthesis step with the time-reversed filter is the adjoint of the analysis step. -/
theorem analysis_adjoint {f : List R} (hF : f.length % 2 = 0) {x a : List R} {L : ℕ}
    (hx : x.length = 2 * L) (ha : a.length = L) :
    ∑ o ∈ range L, a.getD o 0 * conv f (Spec.ext .periodic x) ((f.length / 2 : ℕ) + 2 * o) =
      ∑ n ∈ range (2 * L), x.getD n 0 *
        conv f.reverse (upsample (Spec.ext .periodic a)) ((n : ℤ) + ((f.length / 2 : ℕ) - 1)) := by
  -- left side, sums exchanged
  have hl : ∑ o ∈ range L, a.getD o 0 *
        conv f (Spec.ext .periodic x) ((f.length / 2 : ℕ) + 2 * o) =
      ∑ j ∈ range f.length, f.getD j 0 * ∑ o ∈ range L,
        a.getD o 0 * Spec.ext .periodic x ((f.length / 2 : ℕ) + 2 * o - j) := by
    simp only [conv, mul_sum, smul_eq_mul]
    rw [sum_comm]
    apply sum_congr rfl; intro j _
    apply sum_congr rfl; intro o _
    ring
  have hr : ∑ n ∈ range (2 * L), x.getD n 0 *
        conv f.reverse (upsample (Spec.ext .periodic a)) ((n : ℤ) + ((f.length / 2 : ℕ) - 1)) =
      ∑ j ∈ range f.length, f.getD j 0 * ∑ n ∈ range (2 * L),
        x.getD n 0 * upsample (Spec.ext .periodic a) ((n : ℤ) + (j - (f.length / 2 : ℕ))) := by
    simp only [conv, mul_sum, smul_eq_mul, List.length_reverse]
    rw [sum_comm, ← sum_range_reflect]
    apply sum_congr rfl; intro j hj
    rw [mem_range] at hj
    apply sum_congr rfl; intro n _
    have e1 : f.reverse.getD (f.length - 1 - j) 0 = f.getD j 0 := by
      rw [List.getD_eq_getElem (hn := by simp; omega), List.getD_eq_getElem (hn := hj),
        List.getElem_reverse]
      congr 1
      omega
    have e2 : (n : ℤ) + ((f.length / 2 : ℕ) - 1) - ((f.length - 1 - j : ℕ) : ℤ) =
        n + (j - (f.length / 2 : ℕ)) := by omega
    rw [e1, e2]
    ring
  rw [hl, hr]
  apply sum_congr rfl
  intro j _
  congr 1
  -- the inner sums agree by periodicity
  rcases Nat.eq_zero_or_pos L with h0 | h0
  · subst h0; simp
  have hper : ∀ p, (fun p => Spec.ext .periodic x (p - (j - (f.length / 2 : ℕ))) *
      upsample (Spec.ext .periodic a) p) (p + (2 * L : ℕ)) =
      (fun p => Spec.ext .periodic x (p - (j - (f.length / 2 : ℕ))) *
      upsample (Spec.ext .periodic a) p) p := by
    intro p
    simp only
    congr 1
    · rw [← hx, show p + (x.length : ℤ) - (j - (f.length / 2 : ℕ)) =
        p - (j - (f.length / 2 : ℕ)) + x.length by ring, ext_periodic_add]
    · unfold upsample
      have : (p + (2 * L : ℕ)) % 2 = p % 2 := by omega
      rw [this]
      split
      · rw [show (p + (2 * L : ℕ)) / 2 = p / 2 + a.length by omega, ext_periodic_add]
      · rfl
  have hs := sum_period_shift (g := fun p => Spec.ext .periodic x (p - (j - (f.length / 2 : ℕ))) *
      upsample (Spec.ext .periodic a) p) (N := 2 * L) hper (j - (f.length / 2 : ℕ))
  have e3 : ∑ n ∈ range (2 * L), x.getD n 0 *
      upsample (Spec.ext .periodic a) ((n : ℤ) + (j - (f.length / 2 : ℕ))) =
      ∑ n ∈ range (2 * L), (fun p => Spec.ext .periodic x (p - (j - (f.length / 2 : ℕ))) *
      upsample (Spec.ext .periodic a) p) ((n : ℤ) + (j - (f.length / 2 : ℕ))) := by
    apply sum_congr rfl
    intro n hn
    rw [mem_range] at hn
    simp only
    rw [add_sub_cancel_right, ext_in x .periodic (by omega)]
  rw [e3, hs]
  -- only the even positions contribute
  have hev : ∀ (h : ℕ → R) (K : ℕ), ∑ n ∈ range (2 * K), h n =
      ∑ o ∈ range K, (h (2 * o) + h (2 * o + 1)) := by
    intro h K
    induction K with
    | zero => simp
    | succ K ih =>
      rw [show 2 * (K + 1) = 2 * K + 1 + 1 by ring, sum_range_succ, sum_range_succ, ih,
        sum_range_succ]
      ring
  rw [hev]
  apply sum_congr rfl
  intro o ho
  rw [mem_range] at ho
  have u0 : upsample (Spec.ext .periodic a) ((2 * o : ℕ) : ℤ) = a.getD o 0 := by
    unfold upsample
    rw [if_pos (by omega), show ((2 * o : ℕ) : ℤ) / 2 = (o : ℕ) by omega,
      ext_in a .periodic (by omega)]
  have u1 : upsample (Spec.ext .periodic a) ((2 * o + 1 : ℕ) : ℤ) = 0 := by
    unfold upsample
    rw [if_neg (by omega)]
  simp only [u0, u1, mul_zero, add_zero]
  rw [mul_comm]
  congr 2
  push_cast
  ring

/-- Energy of a signal. -/
theorem list_sum_sq (x : List R) :
    (x.map fun v => v * v).sum = ∑ n ∈ range x.length, x.getD n 0 * x.getD n 0 := by
  induction x using List.reverseRecOn with
  | nil => simp
  | append_singleton x v ih =>
    rw [List.map_append, List.sum_append, ih, List.length_append]
    simp only [List.length_singleton, sum_range_succ, List.map_cons, List.map_nil, List.sum_cons,
      List.sum_nil, add_zero]
    congr 1
    · apply sum_congr rfl
      intro n hn
      rw [mem_range] at hn
      rw [List.getD_append _ _ _ _ hn]
    · rw [List.getD_append_right _ _ _ _ le_rfl]
      simp

/-! ### Undecimated -/

theorem prodCoeff_of_PR {a b c d : List R} (h : PR a b c d) (s : ℕ) :
    prodCoeff c a s + prodCoeff d b s = if s + 1 = a.length then 2 else 0 := by
  have key : ∀ f g : List R, prodCoeff f g s = parityCoeff f g 0 s + parityCoeff f g 1 s := by
    intro f g
    unfold prodCoeff parityCoeff
    rw [← sum_add_distrib]
    apply sum_congr rfl; intro t _
    rw [← sum_add_distrib]
    apply sum_congr rfl; intro l _
    rcases Nat.mod_two_eq_zero_or_one t with h | h <;> simp [h]
  have h0 := h 0 (by omega) s
  have h1 := h 1 (by omega) s
  rw [key, key, show ∀ p q r t : R, p + q + (r + t) = (p + r) + (q + t) by intros; ring, h0, h1]
  split
  · exact one_add_one_eq_two
  · simp

theorem sum_prodCoeff (f g : List R) (G : ℕ → R) :
    ∑ t ∈ range f.length, ∑ l ∈ range g.length, f.getD t 0 * g.getD l 0 * G (t + l) =
      ∑ s ∈ range (f.length + g.length), prodCoeff f g s * G s := by
  unfold prodCoeff
  simp only [sum_mul]
  rw [sum_comm (s := range (f.length + g.length))]
  apply sum_congr rfl; intro t ht
  rw [sum_comm (s := range (f.length + g.length))]
  apply sum_congr rfl; intro l hl
  rw [mem_range] at ht hl
  rw [sum_eq_single (t + l)]
  · simp
  · intro s _ hs
    rw [if_neg (by omega), zero_mul]
  · intro h
    simp at h
    omega

/-- Filtering with taps at stride `s` by an orthogonal pair doubles the energy. -/
theorem atrous_energy {lo hi : List R} (hpr : PR lo hi lo.reverse hi.reverse)
    (hl : hi.length = lo.length) (h0 : 1 ≤ lo.length) (s : ℕ)
    (x : List R) :
    ((atrous lo s x).map fun v => v * v).sum + ((atrous hi s x).map fun v => v * v).sum =
      2 * (x.map fun v => v * v).sum := by
  -- autocorrelation
  set C : ℤ → R := fun d => ∑ n ∈ range x.length,
    Spec.ext .periodic x n * Spec.ext .periodic x (n + d) with hC
  have hcorr : ∀ c c' : ℤ, ∑ n ∈ range x.length,
      Spec.ext .periodic x (n + c) * Spec.ext .periodic x (n + c') = C (c' - c) := by
    intro c c'
    rw [hC]
    simp only
    rw [← sum_period_shift (g := fun p => Spec.ext .periodic x p *
      Spec.ext .periodic x (p + (c' - c))) (N := x.length) (by
        intro p
        rw [ext_periodic_add, show p + (x.length : ℤ) + (c' - c) = p + (c' - c) + x.length by ring,
          ext_periodic_add]) c]
    apply sum_congr rfl
    intro n _
    congr 2
    ring
  have hE : ∀ f : List R, ((atrous f s x).map fun v => v * v).sum =
      ∑ t ∈ range f.length, ∑ l ∈ range f.length,
        f.getD t 0 * f.getD l 0 * C (s * ((t : ℤ) - l)) := by
    intro f
    rw [list_sum_sq, atrous_length]
    have : ∀ n ∈ range x.length, (atrous f s x).getD n 0 * (atrous f s x).getD n 0 =
        ∑ t ∈ range f.length, ∑ l ∈ range f.length, f.getD t 0 * f.getD l 0 *
          (Spec.ext .periodic x ((n : ℤ) + s * ((f.length / 2 : ℕ) - t)) *
           Spec.ext .periodic x ((n : ℤ) + s * ((f.length / 2 : ℕ) - l))) := by
      intro n hn
      rw [mem_range] at hn
      rw [List.getD_eq_getElem (hn := by simpa using hn)]
      simp only [atrous, List.getElem_map, List.getElem_range, Spec.ext]
      rw [sum_mul_sum]
      apply sum_congr rfl; intro t _
      apply sum_congr rfl; intro l _
      simp only [smul_eq_mul]
      ring
    rw [sum_congr rfl this, sum_comm]
    apply sum_congr rfl; intro t _
    rw [sum_comm]
    apply sum_congr rfl; intro l _
    rw [← mul_sum, hcorr]
    congr 2
    ring
  have hE2 : ∀ f : List R, ((atrous f s x).map fun v => v * v).sum =
      ∑ S ∈ range (f.length + f.length), prodCoeff f.reverse f S *
        C (s * ((f.length : ℤ) - 1 - S)) := by
    intro f
    have h := sum_prodCoeff f.reverse f (fun S => C (s * ((f.length : ℤ) - 1 - S)))
    rw [List.length_reverse] at h
    rw [← h, hE, ← sum_range_reflect]
    apply sum_congr rfl; intro t ht
    rw [mem_range] at ht
    apply sum_congr rfl; intro l _
    have e1 : f.reverse.getD t 0 = f.getD (f.length - 1 - t) 0 := by
      rw [List.getD_eq_getElem (hn := by simp; omega), List.getD_eq_getElem (hn := by omega),
        List.getElem_reverse]
    rw [e1]
    congr 3
    push_cast [Nat.sub_sub, Nat.cast_sub (show 1 + t ≤ f.length by omega)]
    ring
  rw [hE2, hE2, hl, ← sum_add_distrib]
  have hterm : ∀ S ∈ range (lo.length + lo.length),
      prodCoeff lo.reverse lo S * C (s * ((lo.length : ℤ) - 1 - S)) +
        prodCoeff hi.reverse hi S * C (s * ((lo.length : ℤ) - 1 - S)) =
      if S + 1 = lo.length then 2 * C 0 else 0 := by
    intro S _
    rw [← add_mul, prodCoeff_of_PR hpr]
    split
    · rename_i h
      rw [← h]
      push_cast
      congr 2
      ring
    · rw [zero_mul]
  rw [sum_congr rfl hterm]
  have hC0 : C 0 = (x.map fun v => v * v).sum := by
    rw [hC, list_sum_sq]
    simp only [add_zero]
    apply sum_congr rfl
    intro n hn
    rw [mem_range] at hn
    rw [ext_in x .periodic hn]
  rw [sum_eq_single (lo.length - 1), if_pos (by omega), hC0]
  · intro S _ hS
    rw [if_neg (by omega)]
  · intro h
    simp at h
    omega

end Pywt
