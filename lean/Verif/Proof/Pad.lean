import Verif.Model.Pad
import Verif.Spec.Pad
import Verif.Proof.Dwt
import Mathlib.Tactic.LinearCombination

/-! The laws of the extension modes, and `pad`. -/

namespace Pywt

open Finset Spec

set_option linter.unusedSectionVars false

variable {M : Type} [AddCommGroup M] {x : List M}

/-! ### Laws of the extensions -/

/-- Division with the remainder as a natural number. -/
theorem divNat (p : ℤ) {P : ℕ} (h : 0 < P) : ∃ (q : ℤ) (k : ℕ), k < P ∧ p = P * q + k := by
  have h1 := Int.emod_nonneg p (b := (P : ℤ)) (by omega)
  have h2 := Int.emod_lt_of_pos p (b := (P : ℤ)) (by omega)
  have h3 := Int.mul_ediv_add_emod p P
  exact ⟨p / P, (p % P).toNat, by omega, by rw [Int.toNat_of_nonneg h1]; exact h3.symm⟩

theorem symm_cases (h : 1 ≤ x.length) (p : ℤ) : ∃ (q : ℤ) (k : ℕ), k < x.length ∧
    (p = 2 * x.length * q + k ∨ p = 2 * x.length * q + (2 * x.length - 1 - k)) := by
  obtain ⟨q, k, hk, hp⟩ := divNat p (P := 2 * x.length) (by omega)
  by_cases h1 : k < x.length
  · exact ⟨q, k, h1, Or.inl (by rw [hp]; push_cast; ring)⟩
  · refine ⟨q, 2 * x.length - 1 - k, by omega, Or.inr ?_⟩
    rw [hp, show ((2 * x.length - 1 - k : ℕ) : ℤ) = 2 * x.length - 1 - k by omega]
    push_cast
    ring

theorem refl_cases (h : 2 ≤ x.length) (p : ℤ) : ∃ (q : ℤ) (k : ℕ), k < x.length ∧
    (p = 2 * (x.length - 1) * q + k ∨ 1 ≤ k ∧ p = 2 * (x.length - 1) * q + (2 * (x.length - 1) - k)) := by
  obtain ⟨q, k, hk, hp⟩ := divNat p (P := 2 * (x.length - 1)) (by omega)
  have hc : ((2 * (x.length - 1) : ℕ) : ℤ) = 2 * ((x.length : ℤ) - 1) := by omega
  by_cases h1 : k < x.length
  · exact ⟨q, k, h1, Or.inl (by rw [hp, hc])⟩
  · refine ⟨q, 2 * (x.length - 1) - k, by omega, Or.inr ⟨by omega, ?_⟩⟩
    rw [hp, show ((2 * (x.length - 1) - k : ℕ) : ℤ) = 2 * (x.length - 1) - k by omega, hc]
    ring

theorem ext_symm_left (h : 1 ≤ x.length) (p : ℤ) :
    Spec.ext .symmetric x (-1 - p) = Spec.ext .symmetric x p := by
  obtain ⟨q, k, hk, hp | hp⟩ := symm_cases h p
  · rw [ext_symm_lo x hk hp, ext_symm_hi x (q := -q - 1) hk (by rw [hp]; ring)]
  · rw [ext_symm_hi x hk hp, ext_symm_lo x (q := -q - 1) hk (by rw [hp]; ring)]

theorem ext_symm_right (h : 1 ≤ x.length) (p : ℤ) :
    Spec.ext .symmetric x (2 * x.length - 1 - p) = Spec.ext .symmetric x p := by
  obtain ⟨q, k, hk, hp | hp⟩ := symm_cases h p
  · rw [ext_symm_lo x hk hp, ext_symm_hi x (q := -q) hk (by rw [hp]; ring)]
  · rw [ext_symm_hi x hk hp, ext_symm_lo x (q := -q) hk (by rw [hp]; ring)]

theorem ext_asym_left (h : 1 ≤ x.length) (p : ℤ) :
    Spec.ext .antisymmetric x (-1 - p) = -Spec.ext .antisymmetric x p := by
  obtain ⟨q, k, hk, hp | hp⟩ := symm_cases h p
  · rw [ext_asym_lo x hk hp, ext_asym_hi x (q := -q - 1) hk (by rw [hp]; ring)]
  · rw [ext_asym_hi x hk hp, ext_asym_lo x (q := -q - 1) hk (by rw [hp]; ring), neg_neg]

theorem ext_asym_right (h : 1 ≤ x.length) (p : ℤ) :
    Spec.ext .antisymmetric x (2 * x.length - 1 - p) = -Spec.ext .antisymmetric x p := by
  obtain ⟨q, k, hk, hp | hp⟩ := symm_cases h p
  · rw [ext_asym_lo x hk hp, ext_asym_hi x (q := -q) hk (by rw [hp]; ring)]
  · rw [ext_asym_hi x hk hp, ext_asym_lo x (q := -q) hk (by rw [hp]; ring), neg_neg]

theorem ext_refl_right (h : 2 ≤ x.length) (p : ℤ) :
    Spec.ext .reflect x (2 * ((x.length : ℤ) - 1) - p) = Spec.ext .reflect x p := by
  obtain ⟨q, k, hk, hp | ⟨hk1, hp⟩⟩ := refl_cases h p
  · rw [ext_refl_lo x hk h hp]
    rcases Nat.eq_zero_or_pos k with h0 | h0
    · subst h0
      exact ext_refl_lo x (q := -q + 1) hk h (by rw [hp]; push_cast; ring)
    · exact ext_refl_hi x (q := -q) h0 hk h (by rw [hp]; ring)
  · rw [ext_refl_hi x hk1 hk h hp, ext_refl_lo x (q := -q) hk h (by rw [hp]; ring)]

theorem ext_refl_left (h : 2 ≤ x.length) (p : ℤ) :
    Spec.ext .reflect x (-p) = Spec.ext .reflect x p := by
  obtain ⟨q, k, hk, hp | ⟨hk1, hp⟩⟩ := refl_cases h p
  · rw [ext_refl_lo x hk h hp]
    rcases Nat.eq_zero_or_pos k with h0 | h0
    · subst h0
      exact ext_refl_lo x (q := -q) hk h (by rw [hp]; push_cast; ring)
    · exact ext_refl_hi x (q := -q - 1) h0 hk h (by rw [hp]; ring)
  · rw [ext_refl_hi x hk1 hk h hp, ext_refl_lo x (q := -q - 1) hk h (by rw [hp]; ring)]

theorem ext_arefl_right (h : 2 ≤ x.length) (p : ℤ) :
    Spec.ext .antireflect x (2 * ((x.length : ℤ) - 1) - p) + Spec.ext .antireflect x p =
      x.getD (x.length - 1) 0 + x.getD (x.length - 1) 0 := by
  obtain ⟨q, k, hk, hp | ⟨hk1, hp⟩⟩ := refl_cases h p
  · rw [ext_arefl_lo x hk h hp]
    rcases Nat.eq_zero_or_pos k with h0 | h0
    · subst h0
      rw [ext_arefl_lo x (q := -q + 1) hk h (by rw [hp]; push_cast; ring)]
      module
    · rw [ext_arefl_hi x (q := -q) h0 hk h (by rw [hp]; ring)]
      module
  · rw [ext_arefl_hi x hk1 hk h hp, ext_arefl_lo x (q := -q) hk h (by rw [hp]; ring)]
    module

theorem ext_arefl_left (h : 2 ≤ x.length) (p : ℤ) :
    Spec.ext .antireflect x (-p) + Spec.ext .antireflect x p = x.getD 0 0 + x.getD 0 0 := by
  obtain ⟨q, k, hk, hp | ⟨hk1, hp⟩⟩ := refl_cases h p
  · rw [ext_arefl_lo x hk h hp]
    rcases Nat.eq_zero_or_pos k with h0 | h0
    · subst h0
      rw [ext_arefl_lo x (q := -q) hk h (by rw [hp]; push_cast; ring)]
      module
    · rw [ext_arefl_hi x (q := -q - 1) h0 hk h (by rw [hp]; ring)]
      module
  · rw [ext_arefl_hi x hk1 hk h hp, ext_arefl_lo x (q := -q - 1) hk h (by rw [hp]; ring)]
    module

theorem ext_per_shift (p : ℤ) : Spec.ext .periodic x (p + x.length) = Spec.ext .periodic x p := by
  simp [Spec.ext]

theorem evenPad_length (x : List M) : (evenPad x).length = x.length + x.length % 2 := by
  unfold evenPad
  split_ifs with h
  · simp [h]
  · simp; omega

theorem ext_periodization (x : List M) (p : ℤ) : Spec.ext .periodization x p = Spec.ext .periodic (evenPad x) p := rfl

theorem ext_laws {mode : Mode} (h : LenOk mode x.length) : ExtLaws mode x (Spec.ext mode x) := by
  obtain ⟨h1, h2⟩ := h
  refine ⟨fun k hk => ext_in x mode hk, ?_⟩
  have h0 : Spec.ext mode x 0 = x.getD 0 0 := by
    have := ext_in x mode (k := 0) h1
    simpa using this
  have hl : Spec.ext mode x ((x.length : ℤ) - 1) = x.getD (x.length - 1) 0 := by
    rw [← ext_in x mode (k := x.length - 1) (by omega)]
    congr 1
    omega
  cases mode with
  | zero => intro p hp; exact ext_zero_out x hp
  | constant =>
    refine ⟨fun p hp => ?_, fun p hp => ?_⟩
    · rw [ext_const_neg x hp, h0]
    · rw [ext_const_hi x hp h1, hl]
  | symmetric => exact ⟨ext_symm_left h1, ext_symm_right h1⟩
  | antisymmetric => exact ⟨ext_asym_left h1, ext_asym_right h1⟩
  | reflect => exact ⟨ext_refl_left (h2 (by simp)), ext_refl_right (h2 (by simp))⟩
  | antireflect =>
    refine ⟨fun p => ?_, fun p => ?_⟩
    · rw [ext_arefl_left (h2 (by simp)), h0]
    · rw [ext_arefl_right (h2 (by simp)), hl]
  | periodic => exact fun p => ext_per_shift p
  | periodization =>
    simp only [ext_periodization] at *
    have hlen := evenPad_length x
    split_ifs with hpar
    · intro p
      have := ext_per_shift (x := evenPad x) p
      rw [hlen, show x.length % 2 = 0 by omega] at this
      simpa using this
    · refine ⟨?_, fun p => ?_⟩
      · have hev : evenPad x = x ++ [at' x (x.length - 1)] := by
          unfold evenPad; rw [if_pos (by omega)]
        rw [hl, ext_in (evenPad x) .periodic (k := x.length) (by omega), hev]
        rw [List.getD_append_right _ _ _ _ (le_refl _)]
        simp [at']
      · have := ext_per_shift (x := evenPad x) p
        rw [hlen, show x.length % 2 = 1 by omega] at this
        simpa using this
  | smooth =>
    simp only
    split_ifs with hN
    · intro p
      have : (x.length : ℤ) < 2 := by omega
      simp [Spec.ext, this]
    · have hN2 : 2 ≤ x.length := by omega
      have e1 : Spec.ext .smooth x 1 = x.getD 1 0 := by
        have := ext_in x .smooth (k := 1) hN2
        simpa using this
      have e2 : Spec.ext .smooth x ((x.length : ℤ) - 2) = x.getD (x.length - 2) 0 := by
        rw [← ext_in x .smooth (k := x.length - 2) (by omega)]
        congr 1
        omega
      refine ⟨fun p hp => ?_, fun p hp => ?_⟩
      · rw [h0, e1]
        obtain ⟨k, rfl⟩ : ∃ k : ℕ, p = -k := ⟨(-p).toNat, by omega⟩
        rw [ext_smooth_neg x (k := k + 1) hN2 (by omega) (by omega)]
        rcases Nat.eq_zero_or_pos k with hk | hk
        · subst hk; rw [show (-((0 : ℕ) : ℤ)) = 0 by simp, h0]; module
        · rw [ext_smooth_neg x (k := k) hN2 hk rfl]; module
      · rw [hl, e2]
        obtain ⟨k, rfl⟩ : ∃ k : ℕ, p = x.length - 1 + k := ⟨(p - (x.length - 1)).toNat, by omega⟩
        rw [ext_smooth_hi x (k := k + 1) hN2 (by omega) (by push_cast; ring)]
        rcases Nat.eq_zero_or_pos k with hk | hk
        · subst hk; rw [show ((x.length : ℤ) - 1 + ((0 : ℕ) : ℤ)) = x.length - 1 by simp, hl]; module
        · rw [ext_smooth_hi x (k := k) hN2 hk rfl]; module

/-! ### The laws determine the extension -/

/-- Induction from the signal outwards. -/
theorem outward {P : ℤ → Prop} {N : ℕ} (hN : 1 ≤ N) (h0 : ∀ k : ℕ, k < N → P k)
    (hstep : ∀ p : ℤ, p < 0 ∨ (N : ℤ) ≤ p → (∀ q : ℤ, (if q < 0 then 2 * (-q) + 1 else 2 * q) <
      (if p < 0 then 2 * (-p) + 1 else 2 * p) ∨ (0 ≤ q ∧ q < N) → P q) → P p) (p : ℤ) : P p := by
  have key : ∀ n : ℕ, ∀ p : ℤ, (if p < 0 then 2 * (-p) + 1 else 2 * p) < n → P p := by
    intro n
    induction n with
    | zero => intro p hp; split_ifs at hp <;> omega
    | succ n ih =>
      intro p hp
      by_cases hin : 0 ≤ p ∧ p < N
      · have := h0 p.toNat (by omega)
        rwa [show ((p.toNat : ℕ) : ℤ) = p by omega] at this
      · apply hstep p (by omega)
        intro q hq
        rcases hq with hq | hq
        · exact ih q (by omega)
        · have := h0 q.toNat (by omega)
          rwa [show ((q.toNat : ℕ) : ℤ) = q by omega] at this
  exact key ((if p < 0 then 2 * (-p) + 1 else 2 * p).toNat + 1) p (by split_ifs <;> omega)

theorem laws_unique {mode : Mode} (h : LenOk mode x.length) {e e' : ℤ → M} (he : ExtLaws mode x e)
    (he' : ExtLaws mode x e') : e = e' := by
  obtain ⟨h1, h2⟩ := h
  obtain ⟨hin, he⟩ := he
  obtain ⟨hin', he'⟩ := he'
  have hk : ∀ k : ℕ, k < x.length → e k = e' k := fun k hk => by rw [hin k hk, hin' k hk]
  have hz : ∀ p : ℤ, 0 ≤ p → p < x.length → e p = e' p := by
    intro p hp0 hp1
    have := hk p.toNat (by omega)
    rwa [show ((p.toNat : ℕ) : ℤ) = p by omega] at this
  funext p
  cases mode with
  | zero =>
    by_cases hp : 0 ≤ p ∧ p < x.length
    · exact hz p hp.1 hp.2
    · rw [he p (by omega), he' p (by omega)]
  | constant =>
    by_cases hp : 0 ≤ p ∧ p < x.length
    · exact hz p hp.1 hp.2
    · rcases (by omega : p < 0 ∨ (x.length : ℤ) ≤ p) with hp | hp
      · rw [he.1 p hp, he'.1 p hp]; exact hz 0 le_rfl (by omega)
      · rw [he.2 p hp, he'.2 p hp]; exact hz _ (by omega) (by omega)
  | symmetric =>
    refine outward (P := fun p => e p = e' p) h1 hk (fun p hp ih => ?_) p
    rcases hp with hp | hp
    · rw [← he.1, ← he'.1]; exact ih _ (by split_ifs <;> omega)
    · rw [← he.2, ← he'.2]; exact ih _ (by split_ifs <;> omega)
  | antisymmetric =>
    refine outward (P := fun p => e p = e' p) h1 hk (fun p hp ih => ?_) p
    rcases hp with hp | hp
    · rw [← neg_inj, ← he.1, ← he'.1]; exact ih _ (by split_ifs <;> omega)
    · rw [← neg_inj, ← he.2, ← he'.2]; exact ih _ (by split_ifs <;> omega)
  | reflect =>
    have hN2 := h2 (by simp)
    refine outward (P := fun p => e p = e' p) h1 hk (fun p hp ih => ?_) p
    rcases hp with hp | hp
    · rw [← he.1, ← he'.1]; exact ih _ (by split_ifs <;> omega)
    · rw [← he.2, ← he'.2]; exact ih _ (by split_ifs <;> omega)
  | antireflect =>
    have hN2 := h2 (by simp)
    refine outward (P := fun p => e p = e' p) h1 hk (fun p hp ih => ?_) p
    rcases hp with hp | hp
    · have a := he.1 p
      have b := he'.1 p
      rw [hz 0 le_rfl (by omega), ← b, ih (-p) (by split_ifs <;> omega)] at a
      exact add_left_cancel a
    · have a := he.2 p
      have b := he'.2 p
      rw [hz (x.length - 1) (by omega) (by omega), ← b, ih (2 * ((x.length : ℤ) - 1) - p) (by split_ifs <;> omega)] at a
      exact add_left_cancel a
  | periodic =>
    refine outward (P := fun p => e p = e' p) h1 hk (fun p hp ih => ?_) p
    rcases hp with hp | hp
    · rw [← he, ← he']; exact ih _ (by split_ifs <;> omega)
    · rw [show p = (p - x.length) + x.length by ring, he, he']; exact ih _ (by split_ifs <;> omega)
  | periodization =>
    simp only at he he'
    by_cases hpar : (x.length : ℤ) % 2 = 0
    · rw [if_pos hpar] at he he'
      refine outward (P := fun p => e p = e' p) h1 hk (fun p hp ih => ?_) p
      rcases hp with hp | hp
      · rw [← he, ← he']; exact ih _ (by split_ifs <;> omega)
      · rw [show p = (p - x.length) + x.length by ring, he, he']; exact ih _ (by split_ifs <;> omega)
    · rw [if_neg hpar] at he he'
      refine outward (P := fun p => e p = e' p) (N := x.length + 1) (by omega) ?_ (fun p hp ih => ?_) p
      · intro k hk'
        rcases Nat.lt_succ_iff_lt_or_eq.mp hk' with h | h
        · exact hk k h
        · subst h; rw [he.1, he'.1]; exact hz _ (by omega) (by omega)
      · push_cast at hp ih
        rcases hp with hp | hp
        · rw [← he.2, ← he'.2]; exact ih _ (by split_ifs <;> omega)
        · rw [show p = (p - (x.length + 1)) + (x.length + 1) by ring, he.2, he'.2]
          exact ih _ (by split_ifs <;> omega)
  | smooth =>
    simp only at he he'
    by_cases hN : (x.length : ℤ) = 1
    · rw [if_pos hN] at he he'
      rw [he, he']; exact hz 0 le_rfl (by omega)
    · rw [if_neg hN] at he he'
      refine outward (P := fun p => e p = e' p) h1 hk (fun p hp ih => ?_) p
      rcases hp with hp | hp
      · have a := he.1 (p + 1) (by omega)
        have b := he'.1 (p + 1) (by omega)
        rw [hz 0 le_rfl (by omega), hz 1 (by omega) (by omega), ← b, ih (p + 1) (by split_ifs <;> omega)] at a
        simpa using a
      · have a := he.2 (p - 1) (by omega)
        have b := he'.2 (p - 1) (by omega)
        rw [hz (x.length - 1) (by omega) (by omega), hz (x.length - 2) (by omega) (by omega), ← b,
          ih (p - 1) (by split_ifs <;> omega)] at a
        simpa using a

/-! ### `numpy.pad` -/

/-- The extension mode a mode of `numpy.pad` corresponds to. -/
def NpMode.toMode : NpMode → Mode
  | .constant => .zero
  | .edge => .constant
  | .wrap => .periodic
  | .symmetric => .symmetric
  | .reflect => .reflect
  | .reflectOdd => .antireflect

theorem npAt_ext {m : NpMode} (h : LenOk m.toMode x.length) (fuel : ℕ) :
    ∀ p : ℤ, ((if p < 0 then 2 * (-p) + 1 else 2 * p) < fuel ∨ (0 ≤ p ∧ p < x.length ∧ 1 ≤ fuel)) →
      npAt m x fuel p = Spec.ext m.toMode x p := by
  induction fuel with
  | zero => intro p hp; split_ifs at hp <;> omega
  | succ fuel ih =>
    intro p hp
    unfold npAt
    simp only
    by_cases hin : 0 ≤ p ∧ p < x.length
    · rw [if_pos hin]
      have := ext_in x m.toMode (k := p.toNat) (by omega)
      rw [show ((p.toNat : ℕ) : ℤ) = p by omega] at this
      exact this.symm
    · rw [if_neg hin]
      obtain ⟨h1, h2⟩ := h
      have hmu : (if p < 0 then 2 * (-p) + 1 else 2 * p) < fuel + 1 := by
        rcases hp with hp | hp
        · exact_mod_cast hp
        · exact absurd ⟨hp.1, hp.2.1⟩ hin
      cases m with
      | constant => exact (ext_zero_out x (by omega)).symm
      | edge =>
        by_cases h0 : p < 0
        · simp only [h0, if_true]; exact (ext_const_neg x h0).symm
        · simp only [h0, if_false]; exact (ext_const_hi x (by omega) h1).symm
      | wrap =>
        by_cases h0 : p < 0
        · simp only [h0, if_true] at hmu ⊢
          rw [ih _ (by split_ifs <;> omega)]
          exact ext_per_shift p
        · simp only [h0, if_false] at hmu ⊢
          rw [ih _ (by split_ifs <;> omega)]
          have := ext_per_shift (x := x) (p - x.length)
          rw [sub_add_cancel] at this
          exact this.symm
      | symmetric =>
        by_cases h0 : p < 0
        · simp only [h0, if_true] at hmu ⊢
          rw [ih _ (by split_ifs <;> omega)]
          exact ext_symm_left h1 p
        · simp only [h0, if_false] at hmu ⊢
          rw [ih _ (by split_ifs <;> omega)]
          exact ext_symm_right h1 p
      | reflect =>
        have hN2 : 2 ≤ x.length := h2 (by simp [NpMode.toMode])
        by_cases h0 : p < 0
        · simp only [h0, if_true] at hmu ⊢
          rw [ih _ (by split_ifs <;> omega)]
          exact ext_refl_left hN2 p
        · simp only [h0, if_false] at hmu ⊢
          rw [ih _ (by split_ifs <;> omega)]
          exact ext_refl_right hN2 p
      | reflectOdd =>
        have hN2 : 2 ≤ x.length := h2 (by simp [NpMode.toMode])
        by_cases h0 : p < 0
        · simp only [h0, if_true] at hmu ⊢
          rw [ih _ (by split_ifs <;> omega)]
          have := ext_arefl_left hN2 p
          rw [← this]
          simp [NpMode.toMode]
        · simp only [h0, if_false] at hmu ⊢
          rw [ih _ (by split_ifs <;> omega)]
          have := ext_arefl_right hN2 p
          rw [← this]
          simp [NpMode.toMode]

theorem window_length (e : ℤ → M) (l len : ℕ) : (window e l len).length = len := by simp [window]

theorem window_getD (e : ℤ → M) (l : ℕ) {len i : ℕ} (h : i < len) : (window e l len).getD i 0 = e ((i : ℤ) - l) := by
  rw [List.getD_eq_getElem _ _ (by rw [window_length]; exact h)]
  simp [window]

theorem npPad_ok {m : NpMode} (h : LenOk m.toMode x.length) (l r : ℕ) :
    npPad m x l r = .ok (window (Spec.ext m.toMode x) l (l + x.length + r)) := by
  unfold npPad
  have h1 : 1 ≤ x.length := h.1
  rw [if_neg (by omega)]
  simp only
  congr 1
  unfold window
  apply List.map_congr_left
  intro i hi
  rw [List.mem_range] at hi
  by_cases hone : x.length = 1 ∧ (m = .symmetric ∨ m = .reflect ∨ m = .reflectOdd)
  · rw [if_pos hone]
    have hm : m = .symmetric := by
      have h2 := h.2
      rcases hone.2 with h | h | h
      · exact h
      · subst h; have := h2 (by simp [NpMode.toMode]); omega
      · subst h; have := h2 (by simp [NpMode.toMode]); omega
    subst hm
    rw [npAt_ext (m := .edge) ⟨h1, by simp [NpMode.toMode]⟩ _ _ (by split_ifs <;> omega)]
    have hN1 : (x.length : ℤ) = 1 := by omega
    have e1 : ∀ p : ℤ, Spec.ext .constant x p = at' x 0 := by
      intro p
      simp only [Spec.ext, hN1]
      split_ifs
      · rfl
      · rw [show p = 0 by omega]
      · rfl
    have e2 : ∀ p : ℤ, Spec.ext .symmetric x p = at' x 0 := by
      intro p
      simp only [Spec.ext, hN1]
      split_ifs
      · rw [show p % (2 * 1) = 0 by omega]
      · rw [show (2 * 1 - 1 - p % (2 * 1) : ℤ) = 0 by omega]
    exact (e1 _).trans (e2 _).symm
  · rw [if_neg hone]
    exact npAt_ext h _ _ (by split_ifs <;> omega)

/-! ### `pad_smooth` -/

theorem vecGet_nat {v : List M} {i : ℤ} {k : ℕ} (h : i = k) (hk : k < v.length) : vecGet v i = .ok (v.getD k 0) := by
  unfold vecGet
  rw [if_pos (by omega), h]
  simp

theorem vecGet_neg {v : List M} {i : ℤ} {k : ℕ} (h : i + v.length = k) (h0 : i < 0) :
    vecGet v i = .ok (v.getD k 0) := by
  unfold vecGet
  rw [if_neg (by omega), if_pos (by omega), h]
  simp

theorem padded_getD (x : List M) (l r : ℕ) {k : ℕ} (hk : k < x.length) :
    (List.replicate l 0 ++ x ++ List.replicate r 0).getD (l + k) 0 = x.getD k 0 := by
  rw [List.append_assoc, List.getD_append_right _ _ _ _ (by simp), List.length_replicate,
    show l + k - l = k by omega, List.getD_append _ _ _ _ hk]

theorem padSmooth_ok (hN : 2 ≤ x.length) (l : ℕ) {r : ℕ} (hr : 1 ≤ r) :
    npPadWith padSmooth x l r = .ok (window (Spec.ext .smooth x) l (l + x.length + r)) := by
  unfold npPadWith padSmooth
  have hlen : (List.replicate l 0 ++ x ++ List.replicate r 0).length = l + x.length + r := by simp; omega
  rw [vecGet_nat (k := l) rfl (by omega), vecGet_nat (k := l + 1) (by push_cast; ring) (by omega)]
  simp only [Py_bind_ok]
  have hp0 := padded_getD x l r (by omega : 0 < x.length)
  rw [Nat.add_zero] at hp0
  rw [padded_getD x l r hN, hp0]
  set v' : List M := (List.range l).map (fun i => x.getD 0 0 + (l - i) • (x.getD 0 0 - x.getD 1 0)) ++
    (List.replicate l 0 ++ x ++ List.replicate r 0).drop l with hv'
  have hd : (List.replicate l (0 : M) ++ x ++ List.replicate r 0).drop l = x ++ List.replicate r 0 := by
    rw [List.append_assoc, List.drop_append_of_le_length (by simp)]
    simp
  rw [hd] at hv'
  have hl' : v'.length = l + x.length + r := by rw [hv']; simp; omega
  have hget : ∀ k, k < x.length → v'.getD (l + k) 0 = x.getD k 0 := by
    intro k hk
    rw [hv', List.getD_append_right _ _ _ _ (by simp), List.length_map, List.length_range,
      show l + k - l = k by omega, List.getD_append _ _ _ _ hk]
  rw [vecGet_neg (k := l + (x.length - 1)) (by omega) (by omega),
    vecGet_neg (k := l + (x.length - 2)) (by omega) (by omega)]
  simp only [Py_bind_ok]
  rw [hget _ (by omega), hget _ (by omega), if_neg (by omega)]
  congr 1
  have ht : v'.take (v'.length - r) = (List.range l).map (fun i => x.getD 0 0 + (l - i) • (x.getD 0 0 - x.getD 1 0)) ++ x := by
    rw [hl', hv', ← List.append_assoc, List.take_append_of_le_length (by simp)]
    rw [List.take_of_length_le (by simp)]
  rw [ht]
  apply List.ext_getElem
  · simp [window_length]; omega
  intro i h1 h2
  rw [window_length] at h2
  rw [← List.getD_eq_getElem _ 0, ← List.getD_eq_getElem _ 0, window_getD _ _ h2]
  by_cases hi : i < l
  · rw [List.append_assoc, List.getD_append _ _ _ _ (by simpa using hi),
      ext_smooth_neg x (k := l - i) hN (by omega) (by omega), List.getD_eq_getElem _ _ (by simpa using hi)]
    simp
  · by_cases hi2 : i < l + x.length
    · rw [List.getD_append _ _ _ _ (by simp; omega), List.getD_append_right _ _ _ _ (by simp; omega)]
      simp only [List.length_map, List.length_range]
      rw [show ((i : ℤ) - l) = ((i - l : ℕ) : ℤ) by omega, ext_in x .smooth (by omega)]
    · rw [List.getD_append_right _ _ _ _ (by simp; omega)]
      simp only [List.length_append, List.length_map, List.length_range]
      rw [ext_smooth_hi x (k := i - (l + x.length) + 1) hN (by omega) (by omega),
        List.getD_eq_getElem _ _ (by simp; omega)]
      simp

/-! ### `pad_antisymmetric` -/

theorem negSlice_length (v : List M) (a b : ℕ) : (negSlice v a b).length = v.length := by simp [negSlice]

theorem negSlice_getD (v : List M) (a b i : ℕ) :
    (negSlice v a b).getD i 0 = if a ≤ i ∧ i < b then -v.getD i 0 else v.getD i 0 := by
  unfold negSlice
  by_cases hi : i < v.length
  · rw [List.getD_eq_getElem _ _ (by simpa using hi), List.getElem_mapIdx, List.getD_eq_getElem _ _ hi]
  · rw [List.getD_eq_default _ _ (by simpa using Nat.le_of_not_lt hi), List.getD_eq_default _ _ (by omega)]
    simp

theorem flipRight_ok {seg : ℕ} (hs : 1 ≤ seg) (fuel : ℕ) : ∀ (n e : ℕ) (vp : List M),
    vp.length + 2 ≤ e + fuel - 1 → 1 ≤ fuel →
    ∃ v, flipRight seg fuel n e vp = .ok v ∧ v.length = vp.length ∧
      ∀ i < vp.length, v.getD i 0 = if e ≤ i ∧ ((i - e) / seg + n) % 2 = 1 then -vp.getD i 0 else vp.getD i 0 := by
  induction fuel with
  | zero => intro n e vp _ h; omega
  | succ fuel ih =>
    intro n e vp hf _
    unfold flipRight
    by_cases he : e ≤ vp.length + 1
    · rw [if_pos he]
      simp only
      set vp' := if n % 2 = 1 then negSlice vp e (min (e + seg) vp.length) else vp with hvp'
      have hl' : vp'.length = vp.length := by
        rw [hvp']; split_ifs
        · exact negSlice_length _ _ _
        · rfl
      obtain ⟨v, hv, hvl, hval⟩ := ih (n + 1) (e + seg) vp' (by omega) (by omega)
      refine ⟨v, hv, by omega, ?_⟩
      intro i hi
      rw [hval i (by omega)]
      have hvi : vp'.getD i 0 = if n % 2 = 1 ∧ e ≤ i ∧ i < e + seg then -vp.getD i 0 else vp.getD i 0 := by
        rw [hvp']
        by_cases hn : n % 2 = 1
        · rw [if_pos hn, negSlice_getD]
          simp only [hn, true_and]
          congr 1
          simp [hi]
        · rw [if_neg hn, if_neg (by omega)]
      rw [hvi]
      by_cases h1 : e + seg ≤ i
      · have hdiv : (i - e) / seg = (i - (e + seg)) / seg + 1 := by
          rw [show i - e = (i - (e + seg)) + seg by omega, Nat.add_div_right _ (by omega)]
        rw [hdiv, if_neg (show ¬ (n % 2 = 1 ∧ e ≤ i ∧ i < e + seg) by omega),
          show (i - (e + seg)) / seg + 1 + n = (i - (e + seg)) / seg + (n + 1) by ring]
        simp only [h1, true_and, show e ≤ i by omega]
      · simp only [h1, false_and, if_false]
        by_cases h2 : e ≤ i
        · rw [Nat.div_eq_of_lt (by omega : i - e < seg), Nat.zero_add]
          simp only [h2, true_and, show i < e + seg by omega, and_true]
        · simp only [h2, false_and, and_false, if_false]
    · rw [if_neg he]
      refine ⟨vp, rfl, rfl, ?_⟩
      intro i hi
      rw [if_neg (by omega)]

theorem flipLeft_ok {seg : ℕ} (hs : 1 ≤ seg) (fuel : ℕ) : ∀ (n : ℕ) (e : ℤ) (vp : List M),
    e + 1 ≤ fuel - 1 → 1 ≤ fuel → e ≤ vp.length →
    ∃ v, flipLeft seg fuel n e vp = .ok v ∧ v.length = vp.length ∧
      ∀ i < vp.length, v.getD i 0 =
        if (i : ℤ) < e ∧ ((e - 1 - i).toNat / seg + n) % 2 = 1 then -vp.getD i 0 else vp.getD i 0 := by
  induction fuel with
  | zero => intro n e vp _ h; omega
  | succ fuel ih =>
    intro n e vp hf _ hel
    unfold flipLeft
    by_cases he : 0 ≤ e
    · rw [if_pos he]
      simp only
      set vp' := if n % 2 = 1 then negSlice vp (max 0 (e - seg)).toNat e.toNat else vp with hvp'
      have hl' : vp'.length = vp.length := by
        rw [hvp']; split_ifs
        · exact negSlice_length _ _ _
        · rfl
      obtain ⟨v, hv, hvl, hval⟩ := ih (n + 1) (e - seg) vp' (by omega) (by omega) (by omega)
      refine ⟨v, hv, by omega, ?_⟩
      intro i hi
      rw [hval i (by omega)]
      have hvi : vp'.getD i 0 = if n % 2 = 1 ∧ e - seg ≤ i ∧ (i : ℤ) < e then -vp.getD i 0 else vp.getD i 0 := by
        rw [hvp']
        by_cases hn : n % 2 = 1
        · rw [if_pos hn, negSlice_getD]
          simp only [hn, true_and]
          have : ((max 0 (e - ↑seg)).toNat ≤ i ∧ i < e.toNat) ↔ (e - seg ≤ (i : ℤ) ∧ (i : ℤ) < e) := by omega
          simp only [this]
        · rw [if_neg hn, if_neg (by omega)]
      rw [hvi]
      by_cases h1 : (i : ℤ) < e - seg
      · have hdiv : (e - 1 - i).toNat / seg = (e - seg - 1 - i).toNat / seg + 1 := by
          rw [show (e - 1 - i).toNat = (e - seg - 1 - i).toNat + seg by omega, Nat.add_div_right _ (by omega)]
        rw [hdiv, if_neg (show ¬ (n % 2 = 1 ∧ e - (seg : ℤ) ≤ i ∧ (i : ℤ) < e) by omega),
          show (e - seg - 1 - (i : ℤ)).toNat / seg + 1 + n = (e - seg - 1 - (i : ℤ)).toNat / seg + (n + 1) by ring]
        simp only [h1, true_and, show (i : ℤ) < e by omega]
      · simp only [h1, false_and, if_false]
        by_cases h2 : (i : ℤ) < e
        · rw [Nat.div_eq_of_lt (by omega : (e - 1 - i).toNat < seg), Nat.zero_add]
          simp only [h2, true_and, and_true, show e - (seg : ℤ) ≤ i by omega]
        · simp only [h2, false_and, and_false, if_false]
    · rw [if_neg he]
      refine ⟨vp, rfl, rfl, ?_⟩
      intro i hi
      rw [if_neg (by omega)]

theorem asym_of_symm (h : 1 ≤ x.length) (p : ℤ) : Spec.ext .antisymmetric x p =
    if (p / x.length) % 2 = 1 then -Spec.ext .symmetric x p else Spec.ext .symmetric x p := by
  have hN : (0 : ℤ) < x.length := by omega
  obtain ⟨q, k, hk, hp | hp⟩ := symm_cases h p
  · rw [ext_asym_lo x hk hp, ext_symm_lo x hk hp]
    have : p / x.length = 2 * q := ediv_of (r := k) (by rw [hp]; ring) (by omega) (by omega)
    rw [this, if_neg (by omega)]
  · rw [ext_asym_hi x hk hp, ext_symm_hi x hk hp]
    have : p / x.length = 2 * q + 1 := ediv_of (r := x.length - 1 - k) (by rw [hp]; ring) (by omega) (by omega)
    rw [this, if_pos (by omega)]

theorem padAntisymmetric_ok (hN : 1 ≤ x.length) (l : ℕ) {r : ℕ} (hr : 1 ≤ r) :
    npPadWith padAntisymmetric x l r = .ok (window (Spec.ext .antisymmetric x) l (l + x.length + r)) := by
  unfold npPadWith padAntisymmetric
  have hlen : (List.replicate l 0 ++ x ++ List.replicate r 0).length = l + x.length + r := by simp; omega
  have hin : sliceInner (List.replicate l 0 ++ x ++ List.replicate r 0) l r = x := by
    unfold sliceInner
    rw [if_neg (by omega), hlen, List.take_append_of_le_length (by simp),
      List.take_of_length_le (by simp), List.drop_append_of_le_length (by simp)]
    simp
  simp only [hlen, hin, npPad_ok (m := .symmetric) (x := x) ⟨hN, by simp [NpMode.toMode]⟩, Py_bind_ok,
    window_length, ne_eq, not_true_eq_false, if_false, show l + x.length + r - l - r = x.length by omega]
  obtain ⟨v, hv, hvl, hval⟩ := flipRight_ok hN (l + x.length + r + 3) 1 (l + x.length)
    (window (Spec.ext .symmetric x) l (l + x.length + r)) (by rw [window_length]; omega) (by omega)
  rw [window_length] at hvl hval
  obtain ⟨v2, hv2, hvl2, hval2⟩ := flipLeft_ok hN (l + x.length + r + 3) 1 (l : ℤ) v (by push_cast; omega) (by omega)
    (by rw [hvl]; push_cast; omega)
  rw [hvl] at hvl2 hval2
  change (do
    let _ ← (Except.ok () : Py Unit)
    let vp ← flipRight x.length (l + x.length + r + 3) 1 (l + x.length)
      (window (Spec.ext .symmetric x) l (l + x.length + r))
    flipLeft x.length (l + x.length + r + 3) 1 (l : ℤ) vp) = _
  simp only [Py_bind_ok, hv, hv2]
  congr 1
  apply List.ext_getElem
  · rw [hvl2, window_length]
  intro i h1 h2
  rw [window_length] at h2
  rw [← List.getD_eq_getElem _ 0, ← List.getD_eq_getElem _ 0, window_getD _ _ h2, hval2 i h2, hval i h2,
    window_getD _ _ h2, asym_of_symm hN]
  have hNz : (0 : ℤ) < x.length := by omega
  by_cases hi : i < l
  · have hdiv : ((i : ℤ) - l) / x.length = -(((l - 1 - i) / x.length : ℕ) : ℤ) - 1 := by
      have h3 := Nat.div_add_mod (l - 1 - i) x.length
      have h4 := Nat.mod_lt (l - 1 - i) (y := x.length) (by omega)
      apply ediv_of (r := (x.length : ℤ) - 1 - ((l - 1 - i) % x.length : ℕ))
      · have : ((l - 1 - i : ℕ) : ℤ) = l - 1 - i := by omega
        have h5 : ((x.length * ((l - 1 - i) / x.length) + (l - 1 - i) % x.length : ℕ) : ℤ) = l - 1 - i := by
          rw [h3]; exact this
        push_cast at h5
        push_cast
        linear_combination h5
      · omega
      · omega
    rw [hdiv, show ((l : ℤ) - 1 - i).toNat = l - 1 - i by omega]
    simp only [show ¬ (l + x.length ≤ i) by omega, false_and, if_false, show (i : ℤ) < l by omega, true_and]
    have : ((l - 1 - i) / x.length + 1) % 2 = 1 ↔ (-(((l - 1 - i) / x.length : ℕ) : ℤ) - 1) % 2 = 1 := by omega
    simp only [this]
  · simp only [show ¬ ((i : ℤ) < l) by omega, false_and, if_false]
    by_cases hi2 : l + x.length ≤ i
    · have hdiv : ((i : ℤ) - l) / x.length = ((i - (l + x.length)) / x.length : ℕ) + 1 := by
        have h3 := Nat.div_add_mod (i - (l + x.length)) x.length
        have h4 := Nat.mod_lt (i - (l + x.length)) (y := x.length) (by omega)
        apply ediv_of (r := ((i - (l + x.length)) % x.length : ℕ))
        · have h5 : ((x.length * ((i - (l + x.length)) / x.length) + (i - (l + x.length)) % x.length : ℕ) : ℤ) =
            i - (l + x.length) := by
            rw [h3]; omega
          push_cast at h5
          push_cast
          linear_combination -h5
        · omega
        · omega
      rw [hdiv]
      simp only [hi2, true_and]
      have : ((i - (l + x.length)) / x.length + 1) % 2 = 1 ↔
          ((((i - (l + x.length)) / x.length : ℕ) : ℤ) + 1) % 2 = 1 := by omega
      simp only [this]
    · simp only [hi2, false_and, if_false]
      have : ((i : ℤ) - l) / x.length = 0 := ediv_of (r := (i : ℤ) - l) (by ring) (by omega) (by omega)
      rw [this]
      simp

theorem periodization_pre (h : 1 ≤ x.length) : npPad .edge x 0 (x.length % 2) = .ok (evenPad x) := by
  rw [npPad_ok (m := .edge) ⟨h, by simp [NpMode.toMode]⟩]
  congr 1
  apply List.ext_getElem
  · rw [window_length, evenPad_length]; omega
  intro i h1 h2
  rw [window_length] at h1
  rw [← List.getD_eq_getElem _ 0, ← List.getD_eq_getElem _ 0, window_getD _ _ h1]
  simp only [Nat.cast_zero, sub_zero, NpMode.toMode]
  by_cases hi : i < x.length
  · rw [ext_in x .constant hi]
    unfold evenPad
    split_ifs
    · rw [List.getD_append _ _ _ _ hi]
    · rfl
  · rw [ext_const_hi x (by omega) h]
    unfold evenPad
    rw [if_pos (by omega), List.getD_append_right _ _ _ _ (by omega), show i - x.length = 0 by omega]
    simp only [List.getD_cons_zero]
    exact (at'_of (by omega)).symm

theorem pad_ok {mode : Mode} (h : LenOk mode x.length) (l r : ℕ) (hsm : mode = .smooth → 2 ≤ x.length ∧ 1 ≤ r)
    (has : mode = .antisymmetric → 1 ≤ r) :
    pad x l r (modeName mode) = .ok (window (Spec.ext mode x) l
      (l + (if mode = .periodization then x.length + x.length % 2 else x.length) + r)) := by
  unfold pad
  rw [if_neg (by omega)]
  simp only [Int.toNat_natCast]
  obtain ⟨h1, h2⟩ := h
  cases mode with
  | zero => exact npPad_ok (m := .constant) ⟨h1, by simp [NpMode.toMode]⟩ l r
  | symmetric => exact npPad_ok (m := .symmetric) ⟨h1, by simp [NpMode.toMode]⟩ l r
  | constant => exact npPad_ok (m := .edge) ⟨h1, by simp [NpMode.toMode]⟩ l r
  | smooth => exact padSmooth_ok (hsm rfl).1 l (hsm rfl).2
  | periodic => exact npPad_ok (m := .wrap) ⟨h1, by simp [NpMode.toMode]⟩ l r
  | periodization =>
    change (do
      let x ← npPad .edge x 0 (x.length % 2)
      npPad .wrap x l r) = _
    rw [periodization_pre h1]
    simp only [Py_bind_ok, if_true]
    rw [npPad_ok (m := .wrap) ⟨by rw [evenPad_length]; omega, by simp [NpMode.toMode]⟩, evenPad_length]
    rfl
  | reflect => exact npPad_ok (m := .reflect) ⟨h1, fun _ => h2 (by simp)⟩ l r
  | antisymmetric => exact padAntisymmetric_ok h1 l (has rfl)
  | antireflect => exact npPad_ok (m := .reflectOdd) ⟨h1, fun _ => h2 (by simp)⟩ l r

/-! ### The transform of the padded signal -/

variable {R : Type} [Ring R] [Module R M]

theorem conv_window (f : List R) (e : ℤ → M) (l : ℕ) {len : ℕ} {p : ℤ} (h0 : (f.length : ℤ) - 1 ≤ p)
    (h1 : p < len) : conv f (Spec.ext .zero (window e l len)) p = conv f e (p - l) := by
  unfold conv
  apply sum_congr rfl
  intro j hj
  simp only [mem_range] at hj
  congr 1
  have hk : (p - j).toNat < (window e l len).length := by rw [window_length]; omega
  have := ext_in (window e l len) .zero hk
  rw [show (((p - j).toNat : ℕ) : ℤ) = p - j by omega] at this
  rw [this, window_getD _ _ (by omega)]
  congr 1
  omega

theorem analysis_nonper {mode : Mode} (hm : mode ≠ .periodization) (f : List R) (x : List M) :
    analysis mode f x = (List.range ((x.length + f.length - 1) / 2)).map fun o : ℕ =>
      conv f (Spec.ext mode x) (2 * (o : ℤ) + 1) := by
  cases mode <;> first | rfl | exact absurd rfl hm

theorem analysis_window {mode : Mode} (hm : mode ≠ .periodization) (f : List R) {k r : ℕ}
    (hl : f.length ≤ 2 * k + 2) (hr : f.length ≤ r + 1) :
    ((analysis .zero f (window (Spec.ext mode x) (2 * k) (2 * k + x.length + r))).drop k).take
      ((x.length + f.length - 1) / 2) = analysis mode f x := by
  rw [analysis_nonper hm, analysis_nonper (by simp), window_length]
  apply List.ext_getElem
  · simp; omega
  intro o h1 h2
  simp only [List.length_map, List.length_range] at h2
  simp only [List.getElem_take, List.getElem_drop, List.getElem_map, List.getElem_range]
  rw [conv_window _ _ _ (by push_cast; omega) (by push_cast; omega)]
  congr 1
  push_cast
  ring

theorem analysis_window_per (f : List R) {l r k : ℕ} (hk : l + f.length / 2 = 2 * k + 1)
    (hl : f.length ≤ 2 * k + 2) (hr : f.length / 2 ≤ r + 1) :
    ((analysis .zero f (window (Spec.ext .periodization x) l (l + (x.length + x.length % 2) + r))).drop k).take
      ((x.length + 1) / 2) = analysis .periodization f x := by
  rw [analysis_nonper (by simp), window_length]
  unfold analysis
  apply List.ext_getElem
  · simp; omega
  intro o h1 h2
  simp only [List.length_map, List.length_range] at h2
  simp only [List.getElem_take, List.getElem_drop, List.getElem_map, List.getElem_range]
  rw [conv_window _ _ _ (by push_cast; omega) (by push_cast; omega)]
  congr 1
  push_cast
  omega

end Pywt
