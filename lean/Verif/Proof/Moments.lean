import Verif.Spec.Moments
import Verif.Proof.Dwt
import Verif.Proof.Multi
import Mathlib.Algebra.BigOperators.Ring.Finset
import Mathlib.Algebra.Module.BigOperators
import Mathlib.Data.Nat.Choose.Sum
import Mathlib.Data.List.GetD
import Mathlib.Tactic.Ring

/-!
# Interior coefficients, polynomial signals and vanishing moments
-/

set_option linter.unusedSectionVars false

namespace Pywt
open Spec Finset

/-! ### Polynomials -/

section Poly
variable {R M : Type} [CommRing R] [AddCommGroup M] [Module R M]

/-- Polynomials are closed under affine changes of the variable. -/
theorem Spec.IsPoly.affine {p : ℕ} {e : ℤ → M} (h : IsPoly R p e) (α β : ℤ) :
    IsPoly R p fun n => e (α * n + β) := by
  obtain ⟨c, hc⟩ := h
  refine ⟨fun l => ∑ i ∈ range p, ((if l ≤ i then (α : R) ^ l * (β : R) ^ (i - l) * (i.choose l : R) else 0) • c i), ?_⟩
  intro n
  show e (α * n + β) = _
  rw [hc]
  have h1 : ∀ i ∈ range p, (((α * n + β : ℤ) : R)) ^ i • c i =
      ∑ l ∈ range p, (n : R) ^ l • (if l ≤ i then (α : R) ^ l * (β : R) ^ (i - l) * (i.choose l : R) else 0) • c i := by
    intro i hi
    rw [mem_range] at hi
    push_cast
    rw [add_pow, Finset.sum_smul]
    have : ∑ l ∈ range p, (n : R) ^ l • (if l ≤ i then (α : R) ^ l * (β : R) ^ (i - l) * (i.choose l : R) else 0) • c i =
        ∑ l ∈ range (i + 1), (n : R) ^ l • (if l ≤ i then (α : R) ^ l * (β : R) ^ (i - l) * (i.choose l : R) else 0) • c i := by
      symm
      apply Finset.sum_subset
      · intro l hl; rw [mem_range] at *; omega
      · intro l _ hl
        rw [mem_range] at hl
        rw [if_neg (by omega), zero_smul, smul_zero]
    rw [this]
    refine sum_congr rfl fun l hl => ?_
    rw [mem_range] at hl
    rw [if_pos (by omega), smul_smul, mul_pow]
    congr 1
    ring
  rw [sum_congr rfl h1, sum_comm]
  refine sum_congr rfl fun l _ => ?_
  rw [Finset.smul_sum]

theorem Spec.IsPoly.zero (p : ℕ) : IsPoly R p fun _ => (0 : M) := ⟨fun _ => 0, by simp⟩

theorem Spec.IsPoly.smul {p : ℕ} {e : ℤ → M} (h : IsPoly R p e) (a : R) : IsPoly R p fun n => a • e n := by
  obtain ⟨c, hc⟩ := h
  refine ⟨fun i => a • c i, fun n => ?_⟩
  show a • e n = _
  rw [hc, Finset.smul_sum]
  exact sum_congr rfl fun i _ => smul_comm _ _ _

theorem Spec.IsPoly.sum {p : ℕ} {ι : Type} (s : Finset ι) {e : ι → ℤ → M} (h : ∀ j, IsPoly R p (e j)) :
    IsPoly R p fun n => ∑ j ∈ s, e j n := by
  choose c hc using h
  refine ⟨fun i => ∑ j ∈ s, c j i, fun n => ?_⟩
  simp only [hc, Finset.smul_sum]
  exact sum_comm

/-- Filtering and any affine resampling keep polynomials polynomial. -/
theorem Spec.IsPoly.filter {p : ℕ} {e : ℤ → M} (h : IsPoly R p e) (f : List R) (α β s : ℤ) :
    IsPoly R p fun n => ∑ j ∈ range f.length, f.getD j 0 • e (α * n + β - s * j) :=
  IsPoly.sum (ι := ℕ) _ fun j => (by simpa [add_sub_assoc] using (h.affine α (β - s * j)).smul (f.getD j 0))

/-- A filter with `p` vanishing moments kills polynomials of degree below `p`. -/
theorem Spec.IsPoly.vanish {p : ℕ} {e : ℤ → M} (h : IsPoly R p e) {f : List R} (hf : Vanishing p f) (m s : ℤ) :
    ∑ j ∈ range f.length, f.getD j 0 • e (m - s * j) = 0 := by
  obtain ⟨c, hc⟩ := h.affine (-s) m
  have : ∀ j ∈ range f.length, f.getD j 0 • e (m - s * j) =
      ∑ i ∈ range p, (f.getD j 0 * (j : R) ^ i) • c i := by
    intro j _
    have := hc j
    simp only at this
    rw [show m - s * j = -s * (j : ℤ) + m by ring, this, Finset.smul_sum]
    refine sum_congr rfl fun i _ => ?_
    rw [smul_smul]; push_cast; rfl
  rw [sum_congr rfl this, sum_comm]
  refine sum_eq_zero fun i hi => ?_
  rw [← Finset.sum_smul]
  have := hf i (mem_range.mp hi)
  rw [moment] at this
  rw [this, zero_smul]

end Poly

/-! ### Interior coefficients -/

section Interior
variable {R M : Type} [Ring R] [AddCommGroup M] [Module R M]

theorem ext_inside {mode : Mode} {x : List M} {n : ℕ} (hn : n < x.length) :
    Spec.ext mode x (n : ℤ) = x.getD n 0 := by
  have h0 : at' x (n : ℤ) = x.getD n 0 := by simp [at']
  have hm2 : ((n : ℤ) % (2 * (x.length : ℤ))) = n := Int.emod_eq_of_lt (by omega) (by omega)
  have hr : ((n : ℤ) % (2 * ((x.length : ℤ) - 1))) = n ∧ ((n : ℤ) / (2 * ((x.length : ℤ) - 1))) = 0 := by
    by_cases h1 : x.length = 1
    · have : n = 0 := by omega
      simp [h1, this]
    · exact ⟨Int.emod_eq_of_lt (by omega) (by omega), Int.ediv_eq_zero_of_lt (by omega) (by omega)⟩
  have hnl : (n : ℤ) < x.length := by omega
  cases mode
  case zero => simp [Spec.ext, hnl, h0]
  case symmetric => simp [Spec.ext, hm2, hnl, h0]
  case constant => simp [Spec.ext, hnl, h0]
  case smooth =>
    by_cases h2 : (x.length : ℤ) < 2
    · have : n = 0 := by omega
      subst this
      simp [Spec.ext, h2, at']
    · simp [Spec.ext, h2, hnl, h0, show ¬ ((n : ℤ) < 0) by omega]
  case periodic => simp [Spec.ext, Int.emod_eq_of_lt (by omega : (0 : ℤ) ≤ n) hnl, h0]
  case periodization =>
    have hl : n < (evenPad x).length := by
      unfold evenPad; split
      · simp; omega
      · exact hn
    have : (n : ℤ) % ((evenPad x).length : ℤ) = n := Int.emod_eq_of_lt (by omega) (by omega)
    simp only [Spec.ext, this]
    rw [show at' (evenPad x) (n : ℤ) = (evenPad x).getD n 0 by simp [at']]
    unfold evenPad
    split
    · rw [List.getD_append _ _ _ _ hn]
    · rfl
  case reflect => simp [Spec.ext, hr.1, hnl, h0]
  case antisymmetric => simp [Spec.ext, hm2, hnl, h0]
  case antireflect => simp [Spec.ext, hr.1, hr.2, hnl, h0]

theorem analysis_getD {mode : Mode} {f : List R} {x : List M} {k : ℕ}
    (hk : k < coeffLen mode x.length f.length) :
    (analysis mode f x).getD k 0 = conv f (Spec.ext mode x) (lastIdx mode f.length k : ℕ) := by
  rw [List.getD_eq_getElem (hn := by rw [analysis_length]; exact hk)]
  cases mode <;> simp [analysis, lastIdx]

/-- Interior coefficients of one step. -/
theorem analysis_inside {mode : Mode} {f : List R} {x : List M} {k : ℕ} (hF : 2 ≤ f.length)
    (h1 : f.length - 1 ≤ lastIdx mode f.length k) (h2 : lastIdx mode f.length k < x.length) :
    k < (analysis mode f x).length ∧ (analysis mode f x).getD k 0 =
      ∑ i ∈ range f.length, f.getD i 0 • x.getD (lastIdx mode f.length k - i) 0 := by
  have hk : k < coeffLen mode x.length f.length := by
    unfold lastIdx at h1 h2
    unfold coeffLen
    split_ifs at * <;> omega
  refine ⟨by rw [analysis_length]; exact hk, ?_⟩
  rw [analysis_getD hk, conv]
  refine sum_congr rfl fun i hi => ?_
  rw [mem_range] at hi
  rw [← Nat.cast_sub (by omega), ext_inside (by omega)]

/-- The cascade of a bi-infinite signal. -/
def apxZ (mode : Mode) (lo : List R) (e : ℤ → M) : ℕ → ℤ → M
  | 0 => e
  | j + 1 => fun k => conv lo (apxZ mode lo e j)
      (if mode = .periodization then ((lo.length / 2 : ℕ) : ℤ) + 2 * k else 2 * k + 1)

theorem windowEnd_succ (mode : Mode) (F j k : ℕ) :
    windowEnd mode F (j + 1) k = windowEnd mode F j (lastIdx mode F k) := by
  have hp : 1 ≤ 2 ^ j := Nat.one_le_two_pow
  unfold windowEnd lastIdx
  split_ifs
  · obtain ⟨q, hq⟩ : ∃ q, 2 ^ j = q + 1 := ⟨2 ^ j - 1, by omega⟩
    rw [pow_succ, hq, show (q + 1) * 2 - 1 = 2 * q + 1 by omega, show q + 1 - 1 = q by omega]
    ring
  · congr 1
    rw [pow_succ]; ring

theorem windowEnd_sub (mode : Mode) (F j : ℕ) {k i : ℕ} (hi : i ≤ k) :
    windowEnd mode F j (k - i) + 2 ^ j * i = windowEnd mode F j k := by
  have hp : 1 ≤ 2 ^ j := Nat.one_le_two_pow
  obtain ⟨m, rfl⟩ : ∃ m, k = m + i := ⟨k - i, by omega⟩
  rw [Nat.add_sub_cancel]
  unfold windowEnd
  split_ifs
  · ring
  · have : 2 ^ j * (m + 1) ≥ 1 := by nlinarith
    rw [show 2 ^ j * (m + i + 1) = 2 ^ j * (m + 1) + 2 ^ j * i by ring]
    omega

theorem le_windowEnd (mode : Mode) (F j k : ℕ) : k ≤ windowEnd mode F j k := by
  have hp : 1 ≤ 2 ^ j := Nat.one_le_two_pow
  unfold windowEnd
  split_ifs
  · nlinarith [Nat.zero_le (F / 2 * (2 ^ j - 1))]
  · have : 2 ^ j * (k + 1) ≥ k + 1 := by nlinarith
    omega

theorem interior_step {mode : Mode} {F N j k : ℕ} (hF : 2 ≤ F) (h : Interior mode F N (j + 1) k) :
    F - 1 ≤ lastIdx mode F k ∧
    ∀ i < F, Interior mode F N j (lastIdx mode F k - i) ∧
      ∀ n, InWindow mode F j (lastIdx mode F k - i) n → InWindow mode F (j + 1) k n := by
  obtain ⟨h1, h2⟩ := h
  have hp : 1 ≤ 2 ^ j := Nat.one_le_two_pow
  rw [windowEnd_succ] at h1 h2
  have hsplit : (F - 1) * (2 ^ (j + 1) - 1) = (F - 1) * (2 ^ j - 1) + 2 ^ j * (F - 1) := by
    rw [pow_succ, show 2 ^ j * 2 - 1 = (2 ^ j - 1) + 2 ^ j by omega]; ring
  have hlast : F - 1 ≤ lastIdx mode F k := by
    rw [hsplit] at h1
    unfold windowEnd at h1
    unfold lastIdx
    unfold lastIdx at h1
    by_contra hlt
    split_ifs at h1 hlt
    · have hh : F / 2 + 2 * k + 1 ≤ F - 1 := by omega
      have hF2 : F / 2 ≤ F - 1 := by omega
      have g1 := Nat.mul_le_mul_left (2 ^ j) hh
      have g2 := Nat.mul_le_mul_right (2 ^ j - 1) hF2
      rw [Nat.mul_add (2 ^ j) (F / 2 + 2 * k) 1] at g1
      generalize 2 ^ j * (F / 2 + 2 * k) = u at *
      omega
    · have hh : 2 * k + 1 + 1 ≤ F - 1 := by omega
      have g1 := Nat.mul_le_mul_left (2 ^ j) hh
      have g2 : 1 ≤ 2 ^ j * (2 * k + 1 + 1) := by nlinarith
      generalize 2 ^ j * (2 * k + 1 + 1) = u at *
      generalize 2 ^ j * (F - 1) = v at *
      generalize (F - 1) * (2 ^ j - 1) = t at *
      omega
  refine ⟨hlast, fun i hi => ?_⟩
  have hs := windowEnd_sub mode F j (k := lastIdx mode F k) (i := i) (by omega)
  have hii : 2 ^ j * i ≤ 2 ^ j * (F - 1) := Nat.mul_le_mul_left _ (by omega)
  refine ⟨⟨by omega, by omega⟩, ?_⟩
  intro n hn
  obtain ⟨g1, g2⟩ := hn
  unfold InWindow
  rw [windowEnd_succ, hsplit]
  exact ⟨by omega, by omega⟩

/-- An interior approximation coefficient is the coefficient of any bi-infinite signal that agrees with
the signal on the samples it looks at. -/
theorem approx_interior {mode : Mode} {lo : List R} (hF : 2 ≤ lo.length) {x : List M} {e : ℤ → M} (j : ℕ) :
    ∀ k, Interior mode lo.length x.length j k →
      (∀ n, InWindow mode lo.length j k n → x.getD n 0 = e n) →
      k < (approx mode lo j x).length ∧ (approx mode lo j x).getD k 0 = apxZ mode lo e j k := by
  induction j with
  | zero =>
    intro k hi he
    have hw : windowEnd mode lo.length 0 k = k := by unfold windowEnd; split_ifs <;> simp
    obtain ⟨_, h2⟩ := hi
    rw [hw] at h2
    refine ⟨h2, ?_⟩
    have := he k ⟨by rw [hw]; omega, by rw [hw]⟩
    simpa [approx, apxZ] using this
  | succ j ih =>
    intro k hi he
    obtain ⟨hl, hstep⟩ := interior_step hF hi
    have hall : ∀ i < lo.length, _ := fun i hi' =>
      ih (lastIdx mode lo.length k - i) (hstep i hi').1 (fun n hn => he n ((hstep i hi').2 n hn))
    have e1 : approx mode lo (j + 1) x = analysis mode lo (approx mode lo j x) := by
      unfold approx; rw [Function.iterate_succ_apply']
    rw [e1]
    obtain ⟨g1, g2⟩ := analysis_inside (mode := mode) (x := approx mode lo j x) hF hl (hall 0 (by omega)).1
    refine ⟨g1, ?_⟩
    rw [g2]
    simp only [apxZ, conv]
    refine sum_congr rfl fun i hi' => ?_
    rw [mem_range] at hi'
    rw [(hall i hi').2, Nat.cast_sub (by omega)]
    congr 2
    unfold lastIdx
    split_ifs <;> push_cast <;> rfl

/-- The same for detail coefficients. -/
theorem detail_interior {mode : Mode} {lo hi : List R} (hF : 2 ≤ lo.length) (hh : hi.length = lo.length)
    {x : List M} {e : ℤ → M} {j k : ℕ} (hi' : Interior mode lo.length x.length (j + 1) k)
    (he : ∀ n, InWindow mode lo.length (j + 1) k n → x.getD n 0 = e n) :
    k < (detail mode lo hi j x).length ∧ (detail mode lo hi j x).getD k 0 =
      conv hi (apxZ mode lo e j) (lastIdx mode lo.length k : ℕ) := by
  obtain ⟨hl, hstep⟩ := interior_step hF hi'
  have hall : ∀ i < lo.length, _ := fun i hi' =>
    approx_interior (mode := mode) hF j (lastIdx mode lo.length k - i) (hstep i hi').1
      (fun n hn => he n ((hstep i hi').2 n hn))
  rw [← hh] at hl
  obtain ⟨g1, g2⟩ := analysis_inside (mode := mode) (f := hi) (x := approx mode lo j x) (k := k) (by omega)
    hl (by rw [hh]; exact (hall 0 (by omega)).1)
  refine ⟨g1, ?_⟩
  unfold detail
  rw [g2, conv]
  refine sum_congr rfl fun i hi' => ?_
  rw [mem_range, hh] at hi'
  rw [hh] at hl ⊢
  rw [(hall i hi').2, Nat.cast_sub (by omega)]

/-- The bi-infinite cascade commutes with shifts by `2^j`. -/
theorem apxZ_shift (mode : Mode) (lo : List R) (e : ℤ → M) (s : ℤ) (j : ℕ) (k : ℤ) :
    apxZ mode lo (fun n => e (n - 2 ^ j * s)) j (k + s) = apxZ mode lo e j k := by
  induction j generalizing s k with
  | zero => simp [apxZ]
  | succ j ih =>
    simp only [apxZ, conv]
    refine sum_congr rfl fun i _ => ?_
    have := ih (2 * s) ((if mode = .periodization then ((lo.length / 2 : ℕ) : ℤ) + 2 * k else 2 * k + 1) - i)
    rw [← this]
    have e1 : (fun n : ℤ => e (n - 2 ^ (j + 1) * s)) = fun n : ℤ => e (n - 2 ^ j * (2 * s)) := by
      funext n; rw [pow_succ, mul_assoc]
    rw [e1]
    congr 2
    split_ifs <;> ring

/-- The bi-infinite cascade depends only on the signal. -/
theorem apxZ_modes {m1 m2 : Mode} (h : m1 = .periodization ↔ m2 = .periodization) (lo : List R)
    (e : ℤ → M) (j : ℕ) : apxZ m1 lo e j = apxZ m2 lo e j := by
  induction j with
  | zero => rfl
  | succ j ih => simp only [apxZ, ih, h]

end Interior

section PolyCascade
variable {R M : Type} [CommRing R] [AddCommGroup M] [Module R M]

theorem Spec.IsPoly.apxZ {p : ℕ} {e : ℤ → M} (h : IsPoly R p e) (mode : Mode) (lo : List R) (j : ℕ) :
    IsPoly R p (apxZ mode lo e j) := by
  induction j with
  | zero => exact h
  | succ j ih =>
    simp only [Pywt.apxZ, conv]
    split_ifs
    · have := ih.filter lo 2 ((lo.length / 2 : ℕ) : ℤ) 1
      simpa [add_comm] using this
    · simpa using ih.filter lo 2 1 1

theorem conv_vanish {p : ℕ} {e : ℤ → M} (h : IsPoly R p e) {f : List R} (hf : Vanishing p f) (m : ℤ) :
    conv f e m = 0 := by
  have := h.vanish hf m 1
  simpa [conv] using this

end PolyCascade

end Pywt
