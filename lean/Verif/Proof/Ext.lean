import Verif.Proof.Loop
import Mathlib.Data.List.GetD
import Mathlib.Tactic.Abel
import Mathlib.Tactic.Module

/-! Values of the extensions at the positions the kernels visit. -/

namespace Pywt
namespace Spec

variable {M : Type} [AddCommGroup M]

theorem at'_nat (x : List M) (k : ℕ) : at' x (k : ℤ) = x.getD k 0 := by simp [at']

theorem at'_of {x : List M} {p : ℤ} {k : ℕ} (h : p = k) : at' x p = x.getD k 0 := by
  subst h; exact at'_nat x k

theorem emod_of {p P r q : ℤ} (h : p = P * q + r) (h0 : 0 ≤ r) (h1 : r < P) : p % P = r := by
  rw [h, Int.mul_add_emod_self_left, Int.emod_eq_of_lt h0 h1]

theorem ediv_of {p P r q : ℤ} (h : p = P * q + r) (h0 : 0 ≤ r) (h1 : r < P) : p / P = q := by
  have hP : P ≠ 0 := by omega
  rw [h, add_comm, Int.add_mul_ediv_left _ _ hP, Int.ediv_eq_zero_of_lt h0 h1, zero_add]

variable (x : List M)

theorem ext_zero_in {k : ℕ} (hk : k < x.length) : ext .zero x (k : ℤ) = x.getD k 0 := by
  have : (0 : ℤ) ≤ k ∧ (k : ℤ) < x.length := by omega
  simp [ext, this, at'_nat]

theorem ext_zero_out {p : ℤ} (hp : p < 0 ∨ (x.length : ℤ) ≤ p) : ext .zero x p = 0 := by
  have : ¬ ((0 : ℤ) ≤ p ∧ p < x.length) := by omega
  simp only [ext, this, if_false]

theorem ext_const_neg {p : ℤ} (hp : p < 0) : ext .constant x p = x.getD 0 0 := by
  simp [ext, hp, at']

theorem ext_const_hi {p : ℤ} (hp : (x.length : ℤ) ≤ p) (h : 0 < x.length) :
    ext .constant x p = x.getD (x.length - 1) 0 := by
  have h1 : ¬ p < 0 := by omega
  have h2 : ¬ p < x.length := by omega
  simp only [ext, h1, h2, if_false]
  exact at'_of (by omega)

theorem ext_symm_lo {p q : ℤ} {k : ℕ} (hk : k < x.length) (hp : p = 2 * x.length * q + k) :
    ext .symmetric x p = x.getD k 0 := by
  have hr : p % (2 * x.length) = k := emod_of hp (by omega) (by omega)
  have h1 : (k : ℤ) < x.length := by omega
  simp only [ext, hr, h1, if_true, at'_nat]

theorem ext_symm_hi {p q : ℤ} {k : ℕ} (hk : k < x.length)
    (hp : p = 2 * x.length * q + (2 * x.length - 1 - k)) :
    ext .symmetric x p = x.getD k 0 := by
  have hr : p % (2 * x.length) = 2 * x.length - 1 - k := emod_of hp (by omega) (by omega)
  have h1 : ¬ (2 * (x.length : ℤ) - 1 - k < x.length) := by omega
  simp only [ext, hr, h1, if_false]
  exact at'_of (by omega)

theorem ext_asym_lo {p q : ℤ} {k : ℕ} (hk : k < x.length) (hp : p = 2 * x.length * q + k) :
    ext .antisymmetric x p = x.getD k 0 := by
  have hr : p % (2 * x.length) = k := emod_of hp (by omega) (by omega)
  have h1 : (k : ℤ) < x.length := by omega
  simp only [ext, hr, h1, if_true, at'_nat]

theorem ext_asym_hi {p q : ℤ} {k : ℕ} (hk : k < x.length)
    (hp : p = 2 * x.length * q + (2 * x.length - 1 - k)) :
    ext .antisymmetric x p = - x.getD k 0 := by
  have hr : p % (2 * x.length) = 2 * x.length - 1 - k := emod_of hp (by omega) (by omega)
  have h1 : ¬ (2 * (x.length : ℤ) - 1 - k < x.length) := by omega
  simp only [ext, hr, h1, if_false]
  rw [at'_of (k := k) (by omega)]

theorem ext_refl_lo {p q : ℤ} {k : ℕ} (hk : k < x.length) (hN : 2 ≤ x.length)
    (hp : p = 2 * (x.length - 1) * q + k) :
    ext .reflect x p = x.getD k 0 := by
  have hr : p % (2 * (x.length - 1)) = k := emod_of hp (by omega) (by omega)
  have h1 : (k : ℤ) < x.length := by omega
  simp only [ext, hr, h1, if_true, at'_nat]

theorem ext_refl_hi {p q : ℤ} {k : ℕ} (hk0 : 1 ≤ k) (hk : k < x.length) (hN : 2 ≤ x.length)
    (hp : p = 2 * (x.length - 1) * q + (2 * (x.length - 1) - k)) :
    ext .reflect x p = x.getD k 0 := by
  have hr : p % (2 * (x.length - 1)) = 2 * (x.length - 1) - k := emod_of hp (by omega) (by omega)
  by_cases h1 : 2 * ((x.length : ℤ) - 1) - k < x.length
  · simp only [ext, hr, h1, if_true]
    exact at'_of (by omega)
  · simp only [ext, hr, h1, if_false]
    exact at'_of (by omega)

theorem ext_arefl_lo {p q : ℤ} {k : ℕ} (hk : k < x.length) (hN : 2 ≤ x.length)
    (hp : p = 2 * (x.length - 1) * q + k) :
    ext .antireflect x p =
      (2 * q) • (x.getD (x.length - 1) 0 - x.getD 0 0) + x.getD k 0 := by
  have hr : p % (2 * (x.length - 1)) = k := emod_of hp (by omega) (by omega)
  have hq : p / (2 * (x.length - 1)) = q := ediv_of hp (by omega) (by omega)
  have h1 : (k : ℤ) < x.length := by omega
  simp only [ext, hr, hq, h1, if_true, at'_nat]
  rw [at'_of (k := x.length - 1) (by omega), at'_of (k := 0) (by omega)]

theorem ext_arefl_hi {p q : ℤ} {k : ℕ} (hk0 : 1 ≤ k) (hk : k < x.length) (hN : 2 ≤ x.length)
    (hp : p = 2 * (x.length - 1) * q + (2 * (x.length - 1) - k)) :
    ext .antireflect x p =
      (2 * q) • (x.getD (x.length - 1) 0 - x.getD 0 0) +
        ((2 : ℤ) • x.getD (x.length - 1) 0 - x.getD k 0) := by
  have hr : p % (2 * (x.length - 1)) = 2 * (x.length - 1) - k := emod_of hp (by omega) (by omega)
  have hq : p / (2 * (x.length - 1)) = q := ediv_of hp (by omega) (by omega)
  by_cases h1 : 2 * ((x.length : ℤ) - 1) - k < x.length
  · have hk1 : k = x.length - 1 := by omega
    simp only [ext, hr, hq, h1, if_true]
    rw [at'_of (k := x.length - 1) (by omega), at'_of (k := 0) (by omega),
      at'_of (k := x.length - 1) (by omega), hk1]
    module
  · simp only [ext, hr, hq, h1, if_false]
    rw [at'_of (k := x.length - 1) (by omega), at'_of (k := 0) (by omega),
      at'_of (k := k) (by omega)]

theorem ext_per {p q : ℤ} {k : ℕ} (hk : k < x.length) (hp : p = x.length * q + k) :
    ext .periodic x p = x.getD k 0 := by
  have hr : p % x.length = k := emod_of hp (by omega) (by omega)
  simp only [ext, hr, at'_nat]

theorem ext_smooth_neg {k : ℕ} {p : ℤ} (hN : 2 ≤ x.length) (hk : 0 < k) (hp : p = -k) :
    ext .smooth x p = x.getD 0 0 + k • (x.getD 0 0 - x.getD 1 0) := by
  have h1 : ¬ ((x.length : ℤ) < 2) := by omega
  have h2 : p < 0 := by omega
  have h3 : -p = k := by omega
  simp only [ext, h1, h2, h3, if_true, if_false, natCast_zsmul]
  simp [at']

theorem ext_smooth_hi {k : ℕ} {p : ℤ} (hN : 2 ≤ x.length) (hk : 0 < k)
    (hp : p = x.length - 1 + k) :
    ext .smooth x p =
      x.getD (x.length - 1) 0 + k • (x.getD (x.length - 1) 0 - x.getD (x.length - 2) 0) := by
  have h1 : ¬ ((x.length : ℤ) < 2) := by omega
  have h2 : ¬ p < 0 := by omega
  have h3 : ¬ p < x.length := by omega
  have h4 : p - (x.length - 1) = k := by omega
  simp only [ext, h1, h2, h3, h4, if_false, natCast_zsmul]
  rw [at'_of (k := x.length - 1) (by omega), at'_of (k := x.length - 2) (by omega)]

/-- Inside the signal every mode's extension is the signal itself. -/
theorem ext_in (mode : Mode) {k : ℕ} (hk : k < x.length) : ext mode x (k : ℤ) = x.getD k 0 := by
  cases mode with
  | zero => exact ext_zero_in x hk
  | symmetric => exact ext_symm_lo x (q := 0) hk (by ring)
  | constant =>
    have h1 : ¬ ((k : ℤ) < 0) := by omega
    have h2 : (k : ℤ) < x.length := by omega
    simp only [ext, h1, h2, if_true, if_false, at'_nat]
  | smooth =>
    by_cases h0 : (x.length : ℤ) < 2
    · have : k = 0 := by omega
      subst this
      simp [ext, h0, at']
    · have h1 : ¬ ((k : ℤ) < 0) := by omega
      have h2 : (k : ℤ) < x.length := by omega
      simp only [ext, h0, h1, h2, if_true, if_false, at'_nat]
  | periodic => exact ext_per x (q := 0) hk (by ring)
  | periodization =>
    unfold ext
    simp only
    unfold evenPad
    split
    · have : (k : ℤ) % ((x ++ [at' x (x.length - 1)]).length : ℤ) = k :=
        Int.emod_eq_of_lt (by omega) (by simp; omega)
      rw [this, at'_nat, List.getD_append _ _ _ _ hk]
    · have : (k : ℤ) % (x.length : ℤ) = k := Int.emod_eq_of_lt (by omega) (by omega)
      rw [this, at'_nat]
  | reflect =>
    by_cases h : 2 ≤ x.length
    · exact ext_refl_lo x (q := 0) hk h (by ring)
    · have hx : x.length = 1 := by omega
      have hk0 : k = 0 := by omega
      subst hk0
      simp [ext, hx, at']
  | antisymmetric => exact ext_asym_lo x (q := 0) hk (by ring)
  | antireflect =>
    by_cases h : 2 ≤ x.length
    · rw [ext_arefl_lo x (q := 0) hk h (by ring)]; simp
    · have hx : x.length = 1 := by omega
      have hk0 : k = 0 := by omega
      subst hk0
      simp [ext, hx, at']

end Spec
end Pywt
