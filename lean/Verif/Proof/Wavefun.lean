import Verif.Model.Wavefun
import Verif.Spec.Wavefun
import Verif.Proof.Multi
import Verif.Proof.Lin
import Verif.Proof.Biorth
import Mathlib.LinearAlgebra.Finsupp.LinearCombination
import Mathlib.Tactic.LinearCombination

/-! Helper lemmas for `Verif.Props.Wavefun`. -/

set_option linter.unusedSectionVars false

namespace Pywt

open Finset Spec

/-- Finitely supported sequences. -/
abbrev Sq := ℤ →₀ ℝ

/-- Upsample by two and filter. -/
noncomputable def upT (h : List ℝ) : Sq →ₗ[ℝ] Sq :=
  Finsupp.linearCombination ℝ fun i : ℤ => ∑ k ∈ range h.length, Finsupp.single (2 * i + k) (h.getD k 0)

theorem upT_single (h : List ℝ) (i : ℤ) (a : ℝ) :
    upT h (Finsupp.single i a) = a • ∑ k ∈ range h.length, Finsupp.single (2 * i + k : ℤ) (h.getD k 0) := by
  rw [upT, Finsupp.linearCombination_single]

/-- A list as a sequence. -/
noncomputable def toSq (c : List ℝ) : Sq := ∑ i ∈ range c.length, Finsupp.single (i : ℤ) (c.getD i 0)

theorem sum_single_apply (c : List ℝ) (n : ℤ) (f : ℕ → ℤ) (hf : ∀ i, f i = n ↔ (i : ℤ) = n - (f 0)) (h0 : ∀ i, f i = f 0 + i) :
    (∑ i ∈ range c.length, Finsupp.single (f i) (c.getD i 0) : Sq) n = tap c (n - f 0) := by
  rw [Finsupp.finsetSum_apply]
  simp only [Finsupp.single_apply]
  unfold tap
  split_ifs with h
  · rw [sum_eq_single (n - f 0).toNat]
    · rw [if_pos]
      rw [hf]; omega
    · intro b _ hb
      rw [if_neg]
      rw [hf]; omega
    · intro hb
      simp only [mem_range] at hb
      omega
  · apply sum_eq_zero
    intro i hi
    simp only [mem_range] at hi
    rw [if_neg]
    rw [hf]; omega

theorem toSq_apply (c : List ℝ) (n : ℤ) : toSq c n = tap c n := by
  have := sum_single_apply c n (fun i => (i : ℤ)) (by intro i; simp) (by intro i; simp)
  simpa [toSq] using this

theorem toSq_upConvFull {f c : List ℝ} (hf : 2 ≤ f.length) (hc : 1 ≤ c.length) :
    toSq (upConvFull f c) = upT f (toSq c) := by
  ext n
  have hT : upT f (toSq c) n = ∑ i ∈ range c.length, tap f (n - 2 * i) * c.getD i 0 := by
    rw [toSq, map_sum, Finsupp.finsetSum_apply]
    apply sum_congr rfl
    intro i _
    rw [upT_single, Finsupp.smul_apply, sum_single_apply f n (fun k => 2 * (i : ℤ) + k) (by intro k; simp; omega) (by
      intro k; simp)]
    simp [mul_comm]
  rw [hT, toSq_apply]
  by_cases h : 0 ≤ n ∧ n < (upConvFull f c).length
  · unfold tap
    rw [if_pos h]
    have h2 : n.toNat < (upConvFull f c).length := by omega
    rw [List.getD_eq_getElem _ _ h2]
    simp only [upConvFull, List.getElem_map, List.getElem_range, conv_upsample_eq_sum]
    rw [Int.toNat_of_nonneg h.1]
    rfl
  · have e : tap (upConvFull f c) n = 0 := by unfold tap; rw [if_neg h]
    rw [e]
    symm
    apply sum_eq_zero
    intro i hi
    simp only [mem_range] at hi
    rw [upConvFull_length] at h
    have : tap f (n - 2 * i) = 0 := by unfold tap; rw [if_neg]; omega
    rw [this, zero_mul]

/-- Translation. -/
noncomputable def shiftSq (k : ℤ) : Sq →ₗ[ℝ] Sq := Finsupp.lmapDomain ℝ ℝ fun i => i + k

theorem shiftSq_single (k i : ℤ) (a : ℝ) : shiftSq k (Finsupp.single i a) = Finsupp.single (i + k) a := by
  simp [shiftSq, Finsupp.lmapDomain_apply]

theorem shiftSq_apply (k : ℤ) (u : Sq) (n : ℤ) : shiftSq k u n = u (n - k) := by
  have : Function.Injective fun i : ℤ => i + k := add_left_injective k
  have h := Finsupp.mapDomain_apply this u (n - k)
  simpa [shiftSq, Finsupp.lmapDomain_apply] using h

theorem upT_shift (h : List ℝ) (k : ℤ) (u : Sq) : upT h (shiftSq k u) = shiftSq (2 * k) (upT h u) := by
  have : (upT h).comp (shiftSq k) = (shiftSq (2 * k)).comp (upT h) := by
    apply Finsupp.lhom_ext
    intro i a
    simp only [LinearMap.comp_apply, shiftSq_single, upT_single, map_smul, map_sum]
    congr 1
    apply sum_congr rfl
    intro j _
    congr 1
    ring
  exact LinearMap.congr_fun this u

theorem upT_iter_shift (h : List ℝ) (l : ℕ) (k : ℤ) (u : Sq) :
    (upT h)^[l] (shiftSq k u) = shiftSq (2 ^ l * k) ((upT h)^[l] u) := by
  induction l generalizing u k with
  | zero => simp
  | succ l ih =>
    rw [Function.iterate_succ_apply, Function.iterate_succ_apply, upT_shift, ih]
    congr 1
    rw [pow_succ, mul_assoc]

theorem upT_iter_eq (h : List ℝ) (l : ℕ) (u : Sq) : (upT h)^[l] u = ((upT h) ^ l) u := by
  rw [Module.End.pow_apply]

/-- The iterates in terms of the unit pulse. -/
theorem upT_iter_first (h f : List ℝ) (l : ℕ) (a : ℝ) :
    (upT h)^[l] (upT f (Finsupp.single 0 a)) =
      ∑ k ∈ range f.length, (a * f.getD k 0) • shiftSq (2 ^ l * k) ((upT h)^[l] (Finsupp.single 0 1)) := by
  rw [upT_iter_eq, upT_single, map_smul, map_sum, smul_sum]
  apply sum_congr rfl
  intro k _
  have : (Finsupp.single (2 * 0 + k : ℤ) (f.getD k 0) : Sq) = f.getD k 0 • shiftSq k (Finsupp.single 0 1) := by
    rw [shiftSq_single, Finsupp.smul_single]
    simp
  rw [this, map_smul, ← upT_iter_eq, upT_iter_shift, smul_smul]

/-! ### Sums -/

/-- Sum of a sequence over a residue class. -/
noncomputable def classSum (q r : ℤ) : Sq →ₗ[ℝ] ℝ :=
  Finsupp.linearCombination ℝ fun i : ℤ => if q ∣ i - r then (1 : ℝ) else 0

theorem classSum_single (q r i : ℤ) (a : ℝ) : classSum q r (Finsupp.single i a) = if q ∣ i - r then a else 0 := by
  rw [classSum, Finsupp.linearCombination_single]
  split_ifs <;> simp

theorem classSum_upT (h : List ℝ) (q r : ℤ) (u : Sq) :
    classSum (2 * q) r (upT h u) =
      ∑ k ∈ range h.length, if (2 : ℤ) ∣ r - k then h.getD k 0 * classSum q ((r - k) / 2) u else 0 := by
  have : (classSum (2 * q) r).comp (upT h) =
      ∑ k ∈ range h.length, if (2 : ℤ) ∣ r - k then h.getD k 0 • classSum q ((r - k) / 2) else 0 := by
    apply Finsupp.lhom_ext
    intro i a
    simp only [LinearMap.comp_apply, upT_single, map_smul, map_sum, LinearMap.sum_apply, smul_sum, classSum_single]
    apply sum_congr rfl
    intro k _
    by_cases h2 : (2 : ℤ) ∣ r - k
    · obtain ⟨j, hj⟩ := h2
      have hc : (2 : ℤ) ∣ r - k := ⟨j, hj⟩
      simp only [if_pos hc]
      rw [LinearMap.smul_apply, classSum_single, show (r - k) / 2 = j by omega]
      have e : (2 * i + k - r) = 2 * (i - j) := by omega
      rw [e]
      have : 2 * q ∣ 2 * (i - j) ↔ q ∣ i - j := Int.mul_dvd_mul_iff_left (by norm_num)
      by_cases hq : q ∣ i - j
      · rw [if_pos (this.mpr hq), if_pos hq]; simp [mul_comm]
      · rw [if_neg (mt this.mp hq), if_neg hq]; simp
    · rw [if_neg h2, if_neg]
      · simp
      · rintro ⟨j, hj⟩
        exact h2 ⟨i - q * j, by linarith⟩
  have h2 := LinearMap.congr_fun this u
  rw [LinearMap.comp_apply] at h2
  rw [h2, LinearMap.sum_apply]
  apply sum_congr rfl
  intro k _
  split_ifs <;> simp

theorem classSum_iter {h : List ℝ} (hs : SumRules h) (l : ℕ) : ∀ r i : ℤ,
    classSum (2 ^ l) r ((upT h)^[l] (Finsupp.single i 1)) = (1 / √2) ^ l := by
  induction l with
  | zero => intro r i; simp [classSum_single]
  | succ l ih =>
    intro r i
    rw [Function.iterate_succ_apply', pow_succ', classSum_upT]
    simp only [ih]
    have hp := hs (r % 2).toNat (by omega)
    rw [pow_succ', ← hp, sum_mul]
    apply sum_congr rfl
    intro k _
    by_cases hk : k % 2 = (r % 2).toNat
    · rw [if_pos (by omega), if_pos hk]
    · rw [if_neg (by omega), if_neg hk, zero_mul]

theorem classSum_toSq (q r : ℤ) (c : List ℝ) :
    classSum q r (toSq c) = ∑ m ∈ range c.length, if q ∣ m - r then c.getD m 0 else 0 := by
  rw [toSq, map_sum]
  apply sum_congr rfl
  intro m _
  rw [classSum_single]

/-! ### Inner products -/

/-- The bilinear form `Σ_n u_n v_n`. -/
noncomputable def ipSq : Sq →ₗ[ℝ] Sq →ₗ[ℝ] ℝ := Finsupp.linearCombination ℝ fun i : ℤ => Finsupp.lapply i

theorem ipSq_single (i : ℤ) (a : ℝ) (v : Sq) : ipSq (Finsupp.single i a) v = a * v i := by
  rw [ipSq, Finsupp.linearCombination_single]
  simp

/-- `f` and `g` are dual: `Σ_k f_k g_{k-2j} = c·δ_j`. -/
def DualTaps (f g : List ℝ) (c : ℝ) : Prop :=
  ∀ j : ℤ, ∑ k ∈ range f.length, f.getD k 0 * tap g (k - 2 * j) = if j = 0 then c else 0

theorem ipSq_upT {f g : List ℝ} {c : ℝ} (h : DualTaps f g c) (u v : Sq) : ipSq (upT f u) (upT g v) = c * ipSq u v := by
  have : (ipSq.compl₁₂ (upT f) (upT g)) = c • ipSq := by
    apply Finsupp.lhom_ext
    intro i a
    apply Finsupp.lhom_ext
    intro j b
    rw [LinearMap.compl₁₂_apply, upT_single f, upT_single g, (ipSq _).map_smul, ipSq.map_smul, LinearMap.smul_apply,
      map_sum ipSq, LinearMap.sum_apply]
    simp only [ipSq_single]
    have e : ∀ n : ℤ, (∑ k ∈ range g.length, Finsupp.single (2 * j + k : ℤ) (g.getD k 0) : Sq) n = tap g (n - 2 * j) := by
      intro n
      have := sum_single_apply g n (fun k => 2 * j + k) (by intro k; simp; omega) (by intro k; simp)
      simpa using this
    simp only [e]
    have hd := h (j - i)
    have e2 : ∀ k : ℕ, (2 * i + k - 2 * j : ℤ) = k - 2 * (j - i) := by intro k; ring
    simp only [e2, hd]
    rw [LinearMap.smul_apply, LinearMap.smul_apply, ipSq_single, Finsupp.single_apply]
    by_cases hij : j = i
    · subst hij
      simp
      ring
    · rw [if_neg (by omega), if_neg hij]
      simp
  exact LinearMap.congr_fun (LinearMap.congr_fun this u) v

theorem ipSq_iter {f g : List ℝ} (h : DualTaps f g 1) (l : ℕ) (u v : Sq) :
    ipSq ((upT f)^[l] u) ((upT g)^[l] v) = ipSq u v := by
  induction l with
  | zero => rfl
  | succ l ih => rw [Function.iterate_succ_apply', Function.iterate_succ_apply', ipSq_upT h, ih, one_mul]

theorem ipSq_toSq (c : List ℝ) (v : Sq) : ipSq (toSq c) v = ∑ m ∈ range c.length, c.getD m 0 * v m := by
  rw [toSq, map_sum, LinearMap.sum_apply]
  apply sum_congr rfl
  intro m _
  rw [ipSq_single]

theorem dualTaps_of_prod {f g : List ℝ} {c : ℝ} (hF : f.length = g.length) (he : f.length % 2 = 0)
    (h1 : 1 ≤ f.length) (h : ∀ s, s % 2 = 1 → prodCoeff f.reverse g s = if s + 1 = f.length then c else 0) : DualTaps g f c := by
  intro j
  by_cases hj : 0 ≤ (f.length : ℤ) - 1 + 2 * j
  · have hs := h ((f.length : ℤ) - 1 + 2 * j).toNat (by omega)
    rw [prodCoeff, sum_comm] at hs
    have e : (((f.length : ℤ) - 1 + 2 * j).toNat + 1 = f.length) ↔ j = 0 := by omega
    simp only [e] at hs
    rw [← hs]
    apply sum_congr rfl
    intro k hk
    simp only [mem_range] at hk
    rw [List.length_reverse]
    unfold tap
    by_cases hr : 0 ≤ (k : ℤ) - 2 * j ∧ (k : ℤ) - 2 * j < f.length
    · rw [if_pos hr, sum_eq_single (f.length - 1 - ((k : ℤ) - 2 * j).toNat)]
      · rw [if_pos (by omega), List.getD_eq_getElem _ _ (show _ < f.reverse.length by simp; omega), List.getElem_reverse,
          List.getD_eq_getElem _ _ (show ((k : ℤ) - 2 * j).toNat < f.length by omega), mul_comm]
        congr 2
        omega
      · intro b hb hb2
        simp only [mem_range] at hb
        rw [if_neg (by omega)]
      · intro hb
        simp only [mem_range] at hb
        omega
    · rw [if_neg hr, mul_zero]
      symm
      apply sum_eq_zero
      intro b hb
      simp only [mem_range] at hb
      rw [if_neg (by omega)]
  · rw [if_neg (by omega)]
    apply sum_eq_zero
    intro k hk
    simp only [mem_range] at hk
    unfold tap
    rw [if_neg (by omega), mul_zero]

end Pywt
