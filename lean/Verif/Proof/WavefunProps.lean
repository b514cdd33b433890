import Verif.Proof.WavefunRun

/-! Properties of the cascade. -/

set_option linter.unusedSectionVars false

namespace Pywt

open Finset Spec

theorem single_smul (i : ℤ) (a : ℝ) : (Finsupp.single i a : Sq) = a • Finsupp.single i 1 := by
  rw [Finsupp.smul_single]; simp

theorem IsCascade.self {h phi : List ℝ} {L : ℕ} (hL : 1 ≤ L) {a : ℝ} (hc : IsCascade h h (L - 1) a phi) :
    toSq phi = a • shiftSq 1 ((upT h)^[L] (Finsupp.single 0 1)) := by
  obtain ⟨l, rfl⟩ : ∃ l, L = l + 1 := ⟨L - 1, by omega⟩
  rw [hc, single_smul 0 a, ← Function.iterate_succ_apply, Nat.succ_eq_add_one, Nat.add_sub_cancel, upT_iter_eq, map_smul,
    map_smul, ← upT_iter_eq]

theorem twoScale_of {h f f' phi : List ℝ} {L : ℕ} (hL : 1 ≤ L) {a ε : ℝ} (hf : IsCascade h f L (ε * (√2 * a)) f')
    (hphi : IsCascade h h (L - 1) a phi) : TwoScale (f.map (ε * ·)) L f' phi := by
  intro m
  rw [← toSq_apply, hf, upT_iter_first]
  simp only [← toSq_apply, hphi.self hL]
  rw [shiftSq_apply, Finsupp.finsetSum_apply, mul_sum, List.length_map]
  apply sum_congr rfl
  intro k hk
  simp only [mem_range] at hk
  rw [Finsupp.smul_apply, shiftSq_apply, Finsupp.smul_apply, shiftSq_apply,
    List.getD_eq_getElem _ _ (show k < (f.map (ε * ·)).length by simpa using hk), List.getElem_map,
    List.getD_eq_getElem _ _ hk, show m - 1 - 2 ^ L * (k : ℤ) = m - 2 ^ L * k - 1 by ring]
  simp only [smul_eq_mul]
  ring

theorem twoScale_of_one {h f f' phi : List ℝ} {L : ℕ} (hL : 1 ≤ L) {a : ℝ} (hf : IsCascade h f L (√2 * a) f')
    (hphi : IsCascade h h (L - 1) a phi) : TwoScale f L f' phi := by
  have := twoScale_of (ε := 1) hL (by rw [one_mul]; exact hf) hphi
  simpa using this

theorem levelOne_of {h f phi : List ℝ} {a : ℝ} (hphi : IsCascade h f 0 a phi) (m : ℤ) : tap phi m = a * tap f (m - 1) := by
  rw [← toSq_apply, hphi, Function.iterate_zero, id, upT_single, shiftSq_apply, Finsupp.smul_apply]
  have e : ∀ k : ℕ, (2 * 0 + k : ℤ) = k := by intro k; ring
  simp only [e]
  have : (∑ k ∈ range f.length, Finsupp.single (k : ℤ) (f.getD k 0) : Sq) = toSq f := rfl
  rw [this, toSq_apply, smul_eq_mul]

/-- The sum of a sequence. -/
noncomputable def totalSq : Sq →ₗ[ℝ] ℝ := Finsupp.linearCombination ℝ fun _ : ℤ => (1 : ℝ)

theorem totalSq_single (i : ℤ) (a : ℝ) : totalSq (Finsupp.single i a) = a := by
  rw [totalSq, Finsupp.linearCombination_single]; simp

theorem sum_eq_range_getD (c : List ℝ) : c.sum = ∑ i ∈ range c.length, c.getD i 0 := by
  induction c with
  | nil => simp
  | cons a c ih => rw [List.length_cons, sum_range_succ', List.sum_cons, ih]; simp [add_comm]

theorem totalSq_toSq (c : List ℝ) : totalSq (toSq c) = c.sum := by
  rw [toSq, map_sum, sum_eq_range_getD]
  simp only [totalSq_single]

theorem totalSq_shift (k : ℤ) (u : Sq) : totalSq (shiftSq k u) = totalSq u := by
  have : totalSq.comp (shiftSq k) = totalSq := by
    apply Finsupp.lhom_ext
    intro i a
    rw [LinearMap.comp_apply, shiftSq_single, totalSq_single, totalSq_single]
  exact LinearMap.congr_fun this u

theorem totalSq_upT (h : List ℝ) (u : Sq) : totalSq (upT h u) = h.sum * totalSq u := by
  have : totalSq.comp (upT h) = h.sum • totalSq := by
    apply Finsupp.lhom_ext
    intro i a
    rw [LinearMap.comp_apply, upT_single, map_smul, map_sum, LinearMap.smul_apply, totalSq_single, sum_eq_range_getD h]
    simp only [totalSq_single, smul_eq_mul]
    ring
  exact LinearMap.congr_fun this u

theorem totalSq_iter (h : List ℝ) (l : ℕ) (u : Sq) : totalSq ((upT h)^[l] u) = h.sum ^ l * totalSq u := by
  induction l with
  | zero => simp
  | succ l ih => rw [Function.iterate_succ_apply', totalSq_upT, ih, pow_succ]; ring

theorem sum_of_cascade {h f phi : List ℝ} {l : ℕ} {a : ℝ} (hc : IsCascade h f l a phi) :
    phi.sum = h.sum ^ l * (f.sum * a) := by
  rw [← totalSq_toSq, hc, totalSq_shift, totalSq_iter, totalSq_upT, totalSq_single]

theorem classSum_shift (q r k : ℤ) (u : Sq) : classSum q r (shiftSq k u) = classSum q (r - k) u := by
  have : (classSum q r).comp (shiftSq k) = classSum q (r - k) := by
    apply Finsupp.lhom_ext
    intro i a
    rw [LinearMap.comp_apply, shiftSq_single, classSum_single, classSum_single]
    rw [show i + k - r = i - (r - k) by ring]
  exact LinearMap.congr_fun this u

theorem translates_of {h phi : List ℝ} {L : ℕ} (hL : 1 ≤ L) {a : ℝ} (hs : SumRules h)
    (hc : IsCascade h h (L - 1) a phi) (r : ℤ) : translates L phi r = a * (1 / √2) ^ L := by
  have e : translates L phi r = classSum (2 ^ L) r (toSq phi) := by rw [classSum_toSq]; rfl
  rw [e, hc.self hL, map_smul, classSum_shift, classSum_iter hs, smul_eq_mul]

theorem ipSq_shift (k : ℤ) (u v : Sq) : ipSq (shiftSq k u) (shiftSq k v) = ipSq u v := by
  have : ipSq.compl₁₂ (shiftSq k) (shiftSq k) = ipSq := by
    apply Finsupp.lhom_ext
    intro i a
    apply Finsupp.lhom_ext
    intro j b
    rw [LinearMap.compl₁₂_apply, shiftSq_single, shiftSq_single, ipSq_single, ipSq_single, Finsupp.single_apply,
      Finsupp.single_apply]
    simp
  exact LinearMap.congr_fun (LinearMap.congr_fun this u) v

theorem shiftSq_shift (j k : ℤ) (u : Sq) : shiftSq j (shiftSq k u) = shiftSq k (shiftSq j u) := by
  ext n
  simp only [shiftSq_apply]
  congr 1
  ring

theorem inner_of {h h' f f' phi phi' : List ℝ} {L : ℕ} (hL : 1 ≤ L) {a a' c : ℝ} (hd : DualTaps h h' 1)
    (hf : DualTaps f f' c) (hc : IsCascade h f (L - 1) a phi) (hc' : IsCascade h' f' (L - 1) a' phi') (k : ℤ) :
    innerShift L phi phi' k = if k = 0 then c * (a * a') / 2 ^ L else 0 := by
  obtain ⟨l, rfl⟩ : ∃ l, L = l + 1 := ⟨L - 1, by omega⟩
  rw [Nat.add_sub_cancel] at hc hc'
  unfold innerShift
  have e : ∑ m ∈ range phi.length, phi.getD m 0 * tap phi' (m - 2 ^ (l + 1) * k) =
      ipSq (toSq phi) (shiftSq (2 ^ (l + 1) * k) (toSq phi')) := by
    rw [ipSq_toSq]
    apply sum_congr rfl
    intro m _
    rw [shiftSq_apply, toSq_apply]
  rw [e, hc, hc', shiftSq_shift, ipSq_shift, pow_succ, mul_assoc, ← upT_iter_shift, ← upT_shift, ipSq_iter hd, ipSq_upT hf,
    shiftSq_single, ipSq_single, Finsupp.single_apply]
  by_cases hk : k = 0
  · subst hk; simp
  · simp [hk]

/-- The biorthogonality relations of a perfect-reconstruction bank. -/
theorem dualTaps_PR {w : Wavelet ℝ} (hw : w.Ok) (hpr : PR w.dec_lo w.dec_hi w.rec_lo w.rec_hi) :
    DualTaps w.rec_lo w.dec_lo.reverse 1 ∧ DualTaps w.rec_hi w.dec_lo.reverse 0 ∧
      DualTaps w.rec_lo w.dec_hi.reverse 0 ∧ DualTaps w.rec_hi w.dec_hi.reverse 1 := by
  obtain ⟨h1, h2, h3, h4, h5⟩ := hw
  have hd := fun s hs => PR_dual (s := s) h2 h1 hpr hs
  refine ⟨?_, ?_, ?_, ?_⟩
  · refine dualTaps_of_prod (by simp; omega) (by simpa using h2) (by simp; omega) fun s hs => ?_
    rw [List.reverse_reverse, List.length_reverse]
    exact (hd s hs).1
  · refine dualTaps_of_prod (by simp; omega) (by simpa using h2) (by simp; omega) fun s hs => ?_
    rw [List.reverse_reverse, ite_self]
    exact (hd s hs).2.1
  · refine dualTaps_of_prod (by simp; omega) (by simp; omega) (by simp; omega) fun s hs => ?_
    rw [List.reverse_reverse, ite_self]
    exact (hd s hs).2.2.1
  · refine dualTaps_of_prod (by simp; omega) (by simp; omega) (by simp; omega) fun s hs => ?_
    rw [List.reverse_reverse, List.length_reverse, h3]
    exact (hd s hs).2.2.2

theorem sqrt_two_pow (L : ℕ) : √2 ^ L * √2 ^ L = (2 : ℝ) ^ L := by
  rw [← mul_pow, Real.mul_self_sqrt (by norm_num)]

end Pywt
