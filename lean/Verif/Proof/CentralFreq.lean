import Verif.Proof.WavefunProps
import Mathlib.Analysis.SpecialFunctions.Complex.Circle

/-! Helper lemmas on `integrate_wavelet` and `central_frequency`. -/

set_option linter.unusedSectionVars false

namespace Pywt

open Finset Spec

theorem npArgmax_cons (a : ℝ) (l : List ℝ) :
    ∃ m, npArgmax (a :: l) = .ok m ∧ m < (a :: l).length ∧ ∀ j < (a :: l).length,
      (a :: l).getD j 0 ≤ (a :: l).getD m 0 ∧ (j < m → (a :: l).getD j 0 < (a :: l).getD m 0) := by
  have key : ∀ l : List ℝ, ∃ m v, l.foldl (fun (s : ℕ × ℕ × ℝ) v =>
      if s.2.2 < v then (s.1 + 1, s.1 + 1, v) else (s.1 + 1, s.2.1, s.2.2)) (0, 0, a) = (l.length, m, v) ∧
      m ≤ l.length ∧ v = (a :: l).getD m 0 ∧ ∀ j ≤ l.length, (a :: l).getD j 0 ≤ v ∧ (j < m → (a :: l).getD j 0 < v) := by
    intro l
    induction l using List.reverseRecOn with
    | nil => exact ⟨0, a, rfl, le_rfl, rfl, by intro j hj; simp at hj; subst hj; simp⟩
    | append_singleton l u ih =>
      obtain ⟨m, v, h1, h2, h3, h4⟩ := ih
      have e1 : ∀ j ≤ l.length, (a :: (l ++ [u])).getD j 0 = (a :: l).getD j 0 := by
        intro j hj
        rw [← List.cons_append, List.getD_append _ _ _ _ (by simp; omega)]
      have e2 : (a :: (l ++ [u])).getD (l.length + 1) 0 = u := by
        rw [← List.cons_append, List.getD_append_right _ _ _ _ (by simp)]
        simp
      rw [List.foldl_append, h1]
      simp only [List.foldl_cons, List.foldl_nil]
      by_cases hv : v < u
      · refine ⟨l.length + 1, u, by rw [if_pos hv]; simp, by simp, e2.symm, ?_⟩
        intro j hj
        by_cases hj2 : j ≤ l.length
        · rw [e1 j hj2]
          have := (h4 j hj2).1
          exact ⟨by linarith, fun _ => by linarith⟩
        · have : j = l.length + 1 := by simp at hj; omega
          subst this
          rw [e2]
          exact ⟨le_rfl, fun h => absurd h (lt_irrefl _)⟩
      · refine ⟨m, v, by rw [if_neg hv]; simp, by simp; omega, by rw [e1 m h2]; exact h3, ?_⟩
        intro j hj
        by_cases hj2 : j ≤ l.length
        · rw [e1 j hj2]
          exact h4 j hj2
        · have : j = l.length + 1 := by simp at hj; omega
          subst this
          rw [e2]
          exact ⟨not_lt.mp hv, fun h => by omega⟩
  obtain ⟨m, v, h1, h2, h3, h4⟩ := key l
  refine ⟨m, ?_, by simp; omega, ?_⟩
  · simp only [npArgmax, h1]
  · intro j hj
    rw [← h3]
    exact h4 j (by simp at hj; omega)

theorem fft_getElem (psi : List ℂ) {k : ℕ} (hk : k < (fft (dftRoot psi.length) psi psi.length).length) :
    (fft (dftRoot psi.length) psi psi.length)[k] = dft psi k := by
  simp only [fft, List.getElem_map, List.getElem_range]
  unfold dft
  show ∑ i ∈ range psi.length, _ = _
  apply sum_congr rfl
  intro i _
  rw [smul_eq_mul]
  congr 1
  rw [dftRoot, ← Complex.exp_nat_mul]
  congr 1
  push_cast
  ring

theorem firstPeak_exists {psi : List ℂ} (h : 2 ≤ psi.length) :
    ∃ m, npArgmax (((fft (dftRoot psi.length) psi psi.length).tail).map fun z => ‖z‖) = .ok m ∧ FirstPeak psi (m + 1) := by
  have hlen : (fft (dftRoot psi.length) psi psi.length).length = psi.length := by simp [fft]
  set L := ((fft (dftRoot psi.length) psi psi.length).tail).map fun z => ‖z‖ with hL
  have hLl : L.length = psi.length - 1 := by simp [hL, hlen]
  have hval : ∀ j < L.length, L.getD j 0 = ‖dft psi (j + 1)‖ := by
    intro j hj
    rw [List.getD_eq_getElem _ _ hj]
    simp only [hL, List.getElem_map, List.getElem_tail]
    rw [fft_getElem]
  obtain ⟨a, l, hal⟩ : ∃ a l, L = a :: l := by
    cases hc : L with
    | nil => rw [hc] at hLl; simp at hLl; omega
    | cons a l => exact ⟨a, l, rfl⟩
  obtain ⟨m, h1, h2, h3⟩ := npArgmax_cons a l
  rw [← hal] at h1 h2 h3
  refine ⟨m, h1, by omega, by omega, ?_⟩
  intro j hj1 hj2
  have := h3 (j - 1) (by omega)
  rw [hval _ (by omega), hval _ h2, show j - 1 + 1 = j by omega] at this
  exact ⟨this.1, fun h => this.2 (by omega)⟩

/-- The formula for samples on a grid with more than one point. -/
theorem centralFrequencyOf_eq {psi : List ℂ} {x : List ℝ} {x0 xl : ℝ} (h : 2 ≤ psi.length) (h0 : x.head? = some x0)
    (hl : x.getLast? = some xl) (hx : x0 < xl) :
    ∃ k, FirstPeak psi k ∧ centralFrequencyOf psi x =
      .ok (((if psi.length < 2 * (k + 1) then psi.length - k else k : ℕ) : ℝ) / (xl - x0)) := by
  obtain ⟨m, h1, h2⟩ := firstPeak_exists h
  refine ⟨m + 1, h2, ?_⟩
  have hk := h2.2.1
  unfold centralFrequencyOf
  rw [h0, hl]
  simp only [h1]
  rw [if_neg (by simp only [not_not]; linarith)]
  simp only [Py_bind_ok]
  congr 1
  have hd : xl - x0 ≠ 0 := by
    intro h; linarith
  have e : ((psi.length : ℝ) / 2 < ((m + 2 : ℤ) : ℝ)) ↔ psi.length < 2 * (m + 1 + 1) := by
    rw [div_lt_iff₀ (by norm_num)]
    constructor
    · intro h
      have : (psi.length : ℝ) < ((2 * (m + 1 + 1) : ℕ) : ℝ) := by push_cast; push_cast at h; linarith
      exact_mod_cast this
    · intro h
      have : (psi.length : ℝ) < ((2 * (m + 1 + 1) : ℕ) : ℝ) := by exact_mod_cast h
      push_cast at this ⊢
      linarith
  by_cases hc : psi.length < 2 * (m + 1 + 1)
  · rw [if_pos (e.mpr hc), if_pos hc, one_div_div, Nat.cast_sub (by omega)]
    push_cast
    ring_nf
  · rw [if_neg (mt e.mp hc), if_neg hc, one_div_div]
    push_cast
    ring_nf

theorem dft_mirror {l : List ℝ} {k : ℕ} (hk : k ≤ l.length) :
    ‖dft (l.map fun v : ℝ => (v : ℂ)) (l.length - k)‖ = ‖dft (l.map fun v : ℝ => (v : ℂ)) k‖ := by
  rw [← Complex.norm_conj (dft _ k)]
  congr 1
  unfold dft
  rw [map_sum, List.length_map]
  apply sum_congr rfl
  intro i hi
  simp only [mem_range] at hi
  rw [map_mul, ← Complex.exp_conj]
  have hN : (l.length : ℂ) ≠ 0 := by
    have : l.length ≠ 0 := by omega
    exact_mod_cast this
  congr 1
  · rw [Complex.exp_eq_exp_iff_exists_int]
    refine ⟨-i, ?_⟩
    simp only [map_neg, map_div₀, map_mul, Complex.conj_I, Complex.conj_ofReal, map_natCast, map_ofNat]
    push_cast [hk]
    field_simp
    ring
  · rw [List.getD_eq_getElem _ _ (by simpa using hi), List.getElem_map, Complex.conj_ofReal]

theorem firstPeak_real {l : List ℝ} {k : ℕ} (h : FirstPeak (l.map fun v : ℝ => (v : ℂ)) k) : 2 * k ≤ l.length := by
  obtain ⟨h1, h2, h3⟩ := h
  rw [List.length_map] at h2 h3
  by_contra hc
  have := (h3 (l.length - k) (by omega) (by omega)).2 (by omega)
  rw [dft_mirror (by omega)] at this
  exact lt_irrefl _ this

theorem isIntegral_integrateArr {V : Type} [AddCommGroup V] [Module ℝ V] (arr : List V) (step : ℝ) :
    IsIntegral arr step (integrateArr arr step) := by
  refine ⟨by simp [integrateArr], ?_⟩
  intro i hi
  rw [List.getD_eq_getElem _ _ (by simpa [integrateArr] using hi)]
  simp only [integrateArr, List.getElem_map, List.getElem_range]
  congr 1
  have : ∀ (l : List V), l.sum = ∑ j ∈ range l.length, l.getD j 0 := by
    intro c
    induction c with
    | nil => simp
    | cons a c ih => rw [List.length_cons, sum_range_succ', List.sum_cons, ih]; simp [add_comm]
  rw [this, List.length_take, min_eq_left (by omega)]
  apply sum_congr rfl
  intro j hj
  simp only [mem_range] at hj
  rw [List.getD_eq_getElem _ _ (show j < (arr.take (i + 1)).length by rw [List.length_take]; omega), List.getElem_take,
    List.getD_eq_getElem _ _ (by omega)]

end Pywt
