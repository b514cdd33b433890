import Verif.Spec.NearStages
import Verif.Proof.EnergyN
import Verif.Proof.NormWarnN
import Verif.Proof.Edit
import Verif.Proof.MultilevelN

/-! Energy of the decimated n-D transforms for banks that are orthogonal up to a tolerance. -/

namespace Pywt

open Finset Spec

set_option linter.unusedSectionVars false

theorem sumBy_analyze_lines {φ : ℝ → ℝ} {s : Stage ℝ} (hm : s.2.2 = .periodization) (hw : s.2.1.Ok) {x : Arr ℝ}
    (ha : s.1 < x.shape.length) (c : Char) :
    (x.analyze s c).sumBy φ = ((List.range x.shape.length).erase s.1).foldr (sumAxis x.shape)
      (fun i => ((analysis .periodization (s.2.1.decFilter c) (x.line s.1 i)).map φ).sum) fun _ => 0 := by
  have hsh : (x.analyze s c).shape.length = x.shape.length := by
    rw [Arr.shape_analyze, List.length_set]
  have hline : ∀ idx : ℕ → ℕ, (∀ k ∈ (List.range x.shape.length).erase s.1, idx k < x.shape.getD k 0) →
      (x.analyze s c).line s.1 idx = analysis .periodization (s.2.1.decFilter c) (x.line s.1 idx) := by
    intro idx hidx
    unfold Arr.analyze
    rw [Arr.line_along ha]
    · rw [hm]
    · intro k hk hka
      exact hidx k (by rw [List.Nodup.mem_erase_iff List.nodup_range]; simp [hka, hk])
    · rw [analysis_length, Arr.line_length, decFilter_length hw]
  rw [Arr.sumBy_lines φ _ (axis := s.1) (by rw [hsh]; exact ha) (fun _ => 0), hsh]
  symm
  apply foldr_sumAxis_congr _ []
  · intro k hk
    rw [List.Nodup.mem_erase_iff List.nodup_range] at hk
    rw [Arr.shape_analyze, getD_set ha, if_neg hk.1]
  · intro idx hidx
    rw [hline idx (by simpa using hidx)]
  · simp

theorem analyze_near {ε : ℝ} {s : Stage ℝ} (hm : s.2.2 = .periodization) (h : NearOrthogonal ε s.2.1) {x : Arr ℝ}
    (ha : s.1 < x.shape.length) (h1 : 1 ≤ x.shape.getD s.1 0) (he : x.shape.getD s.1 0 % 2 = 0) :
    (1 - ε) * energy x.data ≤ energy (x.analyze s 'a').data + energy (x.analyze s 'd').data ∧
      energy (x.analyze s 'a').data + energy (x.analyze s 'd').data ≤ (1 + ε) * energy x.data := by
  have e : ∀ y : Arr ℝ, energy y.data = Arr.sumBy (fun v : ℝ => v * v) y := fun _ => rfl
  rw [e, e, e, sumBy_analyze_lines hm h.1 ha, sumBy_analyze_lines hm h.1 ha, x.sumBy_lines _ ha fun _ => 0]
  have hadd := congrFun (foldr_sumAxis_add (shape := x.shape)
    (fun i => ((analysis .periodization (s.2.1.decFilter 'a') (x.line s.1 i)).map fun v : ℝ => v * v).sum)
    (fun i => ((analysis .periodization (s.2.1.decFilter 'd') (x.line s.1 i)).map fun v : ℝ => v * v).sum)
    ((List.range x.shape.length).erase s.1)) fun _ => 0
  rw [← hadd]
  have hl : ∀ i, |energy (analysis .periodization s.2.1.dec_lo (x.line s.1 i)) +
      energy (analysis .periodization s.2.1.dec_hi (x.line s.1 i)) - energy (x.line s.1 i)| ≤ ε * energy (x.line s.1 i) :=
    fun i => analysis_energy h (L := x.shape.getD s.1 0 / 2) (by rw [Arr.line_length]; omega) (by omega)
  have m1 := congrFun (foldr_sumAxis_mul (shape := x.shape) (fun i => ((x.line s.1 i).map fun v : ℝ => v * v).sum) (1 - ε)
    ((List.range x.shape.length).erase s.1)) fun _ => 0
  have m2 := congrFun (foldr_sumAxis_mul (shape := x.shape) (fun i => ((x.line s.1 i).map fun v : ℝ => v * v).sum) (1 + ε)
    ((List.range x.shape.length).erase s.1)) fun _ => 0
  refine ⟨m1.symm.le.trans ?_, le_trans ?_ m2.le⟩
  · refine foldr_sumAxis_le (fun i => ?_) _ _
    have := (abs_le.1 (hl i)).1
    show (1 - ε) * energy (x.line s.1 i) ≤ energy (analysis .periodization s.2.1.dec_lo (x.line s.1 i)) +
      energy (analysis .periodization s.2.1.dec_hi (x.line s.1 i))
    linarith
  · refine foldr_sumAxis_le (fun i => ?_) _ _
    have := (abs_le.1 (hl i)).2
    show energy (analysis .periodization s.2.1.dec_lo (x.line s.1 i)) +
      energy (analysis .periodization s.2.1.dec_hi (x.line s.1 i)) ≤ (1 + ε) * energy (x.line s.1 i)
    linarith

theorem subbands_near {ε : ℝ} (h0 : 0 ≤ ε) (hε : ε ≤ 1) : ∀ {st : List (Stage ℝ)} {x : Arr ℝ}, NearStages ε st x.shape 2 →
    (1 - ε) ^ st.length * energy x.data ≤ ((words st.length).map fun k => energy (x.subband st k).data).sum ∧
      ((words st.length).map fun k => energy (x.subband st k).data).sum ≤ (1 + ε) ^ st.length * energy x.data
  | [], x, _ => by simp [words, Arr.subband]
  | s :: st, x, h => by
      obtain ⟨hn, h⟩ := h
      simp only [List.map_cons, List.nodup_cons] at hn
      obtain ⟨h1, h2, h3, h4, h5⟩ := h s (by simp)
      have ih : ∀ c, NearStages ε st (x.analyze s c).shape 2 := fun c => by
        refine ⟨hn.2, fun t ht => ?_⟩
        obtain ⟨t1, t2, t3, t4, t5⟩ := h t (by simp [ht])
        have hne : ¬ t.1 = s.1 := fun e => hn.1 (e ▸ List.mem_map_of_mem ht)
        refine ⟨t1, t2, by rw [Arr.shape_analyze, List.length_set]; exact t3, ?_⟩
        rw [Arr.shape_analyze, getD_set h3, if_neg hne]
        exact ⟨t4, t5⟩
      obtain ⟨l1, l2⟩ := subbands_near h0 hε (ih 'a')
      obtain ⟨d1, d2⟩ := subbands_near h0 hε (ih 'd')
      obtain ⟨a1, a2⟩ := analyze_near h1 h2 h3 h4 (by omega)
      have e : ((words (s :: st).length).map fun k => energy (x.subband (s :: st) k).data).sum =
          ((words st.length).map fun k => energy ((x.analyze s 'a').subband st k).data).sum +
          ((words st.length).map fun k => energy ((x.analyze s 'd').subband st k).data).sum := by
        simp only [List.length_cons, words, List.map_append, List.sum_append, List.map_map]
        rfl
      rw [e, List.length_cons, pow_succ, pow_succ]
      have k1 := mul_le_mul_of_nonneg_left a1 (pow_nonneg (by linarith : 0 ≤ 1 - ε) st.length)
      have k2 := mul_le_mul_of_nonneg_left a2 (pow_nonneg (by linarith : 0 ≤ 1 + ε) st.length)
      constructor <;> nlinarith

/-- The condition of the next level. -/
theorem Spec.NearStages.level {ε : ℝ} {st : List (Stage ℝ)} {shape : List ℕ} {l : ℕ} (h : NearStages ε st shape (2 ^ l)) {j : ℕ}
    (hj : j < l) : NearStages ε st ((decShape st)^[j] shape) 2 := by
  refine ⟨h.1, fun s hs => ?_⟩
  obtain ⟨h1, h2, h3, h4, h5⟩ := h.2 s hs
  obtain ⟨d1, d2⟩ := decShape_iter_getD h.1 (fun s hs => (h.2 s hs).2.2.1) j
  have hdv : 2 ^ j ∣ shape.getD s.1 0 := (pow_dvd_pow 2 hj.le).trans h5
  rw [d1, d2 s hs, h1, approxLen_per_div hdv]
  refine ⟨rfl, h2, h3, Nat.div_pos (Nat.le_of_dvd (by omega) hdv) (by positivity), ?_⟩
  have : 2 ^ (j + 1) ∣ shape.getD s.1 0 := (pow_dvd_pow 2 hj).trans h5
  rw [pow_succ] at this
  exact (Nat.dvd_div_iff_mul_dvd hdv).mpr this

theorem Spec.NearStages.stagesOk {ε : ℝ} {st : List (Stage ℝ)} {shape : List ℕ} {m : ℕ} (h : NearStages ε st shape m) :
    StagesOk st shape :=
  stagesOk_of_lens h.1 fun s hs => by
    obtain ⟨h1, h2, h3, h4, -⟩ := h.2 s hs
    exact ⟨h3, h2.1, h4, by rw [h1]; simp⟩

theorem cascadeN_near {ε : ℝ} (h0 : 0 ≤ ε) (hε : ε ≤ 1) {st : List (Stage ℝ)} {x : Arr ℝ} {l : ℕ}
    (h : NearStages ε st x.shape (2 ^ l)) (n : ℕ) (hn : n ≤ l) :
    (1 - ε) ^ (st.length * n) * energy x.data ≤ energy (x.approxN st n).data +
        ((List.range n).map fun j => ((x.detailsN st j).map fun p => energy p.2.data).sum).sum ∧
      energy (x.approxN st n).data + ((List.range n).map fun j => ((x.detailsN st j).map fun p => energy p.2.data).sum).sum ≤
        (1 + ε) ^ (st.length * n) * energy x.data := by
  induction n with
  | zero => simp [Arr.approxN]
  | succ n ih =>
    obtain ⟨b1, b2⟩ := subbands_near h0 hε (x := x.approxN st n) (by rw [Arr.shape_approxN]; exact h.level (by omega))
    rw [List.range_succ, List.map_append, List.sum_append]
    simp only [List.map_cons, List.map_nil, List.sum_cons, List.sum_nil, add_zero]
    have hw : ((words st.length).map fun k => energy ((x.approxN st n).subband st k).data).sum =
        energy (x.approxN st (n + 1)).data + ((x.detailsN st n).map fun p => energy p.2.data).sum := by
      rw [words_split, Arr.approxN_succ]
      congr 1
      unfold Arr.detailsN
      rw [List.map_map]
      rfl
    rw [hw] at b1 b2
    set A := energy (x.approxN st n).data
    set T := ((List.range n).map fun j => ((x.detailsN st j).map fun p => energy p.2.data).sum).sum with hT
    have hT0 : 0 ≤ T := List.sum_nonneg fun v hv => by
      obtain ⟨j, -, rfl⟩ := List.mem_map.mp hv
      exact List.sum_nonneg fun v hv => by
        obtain ⟨p, -, rfl⟩ := List.mem_map.mp hv
        exact energy_nonneg _
    have a1 : (1 - ε) ^ st.length ≤ 1 := pow_le_one₀ (by linarith) (by linarith)
    have b1' : 1 ≤ (1 + ε) ^ st.length := one_le_pow₀ (by linarith)
    have a0 : 0 ≤ (1 - ε) ^ st.length := pow_nonneg (by linarith) _
    obtain ⟨i1, i2⟩ := ih (by omega)
    have k1 := mul_le_mul_of_nonneg_left i1 a0
    have k2 := mul_le_mul_of_nonneg_left i2 (by linarith : 0 ≤ (1 + ε) ^ st.length)
    have k3 := mul_le_mul_of_nonneg_right a1 hT0
    have k4 := mul_le_mul_of_nonneg_right b1' hT0
    rw [Nat.mul_succ, pow_add (1 - ε), pow_add (1 + ε)]
    constructor
    · calc (1 - ε) ^ (st.length * n) * (1 - ε) ^ st.length * energy x.data =
            (1 - ε) ^ st.length * ((1 - ε) ^ (st.length * n) * energy x.data) := by ring
        _ ≤ (1 - ε) ^ st.length * (A + T) := k1
        _ = (1 - ε) ^ st.length * A + (1 - ε) ^ st.length * T := by ring
        _ ≤ _ := by linarith
    · calc _ ≤ (1 + ε) ^ st.length * A + (1 + ε) ^ st.length * T := by linarith
        _ = (1 + ε) ^ st.length * (A + T) := by ring
        _ ≤ _ := k2
        _ = _ := by ring

end Pywt
