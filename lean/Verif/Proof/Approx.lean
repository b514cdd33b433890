import Verif.Spec.Builtin
import Verif.Proof.Dwt
import Verif.Proof.Ext
import Mathlib.Analysis.Normed.Module.Basic

/-! Reconstruction error of filter banks that reconstruct up to a tolerance. -/

namespace Pywt

open Finset Spec

set_option linter.unusedSectionVars false

variable {M : Type} [NormedAddCommGroup M] [NormedSpace ℝ M]

/-- The approximate version of `pr_key`. -/
theorem pr_within {ε : ℝ} {dlo dhi rlo rhi : List ℝ} (hpr : PRWithin ε dlo dhi rlo rhi)
    (h1 : dhi.length = dlo.length) (h2 : rlo.length = dlo.length) (h3 : rhi.length = dlo.length)
    (h4 : 1 ≤ dlo.length) (e : ℤ → M) (n o1 o2 : ℤ) (ho : o1 + o2 = dlo.length - 1) {B : ℝ}
    (hB : ∀ p : ℤ, n - dlo.length ≤ p → p < n + dlo.length → ‖e p‖ ≤ B) :
    ‖conv rlo (upsample fun k => conv dlo e (2 * k + o1)) (n + o2) +
      conv rhi (upsample fun k => conv dhi e (2 * k + o1)) (n + o2) - e n‖ ≤ ε * B := by
  rw [channel_eq, channel_eq, h1, h2, h3, ← sum_add_distrib, ← two_mul]
  set p := ((n + o2) % 2).toNat with hp
  have he : e n = ∑ s ∈ range (2 * dlo.length),
      (if s + 1 = dlo.length then (1 : ℝ) else 0) • e (n + o2 + o1 - s) := by
    rw [sum_eq_single (dlo.length - 1)]
    · rw [if_pos (by omega), one_smul]
      congr 1; omega
    · intro s _ hs
      rw [if_neg (by omega), zero_smul]
    · intro h
      simp only [mem_range] at h
      omega
  rw [he, ← sum_sub_distrib]
  have hB0 : 0 ≤ B := le_trans (norm_nonneg _) (hB n (by omega) (by omega))
  calc _ ≤ ∑ s ∈ range (2 * dlo.length),
        |parityCoeff rlo dlo p s + parityCoeff rhi dhi p s -
          (if s + 1 = dlo.length then 1 else 0)| * B := by
        refine (norm_sum_le _ _).trans (sum_le_sum fun s hs => ?_)
        simp only [mem_range] at hs
        rw [← add_smul, ← sub_smul, norm_smul, Real.norm_eq_abs]
        exact mul_le_mul_of_nonneg_left (hB _ (by omega) (by omega)) (abs_nonneg _)
    _ ≤ ε * B := by
        rw [← sum_mul]
        exact mul_le_mul_of_nonneg_right (hpr p (by omega)) hB0

theorem idwt_dwt_within {ε : ℝ} {w : Wavelet ℝ} (hw : w.Ok)
    (hpr : PRWithin ε w.dec_lo w.dec_hi w.rec_lo w.rec_hi) {mode : Mode} {x : List M}
    (hx : SignalOk mode x) {B : ℝ}
    (hB : ∀ p : ℤ, -w.dec_len ≤ p → p < x.length + w.dec_len → ‖ext mode x p‖ ≤ B) :
    ∃ cA cD y, dwt w mode x = .ok (cA, cD) ∧ idwt w mode (some cA) (some cD) = .ok y ∧
      y.length = x.length + x.length % 2 ∧
      ∀ n < x.length, ‖y.getD n 0 - x.getD n 0‖ ≤ ε * B := by
  obtain ⟨h1, h2, h3, h4, h5⟩ := hw
  have hw : w.Ok := ⟨h1, h2, h3, h4, h5⟩
  have hN := hx.1
  have hl : (analysis mode w.dec_lo x).length = coeffLen mode x.length w.dec_lo.length :=
    analysis_length _ _ _
  obtain ⟨o1, o2, ho, h⟩ := synthesis_analysis_gen h3 h4 h5 h1 h2 hN (mode := mode)
  refine ⟨_, _, _, dwt_ok hw hx, idwt_ok hw (by rw [analysis_length, analysis_length, h3]) (by
    rw [hl, Wavelet.rec_len, h4, synthLen_coeffLen h2 h1]; omega), ?_, ?_⟩
  · rw [h]; simp
  · intro n hn
    rw [h, List.getD_eq_getElem _ _ (by simp; omega)]
    simp only [List.getElem_map, List.getElem_range]
    rw [← ext_in x mode hn]
    exact pr_within hpr h3 h4 h5 (by omega) _ _ _ _ ho fun p hp1 hp2 =>
      hB p (by unfold Wavelet.dec_len; omega) (by unfold Wavelet.dec_len; omega)

theorem at'_le {x : List M} {B : ℝ} (hB0 : 0 ≤ B) (hB : ∀ v ∈ x, ‖v‖ ≤ B) (p : ℤ) : ‖at' x p‖ ≤ B := by
  unfold at'
  by_cases h : p.toNat < x.length
  · rw [List.getD_eq_getElem _ _ h]
    exact hB _ (List.getElem_mem h)
  · rw [List.getD_eq_default _ _ (by omega)]
    simpa using hB0

theorem ext_le {x : List M} {mode : Mode} (hm : Repeats mode) {B : ℝ} (hB0 : 0 ≤ B)
    (hB : ∀ v ∈ x, ‖v‖ ≤ B) (p : ℤ) : ‖ext mode x p‖ ≤ B := by
  have ha := fun p => at'_le hB0 hB p
  have hev : ∀ v ∈ evenPad x, ‖v‖ ≤ B := by
    intro v hv
    unfold evenPad at hv
    split at hv
    · simp only [List.mem_append, List.mem_singleton] at hv
      rcases hv with hv | rfl
      · exact hB v hv
      · exact ha _
    · exact hB v hv
  cases mode <;> simp only [Spec.ext]
  case smooth => exact absurd rfl hm.1
  case antireflect => exact absurd rfl hm.2
  case periodization => exact at'_le hB0 hev _
  all_goals first | exact ha _ | skip
  all_goals split_ifs <;> first | exact ha _ | (rw [norm_neg]; exact ha _) | (simpa using hB0)

end Pywt
