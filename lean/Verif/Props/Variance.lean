import Verif.Proof.Variance
import Verif.Props.SwtAdjoint

/-!
# Property C76: the normalized stationary transforms conserve energy and partition the variance
-/

set_option autoImplicit false

namespace Pywt

open Finset Spec

variable {K : Type} [Field K]

/-- **C76 (1-D).** With an orthogonal wavelet, `norm=True` and `trim_approx=True`, the variances of the arrays `swt` returns add up
to the variance of the signal.  (`t` is the factor `1/√2`; for the energy see `C17_swt_energy`.) -/
theorem C76_swt_variance {w : Wavelet K} (h : OrthogonalBank w) {t : K} (ht : 2 * (t * t) = 1) {l m : ℕ} {x : List K}
    {cs : List (List K)} (hr : swt w (some (l : ℤ)) (m : ℤ) true (some t) x = .ok (.trimmed cs)) :
    (cs.map variance).sum = variance x := by
  rw [swt_eq h.1] at hr
  split at hr
  swap
  · simp at hr
  simp only [Except.ok.injEq, swtResult, if_true, SwtCoeffs.trimmed.injEq] at hr
  rw [← hr, ← swt_split (Q := variance) (variance_step (keepsBoth_normed h ht)) m x l]
  simp only [List.map_cons, List.sum_cons, List.map_reverse, List.sum_reverse, List.map_map, Function.comp_def]

example : OrthogonalBank haarR ∧ 2 * ((1 / Real.sqrt 2) * (1 / Real.sqrt 2)) = 1 ∧
    ∃ cs, swt haarR (some ((2 : ℕ) : ℤ)) ((0 : ℕ) : ℤ) true (some (1 / Real.sqrt 2)) [(1 : ℝ), 2, 3, 4] = .ok (.trimmed cs) := by
  have he := swt_eq haarR_ok 2 0 true (some (1 / Real.sqrt 2)) [(1 : ℝ), 2, 3, 4]
  rw [if_pos (by decide)] at he
  exact ⟨haarR_orthogonal, inv_sqrt2_sq, _, he⟩

/-- **C76 (n-D).** The same for `swtn` over any axes, each with its own orthogonal wavelet: the approximation and all details
together have the energy of the array, and their variances add up to its variance. -/
theorem C76_swtn {wavelet : PerAxis (Wavelet K)} (h : AllOrthogonal wavelet) {axes : Option (List ℤ)} {t : K} (ht : 2 * (t * t) = 1)
    {st : List (SStage K)} {x : Arr K} (hr : SwtResolves x.ndim wavelet axes (some t) st) (hnd : 1 ≤ x.ndim) {l m : ℕ}
    (hf : SwtnFits st (m + l) x.shape) :
    ∃ A ds, swtn x wavelet (l : ℤ) (m : ℤ) axes true (some t) = .ok (.trimmed A ds) ∧
      energy A.data + (ds.map fun d => (d.map fun p => energy p.2.data).sum).sum = energy x.data ∧
      variance A.data + (ds.map fun d => (d.map fun p => variance p.2.data).sum).sum = variance x.data := by
  have hk := allOrthogonal_stages h ht hr
  refine ⟨_, _, by rw [swtn_ok hr hnd hf, if_pos rfl], ?_, ?_⟩
  · rw [List.map_reverse, List.sum_reverse, List.map_map]
    exact swtn_split (Q := fun y => energy y.data)
      (fun step s hs y hy => along_energy (hk s hs) (by rw [hy]; exact (hf.2 s hs).1) step) m rfl l
  · rw [List.map_reverse, List.sum_reverse, List.map_map]
    exact swtn_split (Q := fun y => variance y.data)
      (fun step s hs y hy => along_variance (hk s hs) (by rw [hy]; exact (hf.2 s hs).1) step) m rfl l

/-- **C76 (2-D).** The same for `swt2`. -/
theorem C76_swt2 {wavelet : PerAxis (Wavelet K)} (h : AllOrthogonal wavelet) {axes : List ℤ} {t : K} (ht : 2 * (t * t) = 1)
    {st : List (SStage K)} {x : Arr K} (hl : st.length = 2) (hr : SwtResolves x.ndim wavelet (some axes) (some t) st) {l m : ℕ}
    (hf : SwtnFits st (m + l) x.shape) :
    ∃ A ds, swt2 x wavelet (l : ℤ) (m : ℤ) axes true (some t) = .ok (.trimmed A ds) ∧
      energy A.data + (ds.map fun d => energy d.1.data + energy d.2.1.data + energy d.2.2.data).sum = energy x.data ∧
      variance A.data + (ds.map fun d => variance d.1.data + variance d.2.1.data + variance d.2.2.data).sum = variance x.data := by
  have hk := allOrthogonal_stages h ht hr
  refine ⟨_, _, (C45_swt2_values hl hr hf).2, ?_⟩
  have key : ∀ Q : Arr K → K, (∀ step, ∀ s ∈ st, ∀ y : Arr K, y.shape = x.shape →
      Q (y.along s.1 (y.shape.getD s.1 0) (atrous s.2.dec_lo step)) +
        Q (y.along s.1 (y.shape.getD s.1 0) (atrous s.2.dec_hi step)) = Q y) →
      Q (swtnApprox st m x l) + (((List.range l).map fun j => (swtnBand st m x j ['d', 'a'], swtnBand st m x j ['a', 'd'],
        swtnBand st m x j ['d', 'd'])).reverse.map fun d => Q d.1 + Q d.2.1 + Q d.2.2).sum = Q x := by
    intro Q hQ
    rw [← swtn_split hQ m rfl l, List.map_reverse, List.sum_reverse, List.map_map]
    congr 2
    refine List.map_congr_left fun j _ => ?_
    have hw : (words st.length).filter (fun k => decide (k ≠ List.replicate st.length 'a')) = [['a', 'd'], ['d', 'a'], ['d', 'd']] := by
      rw [hl]
      decide
    simp only [swtnDict, Bool.not_true, Bool.false_or, hw, Function.comp_apply, List.map_cons, List.map_nil, List.sum_cons, List.sum_nil,
      add_zero]
    ring
  exact ⟨key (fun y => energy y.data) fun step s hs y hy => along_energy (hk s hs) (by rw [hy]; exact (hf.2 s hs).1) step,
    key (fun y => variance y.data) fun step s hs y hy => along_variance (hk s hs) (by rw [hy]; exact (hf.2 s hs).1) step⟩

/-- The hypotheses of both are met by a 4×2 array with the Haar wavelet along both axes. -/
example : AllOrthogonal (.one haarR) ∧ 2 * ((1 / Real.sqrt 2) * (1 / Real.sqrt 2)) = 1 ∧
    SwtResolves 2 (.one haarR) (some [0, -1]) (some (1 / Real.sqrt 2))
      [(0, haarR.normed (some (1 / Real.sqrt 2))), (1, haarR.normed (some (1 / Real.sqrt 2)))] ∧
    SwtnFits [(0, haarR.normed (some (1 / Real.sqrt 2))), (1, haarR.normed (some (1 / Real.sqrt 2)))] (0 + 1) [4, 2] := by
  refine ⟨haarR_orthogonal, inv_sqrt2_sq, ⟨rfl, _, rfl, rfl⟩, by decide, ?_⟩
  intro s hs
  simp only [List.mem_cons, List.not_mem_nil, or_false] at hs
  rcases hs with rfl | rfl
  · exact ⟨by decide, haarR_ok.normed _, by decide, by decide⟩
  · exact ⟨by decide, haarR_ok.normed _, by decide, by decide⟩

end Pywt
