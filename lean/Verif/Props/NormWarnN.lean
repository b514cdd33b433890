import Verif.Proof.NormWarnN
import Verif.Props.Variance

/-!
# Property C77: what `swtn` and `swt2` with `norm=True` say about energy
-/

set_option autoImplicit false

namespace Pywt

open Finset Spec

/-- **C77 (`swtn`).** `swtn` warns exactly if `norm=True` is asked for and, of the wavelets given for at least one axis, one is not
flagged orthogonal.  The warning does not change the result. -/
theorem C77_swtn_warns {R M : Type} [Ring R] [AddCommGroup M] [Module R M] (x : Arr M) (wavelet : PerAxis (WaveletObj R))
    (level start : ℤ) (axes : Option (List ℤ)) (trim : Bool) (norm : Option R) {r : SwtN M} {b : Bool} :
    swtnWarn x wavelet level start axes trim norm = .ok (r, b) ↔
      swtn x (mapObjs (·.w) wavelet) level start axes trim norm = .ok r ∧
        (b = true ↔ norm ≠ none ∧ axisCount x.ndim axes ≠ 0 ∧ ∃ o ∈ given wavelet, o.orthogonal = false) :=
  swtnWarn_iff x wavelet level start axes trim norm

/-- **C77 (`swt2`).** The same for `swt2`, which has two axes. -/
theorem C77_swt2_warns {R M : Type} [Ring R] [AddCommGroup M] [Module R M] (x : Arr M) (wavelet : PerAxis (WaveletObj R))
    (level start : ℤ) (axes : List ℤ) (trim : Bool) (norm : Option R) {r : Swt2 M} {b : Bool} :
    swt2Warn x wavelet level start axes trim norm = .ok (r, b) ↔
      swt2 x (mapObjs (·.w) wavelet) level start axes trim norm = .ok r ∧
        (b = true ↔ norm ≠ none ∧ ∃ o ∈ given wavelet, o.orthogonal = false) :=
  swt2Warn_iff x wavelet level start axes trim norm

/-- One orthogonal wavelet and one that is not: `swtn` warns, whichever axis gets which. -/
example : let o1 : WaveletObj ℚ := ⟨"a", 0, haarQ, true, true, .unknown, "", "", 0, 0⟩
    let o2 : WaveletObj ℚ := ⟨"b", 0, legallQ, false, true, .unknown, "", "", 0, 0⟩
    ((swtnWarn arr24 (.many [o1, o2]) 1 0 none true (some (1 / 2))).map (·.2) = .ok true ∧
      (swtnWarn arr24 (.many [o2, o1]) 1 0 none true (some (1 / 2))).map (·.2) = .ok true) ∧
    ((swtnWarn arr24 (.many [o1, o1]) 1 0 none true (some (1 / 2))).map (·.2) = .ok false ∧
      (swt2Warn arr24 (.one o2) 1 0 [0, 1] true none).map (·.2) = .ok false) := by decide +kernel

/-- **C77 (energy).** For filters orthogonal up to `ε` on each of `d` axes, `l` levels of `swtn` with `norm=True` and
`trim_approx=True` change the energy by a factor between `(1-ε)^(d·l)` and `(1+ε)^(d·l)`. -/
theorem C77_swtn_energy {ε : ℝ} (h0 : 0 ≤ ε) (hε : ε ≤ 1) {wavelet : PerAxis (Wavelet ℝ)} {axes : Option (List ℤ)}
    {st : List (SStage ℝ)} {x : Arr ℝ} (hw : ∀ w ∈ given wavelet, NearOrthogonal ε w)
    (hr : SwtResolves x.ndim wavelet axes (some (1 / √2)) st) (hnd : 1 ≤ x.ndim) {l m : ℕ} (hf : SwtnFits st (m + l) x.shape) :
    ∃ A ds, swtn x wavelet (l : ℤ) (m : ℤ) axes true (some (1 / √2)) = .ok (.trimmed A ds) ∧
      (1 - ε) ^ (st.length * l) * energy x.data ≤ energy A.data + (ds.map fun d => (d.map fun p => energy p.2.data).sum).sum ∧
      energy A.data + (ds.map fun d => (d.map fun p => energy p.2.data).sum).sum ≤ (1 + ε) ^ (st.length * l) * energy x.data := by
  refine ⟨_, _, by rw [swtn_ok hr hnd hf, if_pos rfl], ?_⟩
  rw [List.map_reverse, List.sum_reverse, List.map_map]
  obtain ⟨-, ws, h1, h2⟩ := hr
  refine swtn_near (Q := fun y => energy y.data) (fun y => energy_nonneg _) (by linarith) (by linarith) (by linarith)
    (fun step s hs y hy => ?_) m rfl l
  have hmem := List.mem_map_of_mem (f := fun s : SStage ℝ => s.2) hs
  rw [h2] at hmem
  obtain ⟨w, hw', hws⟩ := List.mem_map.mp hmem
  obtain ⟨-, w', hg, rfl⟩ := (expand_exists h1 (fun v => v = w)).mp ⟨w, hw', rfl⟩
  obtain ⟨f1, -, f3, -⟩ := hf.2 s hs
  have := along_near (hw w' hg) inv_sqrt2_sq (x := y) (ax := s.1) (by rw [hy]; exact f1) (by rw [hy]; exact f3) step
  rw [← hws]
  exact this

/-- **C77 (no warning).** If `swtn` with `norm=True` and `trim_approx=True` does not warn for built-in wavelets whose tables are
exact up to `τ`, the energy changes by at most `2·d·l·τ` of it, for `l` levels along `d` axes. -/
theorem C77_no_warning_partial {single : Bool} {τ : ℝ} (h0 : 0 ≤ τ) (hτ : τ ≤ 1) {wavelet : PerAxis (WaveletObj ℤ)}
    (hw : ∀ o ∈ given wavelet, BuiltinWithin single τ o) {axes : Option (List ℤ)} {st : List (SStage ℝ)} {x : Arr ℝ}
    (hr : SwtResolves x.ndim (mapObjs (fun o => realBank o.w) wavelet) axes (some (1 / √2)) st) (hnd : 1 ≤ x.ndim) {l m : ℕ}
    (hf : SwtnFits st (m + l) x.shape) (hl : (st.length * l : ℕ) * τ ≤ 1) :
    ∃ A ds b, swtnWarn x (mapObjs realObj wavelet) (l : ℤ) (m : ℤ) axes true (some (1 / √2)) = .ok (.trimmed A ds, b) ∧
      (b = false → |energy A.data + (ds.map fun d => (d.map fun p => energy p.2.data).sum).sum - energy x.data| ≤
        2 * ((st.length * l : ℕ) * τ) * energy x.data) := by
  have hm : mapObjs (fun o : WaveletObj ℝ => o.w) (mapObjs realObj wavelet) = mapObjs (fun o => realBank o.w) wavelet := by
    cases wavelet <;> simp [mapObjs, realObj]
  have hg : ∀ {β : Type} (f : WaveletObj ℤ → β), given (mapObjs f wavelet) = (given wavelet).map f := by
    intro β f
    cases wavelet <;> simp [mapObjs, given]
  classical
  have hok := swtn_ok hr hnd hf true
  rw [if_pos rfl] at hok
  refine ⟨_, _, _, (C77_swtn_warns x _ _ _ axes true _ (b := decide (axisCount x.ndim axes ≠ 0 ∧
    ∃ o ∈ given (mapObjs realObj wavelet), o.orthogonal = false))).mpr ⟨hm.symm ▸ hok, by
      rw [decide_eq_true_iff]; simp⟩, fun hb => ?_⟩
  rw [decide_eq_false_iff_not] at hb
  rcases Nat.eq_zero_or_pos st.length with hs | hs
  · have hst : st = [] := List.length_eq_zero_iff.mp hs
    have := swtn_split (Q := fun y : Arr ℝ => energy y.data) (S := x.shape) (st := st) (by simp [hst]) m rfl l
    rw [List.map_reverse, List.sum_reverse, List.map_map]
    have h2 : ∀ a b : ℝ, a = b → |a - b| ≤ 2 * ((st.length * l : ℕ) * τ) * energy x.data := by
      rintro a b rfl
      rw [sub_self, abs_zero, hs]
      simp
    exact h2 _ _ this
  · have hax : axisCount x.ndim axes ≠ 0 := by
      have h1 := hr.1
      cases axes with
      | none =>
        simp only at h1
        have := congrArg List.length h1
        simp only [List.length_map, List.length_range] at this
        simp only [axisCount]
        omega
      | some a =>
        simp only at h1
        have := congrArg List.length h1
        simp only [List.length_map] at this
        simp only [axisCount]
        omega
    have hnear : ∀ w ∈ given (mapObjs (fun o : WaveletObj ℤ => realBank o.w) wavelet), NearOrthogonal τ w := by
      intro w hwm
      rw [hg] at hwm
      obtain ⟨o, ho, rfl⟩ := List.mem_map.mp hwm
      obtain ⟨name, fam, order, b1, b2, b3, b4⟩ := hw o ho
      have horth : o.orthogonal = true := by
        by_contra hc
        refine hb ⟨hax, realObj o, ?_, by simpa [realObj] using hc⟩
        rw [hg]
        exact List.mem_map_of_mem ho
      exact near_mono (C65_builtin_near_orthogonal b1 b2 single b3 horth) b4
    obtain ⟨A, ds, e1, e2, e3⟩ := C77_swtn_energy h0 hτ hnear hr hnd hf
    rw [hok] at e1
    simp only [Except.ok.injEq, SwtN.trimmed.injEq] at e1
    rw [e1.1, e1.2]
    exact energy_change h0 hτ hl (energy_nonneg _) e2 e3

/-- The hypotheses are met by `db2` along both axes of a 4×4 array. -/
example : ∃ o, waveletNamed false "db2" = .ok o ∧ BuiltinWithin false (1 / 100) o ∧
    ∃ st, SwtResolves 2 (mapObjs (fun o => realBank o.w) (.one o)) (some [0, -1]) (some (1 / √2)) st ∧
      SwtnFits st (0 + 2) [4, 4] ∧ ((st.length * 2 : ℕ) : ℝ) * (1 / 100) ≤ 1 := by
  have hm : ("db2", Family.db, 2) ∈ wnameToCode := by decide +kernel
  obtain ⟨o, h1, -, hw, -⟩ := builtin_ok (single := false) hm rfl
  refine ⟨o, h1, ⟨_, _, _, hm, rfl, h1, by norm_num [tolerance]⟩,
    [(0, (realBank o.w).normed (some (1 / √2))), (1, (realBank o.w).normed (some (1 / √2)))], ⟨rfl, _, rfl, rfl⟩, ⟨by simp, ?_⟩, by norm_num⟩
  intro s hs
  simp only [List.mem_cons, List.not_mem_nil, or_false] at hs
  rcases hs with rfl | rfl
  · exact ⟨by simp, (realBank_ok hw).normed _, by simp, by simp⟩
  · exact ⟨by simp, (realBank_ok hw).normed _, by simp, by simp⟩

end Pywt
