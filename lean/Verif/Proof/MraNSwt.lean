import Verif.Proof.MraNTop

/-!
# `mran`, `mra2` and `mra` along an axis with the stationary transforms
-/

namespace Pywt

open Finset Spec

set_option linter.unusedSectionVars false

variable {R M : Type} [Ring R] [AddCommGroup M] [Module R M]

/-- The arguments of a stationary transform as those of a decimated one. -/
theorem SwtResolves.resolves {ndim : ℕ} {wavelet : PerAxis (Wavelet R)} {axes : Option (List ℤ)}
    {norm : Option R} {st : List (SStage R)} (h : SwtResolves ndim wavelet axes norm st) :
    ∃ st0 : List (Stage R), Resolves ndim wavelet (.one .periodization) axes st0 ∧
      st0.map (·.1) = st.map (·.1) := by
  obtain ⟨st', ⟨h1, ws, h2, h3⟩, h4, -⟩ := h.renorm none
  refine ⟨perStages st', ⟨?_, ?_, ?_⟩, by rw [perStages_axes, h4]⟩
  · cases axes with
    | none => simp only at h1 ⊢; rw [perStages_axes]; exact h1
    | some l =>
      simp only at h1 ⊢
      rw [← h1]
      simp [perStages]
  · rw [perStages_length, h2]
    have : (perStages st').map (·.2.1) = st'.map (·.2) := by simp [perStages]
    rw [this, h3]
    simp [Wavelet.normed]
  · rw [perStages_length]
    have : (perStages st').map (·.2.2) = List.replicate st'.length .periodization := by
      simp [perStages, Function.comp_def, List.map_const']
    rw [this]
    rfl

theorem SwtResolves.expanded {ndim : ℕ} {wavelet : PerAxis (Wavelet R)} {axes : Option (List ℤ)}
    {norm : Option R} {st : List (SStage R)} (h : SwtResolves ndim wavelet axes norm st) {ws : List (Wavelet R)}
    (hws : wavelet.expand st.length = .ok ws) :
    SwtResolves ndim (.many ws) (some (axes.getD (rangeAxes ndim))) norm st := by
  obtain ⟨h1, ws', h2, h3⟩ := h
  rw [hws] at h2
  simp only [Except.ok.injEq] at h2
  subst h2
  refine ⟨?_, ws, (expand_many_self hws).2, h3⟩
  cases axes with
  | some l => exact h1
  | none =>
    simp only at h1 ⊢
    have : (st.map fun s : SStage R => (s.1 : ℤ)) = (st.map (·.1)).map fun n : ℕ => (n : ℤ) := by
      rw [List.map_map]; rfl
    rw [this, h1]
    simp only [Option.getD_none, rangeAxes, List.map_map]
    apply List.map_congr_left
    intro a _
    simp only [Function.comp]
    exact (if_neg (not_lt.mpr (Int.natCast_nonneg a))).symm

theorem SwtResolves.ne_nil {ndim : ℕ} {wavelet : PerAxis (Wavelet R)} {axes : Option (List ℤ)}
    {norm : Option R} {st : List (SStage R)} (hr : SwtResolves ndim wavelet axes norm st) (hnd : 1 ≤ ndim)
    (hax : axes ≠ some []) : st ≠ [] := by
  rintro rfl
  have := hr.1
  cases axes with
  | none =>
    simp only [List.map_nil] at this
    have := congrArg List.length this
    simp at this
    omega
  | some l =>
    simp only [List.map_nil] at this
    have := congrArg List.length this
    simp at this
    exact hax (by rw [List.length_eq_zero_iff.mp this.symm])

theorem onlyD_ok {ds : List (ADict M)} {m : ℕ} {S : List ℕ} (h : ∀ d ∈ ds, DictOk d m S ∧ d ≠ [])
    (i : Option (ℕ × Key)) : ∀ d ∈ onlyD ds i, DictOk d m S ∧ d ≠ [] := by
  intro d hd
  obtain ⟨j, hj, rfl⟩ := List.mem_iff_getElem.mp hd
  have hj' : j < ds.length := by rwa [onlyD_length] at hj
  have hs : skel ((onlyD ds i)[j]) = skel ds[j] := by
    have := congrArg (fun l => l[j]?) (skel_onlyD ds i)
    simpa [hj, hj'] using this
  obtain ⟨h1, h2⟩ := h _ (List.getElem_mem hj')
  refine ⟨h1.of_skel hs.symm, ?_⟩
  intro e
  rw [e] at hs
  apply h2
  have := congrArg List.length hs
  simpa [skel] using this.symm

section
variable [Invertible (2 : R)]

theorem swtnDict_ne_nil {st : List (SStage R)} (hst : st ≠ []) (m : ℕ) (trim : Bool) (x : Arr M) (j : ℕ) :
    swtnDict st m trim x j ≠ [] := by
  intro h
  have : List.replicate st.length 'd' ∈ (words st.length).filter
      fun k => !trim || decide (k ≠ List.replicate st.length 'a') := by
    rw [List.mem_filter]
    refine ⟨mem_words.mpr ⟨by simp, ?_⟩, ?_⟩
    · intro c hc
      rw [List.mem_replicate] at hc
      simp [hc.2]
    · cases st with
      | nil => exact absurd rfl hst
      | cons s st => simp [List.replicate_succ]
  unfold swtnDict at h
  rw [List.map_eq_nil_iff] at h
  rw [h] at this
  simp at this

/-- `mran` with `transform='swtn'`. -/
theorem mranSwtn_ok {s s' : R} {x : Arr M} {wavelet : PerAxis (Wavelet R)} (hw : wavelet.Ok)
    (hpr : NormsInv wavelet (some s) (some s')) {level : Option ℤ} {l : ℤ} (hlev : mraSwtLevel level x.shape = .ok l)
    (hl : 1 ≤ l) {axes : Option (List ℤ)}
    (hax : axes ≠ some []) {r : SwtN M} (h : swtn x wavelet l 0 axes true (some s) = .ok r) :
    ∃ A ds c0 cds, r = .trimmed A ds ∧
      mranSwtn s s' x wavelet level axes (.one .periodization) = .ok (c0, cds) ∧
      dictKeys cds = dictKeys ds ∧
      (∀ i ∈ coefPos ds, ∃ c, arrayAt c0 cds i = some c ∧ c.shape = x.shape ∧
        iswtn (.trimmed (onlyA A i) (onlyD ds i)) wavelet axes (some s') = .ok c) ∧
      imra (allArrays c0 cds) = .ok x := by
  have hinv := iswtn_swtn hw hpr hl hax h
  obtain ⟨l, rfl⟩ := Int.eq_ofNat_of_zero_le (show 0 ≤ l by omega)
  have hl' : 1 ≤ l := by simpa using hl
  obtain ⟨hnd, st, hr, hf⟩ := swtn_fits (m := 0) hw hl' h
  have hf0 : SwtnFits st l x.shape := by simpa using hf
  obtain ⟨st', hr', h1, h2⟩ := hr.renorm (some s')
  have hP := StagesPR.of_renorm hw hpr h2
  have hst := hr.ne_nil hnd hax
  have hf' := hf0.renorm hP h1
  have hlen : st'.length = st.length := hP.length.symm
  obtain ⟨ws, hws⟩ : ∃ ws, wavelet.expand st.length = .ok ws := ⟨_, hr.2.choose_spec.1⟩
  obtain ⟨st0, hr0, h0⟩ := hr.resolves
  have hv := swtn_ok (m := 0) hr hnd hf true
  have hvx := swtn_ok (m := 0) (hr.expanded hws) hnd hf true
  rw [Nat.cast_zero] at hv hvx
  rw [hv] at h
  simp only [if_true, Except.ok.injEq] at h hvx
  set A := swtnApprox st 0 x l with hA
  set ds := ((List.range l).map (swtnDict st 0 true x)).reverse with hds
  have hAs : A.shape = x.shape := swtnApprox_shape _ _ _ _
  have hdl : ds.length = l := by simp [hds]
  have hdok : ∀ d ∈ ds, DictOk d st'.length A.shape ∧ d ≠ [] := by
    intro d hd
    rw [hds, List.mem_reverse, List.mem_map] at hd
    obtain ⟨j, -, rfl⟩ := hd
    rw [hAs, hlen]
    exact ⟨swtnDict_ok _ _ _ _ _, swtnDict_ne_nil hst _ _ _ _⟩
  have hne : ds ≠ [] := by
    intro e
    rw [e] at hdl
    simp at hdl
    omega
  have hval : ∀ (wv : PerAxis (Wavelet R)) (ax : Option (List ℤ)), SwtResolves x.ndim wv ax (some s') st' → ∀ i,
      iswtn (.trimmed (onlyA A i) (onlyD ds i)) wv ax (some s') =
        .ok (iswtnCascade st' (onlyD ds i) (onlyA A i)) := by
    intro wv ax hres i
    unfold iswtn
    rw [iswtn_trimmed (st := st')]
    · have : (onlyA A i).ndim = x.ndim := by unfold Arr.ndim; rw [onlyA_shape, hAs]
      rw [this]; exact hres
    · rw [onlyD_length, hdl, onlyA_shape, hAs]; exact hf'
    · intro e
      have := congrArg List.length e
      rw [onlyD_length, hdl] at this
      simp at this
      omega
    · rw [onlyA_shape]
      exact onlyD_ok hdok i
  have hfull : iswtnCascade st' ds A = x := by
    have h3 : iswtn (.trimmed A ds) wavelet axes (some s') = .ok (iswtnCascade st' ds A) := by
      unfold iswtn
      rw [iswtn_trimmed (st := st') (by unfold Arr.ndim at hr' ⊢; rw [hAs]; exact hr')
        (by rw [hdl, hAs]; exact hf') hne hdok]
    rw [← h, h3] at hinv
    simpa using hinv
  have hkeys : ∀ d ∈ ds, (d.map (·.1)).Nodup := fun d hd => (hdok d hd).1.1
  obtain ⟨t, t1, t2⟩ := mra_only (R := R) (recM := fun a ds => iswtnCascade st' ds a)
    (recP := fun a ds => iswtnCascade st' ds a) (fun φ a ds => iswtnCascade_map φ st' ds a) hkeys
    (x := x) (a := A) (by rw [hfull]; exact Arr.Extends.refl x)
  -- nothing is trimmed
  have hsame : ∀ i, iswtnCascade st' (onlyD ds i) (onlyA A i) = t i := by
    intro i
    have hs : (iswtnCascade st' (onlyD ds i) (onlyA A i)).shape = x.shape := by
      rw [← hfull]
      exact only_shape (R := R) (recM := fun a ds => iswtnCascade st' ds a)
        (recP := fun a ds => iswtnCascade st' ds a) (fun φ a ds => iswtnCascade_map φ st' ds a) A ds i
    refine Arr.ext_get (by rw [hs, (t1 i).2.1]) fun idx hidx => ?_
    exact (t1 i).2.2.2.2 idx (by rw [(t1 i).2.1, ← hs]; exact hidx)
  refine ⟨A, ds, t none, compsOf ds t, h.symm, ?_, dictKeys_compsOf _ _, ?_, ?_⟩
  · have hnd0 : (st0.map (·.1)).Nodup := by rw [h0]; exact hf.1
    have hp := prepAxes_ok (shape := x.shape) hnd hr0 (by
      intro q hq
      have : q.1 ∈ st.map (·.1) := by rw [← h0]; exact List.mem_map_of_mem hq
      obtain ⟨p, hp, e⟩ := List.mem_map.mp this
      rw [← e]
      exact (hf.2 p hp).1) hnd0
    have hlen0 : (axes.getD (rangeAxes x.shape.length)).length = st.length := by
      have e1 := hr0.length
      have e2 := congrArg List.length h0
      simp only [List.length_map] at e2
      unfold Arr.ndim at e1
      omega
    have hw0 : wavelet.expand (axes.getD (rangeAxes x.shape.length)).length = .ok ws := by
      rw [hlen0]; exact hws
    have hs' : swtn x (.many ws) (l : ℤ) 0 (some (axes.getD (rangeAxes x.shape.length))) true (some s) =
        .ok (.trimmed A ds) := hvx
    have hper : ¬ ¬ (PerAxis.one Mode.periodization).isPer = true := by simp [PerAxis.isPer]
    simp only [mranSwtn, hp, Py_bind_ok, hw0, if_neg hper, hlev, hs']
    apply mranCore_ok hkeys
    intro i _
    refine ⟨_, ?_, (t1 i).1⟩
    exact hval _ _ (hr'.expanded (by rw [hlen]; exact hws)) i
  · intro i hi
    refine ⟨t i, arrayAt_compsOf hkeys t hi, (t1 i).2.1, ?_⟩
    rw [hval _ _ hr' i, hsame]
  · unfold allArrays
    rw [compsOf_flat]
    exact t2

end

end Pywt
