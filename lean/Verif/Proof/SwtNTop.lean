import Verif.Proof.IswtAxis

/-! Lemmas for the theorems about the n-D stationary transforms. -/

namespace Pywt

open Finset Spec

set_option linter.unusedSectionVars false

variable {R M : Type} [Ring R] [AddCommGroup M] [Module R M]

theorem swtLines_shape {w : Wavelet R} {m l : ℕ} {trim : Bool} {ax : ℕ} {x : Arr M} :
    ∀ a ∈ (swtLines w m l trim ax x).arrays, a.shape = x.shape := by
  have hal : ∀ g : List M → List M, (x.along ax (x.shape.getD ax 0) g).shape = x.shape := by
    intro g
    rw [Arr.shape_along, list_set_getD]
  intro a ha
  cases trim with
  | true =>
    simp only [swtLines, if_true, SwtCoeffs.arrays, List.mem_cons, List.mem_reverse, List.mem_map] at ha
    rcases ha with rfl | ⟨j, _, rfl⟩ <;> exact hal _
  | false =>
    simp only [swtLines, Bool.false_eq_true, if_false, SwtCoeffs.arrays, List.mem_append, List.mem_map,
      List.mem_reverse] at ha
    rcases ha with ⟨p, ⟨j, _, rfl⟩, rfl⟩ | ⟨p, ⟨j, _, rfl⟩, rfl⟩ <;> exact hal _

theorem swtLines_levels {w : Wavelet R} {m l : ℕ} {trim : Bool} {ax : ℕ} {x : Arr M} :
    (swtLines w m l trim ax x).levels = l := by
  cases trim <;> simp [swtLines, SwtCoeffs.levels]

theorem swtLines_lines {w : Wavelet R} {m l : ℕ} {trim : Bool} {ax : ℕ} {x : Arr M}
    (ha : ax < x.shape.length) {idx : ℕ → ℕ}
    (hidx : ∀ k < x.shape.length, k ≠ ax → idx k < x.shape.getD k 0) :
    (swtLines w m l trim ax x).lines ax idx = swtResult w m l trim (x.line ax idx) := by
  have e2 : ∀ j, (x.along ax (x.shape.getD ax 0)
      (fun u => swtApprox w.dec_lo m u j)).line ax idx = swtApprox w.dec_lo m (x.line ax idx) j :=
    fun j => Arr.line_along ha hidx (by rw [swtApprox_length, Arr.line_length])
  have e3 : ∀ j, (x.along ax (x.shape.getD ax 0)
      (fun u => swtDetail w.dec_lo w.dec_hi m u j)).line ax idx = swtDetail w.dec_lo w.dec_hi m (x.line ax idx) j :=
    fun j => Arr.line_along ha hidx (by rw [swtDetail_length, Arr.line_length])
  cases trim with
  | true =>
    simp only [swtLines, if_true, SwtCoeffs.lines, swtResult, List.map_cons, List.map_reverse, List.map_map, e2]
    congr 3
    apply List.map_congr_left
    intro j _
    exact e3 j
  | false =>
    simp only [swtLines, Bool.false_eq_true, if_false, SwtCoeffs.lines, swtResult, List.map_reverse, List.map_map]
    congr 2
    apply List.map_congr_left
    intro j _
    simp only [Function.comp_apply, e2, e3]

/-- Whatever the level arguments, a successful `swt` along an axis ran with some level and some start
level, and so does 1-D `swt` on every signal as long as the axis. -/
theorem swtA_level {w : Wavelet R} {level : Option ℤ} {start : ℤ} {trim : Bool} {norm : Option R} {axis : ℤ}
    {ax : ℕ} {x : Arr M} (hax : AxisIs x.ndim axis ax) {r : SwtCoeffs (Arr M)}
    (h : swtA w level start trim norm axis x = .ok r) :
    ∃ l m : ℕ, start = m ∧ swtA w (some (l : ℤ)) (m : ℤ) trim norm axis x = .ok r ∧
      ∀ u : List M, u.length = x.shape.getD ax 0 →
        swt w level start trim norm u = swt w (some (l : ℤ)) (m : ℤ) trim norm u := by
  have hs : 0 ≤ start := by
    by_contra hc
    unfold swtA at h
    simp only [hax.normAxis, Py_bind_ok] at h
    cases hl : swtLevel level (x.shape.getD ax 0) with
    | error e => rw [hl] at h; simp [Py_bind_error] at h
    | ok l =>
      rw [hl] at h
      simp only [Py_bind_ok, if_pos (show start < 0 by omega)] at h
      exact absurd h (by simp [Py_throw, Py_bind_error])
  obtain ⟨m, rfl⟩ := Int.eq_ofNat_of_zero_le hs
  cases level with
  | some lv =>
    have hl : 0 ≤ lv := by
      by_contra hc
      unfold swtA at h
      simp only [hax.normAxis, Py_bind_ok, swtLevel, if_pos (show lv < 0 by omega), Py_bind_error] at h
      exact absurd h (by simp)
    obtain ⟨l, rfl⟩ := Int.eq_ofNat_of_zero_le hl
    exact ⟨l, m, rfl, h, fun u _ => rfl⟩
  | none =>
    have hN : 1 ≤ x.shape.getD ax 0 := by
      by_contra hc
      unfold swtA at h
      simp only [hax.normAxis, Py_bind_ok, swtLevel, swtMaxLevel,
        if_pos (show x.shape.getD ax 0 < 1 by omega), Py_bind_error] at h
      exact absurd h (by simp)
    refine ⟨swtMaxLevelC (x.shape.getD ax 0), m, rfl, ?_, ?_⟩
    · rw [← h]
      unfold swtA
      simp only [hax.normAxis, Py_bind_ok, swtLevel, swtMaxLevel,
        if_neg (show ¬ x.shape.getD ax 0 < 1 by omega),
        if_neg (show ¬ ((swtMaxLevelC (x.shape.getD ax 0) : ℕ) : ℤ) < 0 by omega), Int.toNat_natCast]
    · intro u hu
      rw [← hu]
      exact swt_none_eq m trim norm (by omega)

theorem swtA_bad_axis {w : Wavelet R} {level : Option ℤ} {start : ℤ} {trim : Bool} {norm : Option R} {axis : ℤ}
    {x : Arr M} (h : ¬ ∃ ax, AxisIs x.ndim axis ax) : swtA w level start trim norm axis x = .error .axis := by
  have h1 := not_axisIs h
  have : normAxis x.ndim axis = .error .axis := by
    unfold normAxis
    simp only
    rw [if_neg]
    split <;> omega
  unfold swtA
  simp only [this, Py_bind_error]

section
variable [Invertible (2 : R)]

theorem iswtA_lines {w : Wavelet R} (hw : w.Ok) {norm : Option R} {axis : ℤ} {ax : ℕ} {S : List ℕ}
    {c : SwtCoeffs (Arr M)} (hax : AxisIs S.length axis ax) (hs : ∀ a ∈ c.arrays, a.shape = S)
    (hl : 1 ≤ c.levels) (h1 : 1 ≤ S.getD ax 0) (h2 : 2 ^ c.levels ∣ S.getD ax 0) :
    ∃ y, iswtA w norm axis c = .ok y ∧ y.shape = S ∧
      ∀ idx : ℕ → ℕ, (∀ k < S.length, k ≠ ax → idx k < S.getD k 0) →
        iswt w norm (c.lines ax idx) = .ok (y.line ax idx) := by
  have hw' := hw.normed norm
  cases c with
  | trimmed l =>
    cases l with
    | nil => simp [SwtCoeffs.levels] at hl
    | cons A ds =>
      simp only [SwtCoeffs.arrays, List.mem_cons, forall_eq_or_imp] at hs
      obtain ⟨rfl, hs⟩ := hs
      simp only [SwtCoeffs.levels, List.length_cons, Nat.add_sub_cancel] at hl h2
      refine ⟨_, iswtA_trimmed hw hax hs (by rintro rfl; simp at hl) h1 h2, iswtnCascade_shape _ _ _, ?_⟩
      intro idx hidx
      rw [cascade_one ds (dict := fun d => [(['d'], d)]) (fun d => rfl) A hax.2 hs idx hidx]
      simp only [SwtCoeffs.lines, List.map_cons, iswt]
      rw [iswtLoop_gen hw' _ _ (by simpa using h1) (by simpa using h2)]
      intro d hd
      obtain ⟨e, he, rfl⟩ := List.mem_map.mp hd
      rw [Arr.line_length, Arr.line_length, hs e he]
  | pairs l =>
    cases l with
    | nil => simp [SwtCoeffs.levels] at hl
    | cons p ps =>
      obtain ⟨A, D⟩ := p
      have hA : A.shape = S := hs A (by simp [SwtCoeffs.arrays])
      subst hA
      have hs' : ∀ p ∈ (A, D) :: ps, p.1.shape = A.shape ∧ p.2.shape = A.shape := by
        intro p hp
        constructor
        · apply hs
          simp only [SwtCoeffs.arrays, List.mem_append]
          exact .inl (List.mem_map.mpr ⟨p, hp, rfl⟩)
        · apply hs
          simp only [SwtCoeffs.arrays, List.mem_append]
          exact .inr (List.mem_map.mpr ⟨p, hp, rfl⟩)
      simp only [SwtCoeffs.levels, List.length_cons] at hl h2
      refine ⟨_, iswtA_pairs hw hax hs' h1 h2, iswtnCascade_shape _ _ _, ?_⟩
      intro idx hidx
      have hmm : (((A, D) :: ps).map fun p => [(['d'], p.2)]) =
          (((A, D) :: ps).map (·.2)).map fun d : Arr M => [(['d'], d)] := by rw [List.map_map]; rfl
      rw [hmm, cascade_one (((A, D) :: ps).map (·.2)) (dict := fun d => [(['d'], d)]) (fun d => rfl) A hax.2 (by
        intro d hd
        obtain ⟨p, hp, rfl⟩ := List.mem_map.mp hd
        exact (hs' p hp).2) idx hidx]
      simp only [SwtCoeffs.lines, List.map_cons, iswt]
      rw [iswtLoop_gen hw' _ _ (by simpa using h1) (by simpa using h2)]
      · simp only [List.map_map]
        rfl
      · intro d hd
        simp only [List.mem_cons, List.map_map, List.mem_map, Function.comp_apply] at hd
        rcases hd with rfl | ⟨p, hp, rfl⟩
        · rw [Arr.line_length, Arr.line_length, (hs' _ List.mem_cons_self).2]
        · rw [Arr.line_length, Arr.line_length, (hs' p (List.mem_cons_of_mem _ hp)).2]

/-- The round trip along an axis from the 1-D round trip. -/
theorem iswtA_swtA {w : Wavelet R} (hw : w.Ok) {level : Option ℤ} {trim : Bool} {norm norm' : Option R}
    {axis : ℤ} {ax : ℕ} {x : Arr M} (hax : AxisIs x.ndim axis ax) {r : SwtCoeffs (Arr M)}
    (h : swtA w level 0 trim norm axis x = .ok r)
    (hinv : ∀ u : List M, ∀ r, swt w level 0 trim norm u = .ok r → iswt w norm' r = .ok u) :
    iswtA w norm' axis r = .ok x := by
  obtain ⟨l, m, hm, h', hsw⟩ := swtA_level hax h
  have hm0 : m = 0 := by omega
  subst hm0
  rw [swtA_eq hw l 0 trim norm hax] at h'
  by_cases hc : 1 ≤ l ∧ 1 ≤ x.shape.getD ax 0 ∧ 2 ^ (0 + l) ∣ x.shape.getD ax 0
  · rw [if_pos hc] at h'
    simp only [Except.ok.injEq] at h'
    subst h'
    obtain ⟨y, y1, y2, y3⟩ := iswtA_lines hw (norm := norm') (c := swtLines (w.normed norm) 0 l trim ax x)
      hax swtLines_shape (by rw [swtLines_levels]; exact hc.1) hc.2.1
      (by rw [swtLines_levels]; simpa using hc.2.2)
    rw [y1]
    congr 1
    apply Arr.ext_line (axis := ax) (by rw [y2]; exact hax.2) y2
    intro idx hidx
    rw [y2] at hidx
    have h3 := y3 idx hidx
    rw [swtLines_lines hax.2 hidx] at h3
    have h4 : swt w level 0 trim norm (x.line ax idx) = .ok (swtResult (w.normed norm) 0 l trim (x.line ax idx)) := by
      have := hsw (x.line ax idx) (by simp)
      rw [hm] at *
      rw [this, swt_eq hw, if_pos (by simpa using hc)]
    have h5 := hinv _ _ h4
    rw [h3] at h5
    simpa using h5
  · rw [if_neg hc] at h'
    simp at h'

end

/-! ### Success of `swtn` -/

theorem PerAxis.Ok.expand {p : PerAxis (Wavelet R)} (h : p.Ok) {n : ℕ} {ws : List (Wavelet R)}
    (hw : p.expand n = .ok ws) : ∀ w ∈ ws, w.Ok := by
  cases p with
  | one w =>
    simp only [PerAxis.expand, Except.ok.injEq] at hw
    subst hw
    intro v hv
    rw [List.eq_of_mem_replicate hv]
    exact h
  | many l =>
    match l, hw with
    | [], hw =>
      simp only [PerAxis.expand] at hw
      split at hw
      · simp at hw
      · simp only [Except.ok.injEq] at hw; subst hw; simp
    | [a], hw =>
      simp only [PerAxis.expand, Except.ok.injEq] at hw
      subst hw
      intro v hv
      rw [List.eq_of_mem_replicate hv]
      exact h a (by simp)
    | a :: b :: l, hw =>
      simp only [PerAxis.expand] at hw
      split at hw
      · simp at hw
      · simp only [Except.ok.injEq] at hw; subst hw; exact h

theorem PerAxis.PR.expand {p : PerAxis (Wavelet R)} (h : p.PR) {n : ℕ} {ws : List (Wavelet R)}
    (hw : p.expand n = .ok ws) : ∀ w ∈ ws, Spec.PR w.dec_lo w.dec_hi w.rec_lo w.rec_hi := by
  cases p with
  | one w =>
    simp only [PerAxis.expand, Except.ok.injEq] at hw
    subst hw
    intro v hv
    rw [List.eq_of_mem_replicate hv]
    exact h
  | many l =>
    match l, hw with
    | [], hw =>
      simp only [PerAxis.expand] at hw
      split at hw
      · simp at hw
      · simp only [Except.ok.injEq] at hw; subst hw; simp
    | [a], hw =>
      simp only [PerAxis.expand, Except.ok.injEq] at hw
      subst hw
      intro v hv
      rw [List.eq_of_mem_replicate hv]
      exact h a (by simp)
    | a :: b :: l, hw =>
      simp only [PerAxis.expand] at hw
      split at hw
      · simp at hw
      · simp only [Except.ok.injEq] at hw; subst hw; exact h

theorem PerAxis.expand_length {α : Type} {p : PerAxis α} {n : ℕ} {ws : List α}
    (hw : p.expand n = .ok ws) : ws.length = n := by
  cases p with
  | one w =>
    simp only [PerAxis.expand, Except.ok.injEq] at hw
    subst hw
    simp
  | many l =>
    match l, hw with
    | [], hw =>
      simp only [PerAxis.expand] at hw
      split at hw
      · simp at hw
      · rename_i h; simp only [Except.ok.injEq] at hw; subst hw; simpa using h
    | [a], hw =>
      simp only [PerAxis.expand, Except.ok.injEq] at hw
      subst hw
      simp
    | a :: b :: l, hw =>
      simp only [PerAxis.expand] at hw
      split at hw
      · simp at hw
      · rename_i h; simp only [Except.ok.injEq] at hw; subst hw; simpa using h

/-- A successful `swtn` has resolved its arguments. -/
theorem swtn_resolves {x : Arr M} {wavelet : PerAxis (Wavelet R)} {level start : ℤ} {axes : Option (List ℤ)}
    {trim : Bool} {norm : Option R} {r : SwtN M} (h : swtn x wavelet level start axes trim norm = .ok r) :
    1 ≤ x.ndim ∧ ∃ st : List (SStage R), SwtResolves x.ndim wavelet axes norm st ∧
      (st.map (·.1)).Nodup ∧ ∀ s ∈ st, s.1 < x.ndim := by
  unfold swtn at h
  by_cases e1 : x.ndim < 1
  · rw [if_pos e1] at h; exact absurd h (by simp [Py_throw, Py_bind_error])
  rw [if_neg e1] at h
  simp only [Py_pure, Py_bind_ok] at h
  set ax := normAxes x.ndim (axes.getD (rangeAxes x.ndim)) with hax
  by_cases e2 : (ax.any fun a => decide (a < 0 ∨ a ≥ x.ndim)) = true
  · rw [if_pos e2] at h; exact absurd h (by simp [Py_throw, Py_bind_error])
  rw [if_neg e2] at h
  by_cases e3 : ¬ ax.Nodup
  · rw [if_pos e3] at h; exact absurd h (by simp [Py_throw, Py_bind_error])
  rw [if_neg e3] at h
  rw [not_not] at e3
  cases hws : wavelet.expand ax.length with
  | error e => rw [hws] at h; simp [Py_bind_error] at h
  | ok ws =>
    have hlen := PerAxis.expand_length hws
    refine ⟨by omega, (ax.map Int.toNat).zip (ws.map fun w => w.normed norm), ?_, ?_, ?_⟩
    all_goals simp only [Bool.not_eq_true, List.any_eq_false, decide_eq_true_eq, not_or, not_lt, not_le] at e2
    · have h1 : (((ax.map Int.toNat).zip (ws.map fun w => w.normed norm)).map fun s : SStage R => s.1) =
          ax.map Int.toNat := List.map_fst_zip (by simp [hlen])
      have h2 : ax.map (fun a => ((Int.toNat a : ℕ) : ℤ)) = ax := by
        conv_rhs => rw [← List.map_id ax]
        apply List.map_congr_left
        intro a ha
        have := e2 a ha
        simp only [id]
        omega
      refine ⟨?_, ws, ?_, ?_⟩
      · cases axes with
        | none =>
          simp only
          rw [h1, hax]
          simp only [Option.getD_none, normAxes, rangeAxes, List.map_map]
          conv_rhs => rw [← List.map_id (List.range x.ndim)]
          apply List.map_congr_left
          intro a _
          simp only [Function.comp_apply, Int.ofNat_eq_natCast, id]
          rw [if_neg (by omega)]
          simp
        | some l =>
          simp only
          rw [show (((ax.map Int.toNat).zip (ws.map fun w => w.normed norm)).map fun s : SStage R => (s.1 : ℤ)) =
            (((ax.map Int.toNat).zip (ws.map fun w => w.normed norm)).map fun s : SStage R => s.1).map
              fun n : ℕ => (n : ℤ) by rw [List.map_map]; rfl, h1, List.map_map]
          rw [show ((fun n : ℕ => (n : ℤ)) ∘ Int.toNat) = fun a => ((Int.toNat a : ℕ) : ℤ) from rfl, h2, hax]
          rfl
      · rw [List.length_zip, List.length_map, List.length_map, hlen, min_self]
        exact hws
      · rw [List.map_snd_zip (by simp [hlen])]
    · rw [List.map_fst_zip (by simp [hlen])]
      apply List.Nodup.map_on _ e3
      intro a ha b hb hab
      have h1 := e2 a ha
      have h2 := e2 b hb
      omega
    · intro s hs
      have := (List.of_mem_zip (show (s.1, s.2) ∈ _ from hs)).1
      obtain ⟨a, ha, hs1⟩ := List.mem_map.mp this
      have h1 := e2 a ha
      omega

theorem SwtResolves.stages_ok {ndim : ℕ} {wavelet : PerAxis (Wavelet R)} {axes : Option (List ℤ)}
    {norm : Option R} {st : List (SStage R)} (h : SwtResolves ndim wavelet axes norm st) (hw : wavelet.Ok) :
    ∀ s ∈ st, s.2.Ok := by
  obtain ⟨-, ws, h1, h2⟩ := h
  intro s hs
  have : s.2 ∈ st.map (·.2) := List.mem_map.mpr ⟨s, hs, rfl⟩
  rw [h2] at this
  obtain ⟨w, hw', e⟩ := List.mem_map.mp this
  rw [← e]
  exact (hw.expand h1 w hw').normed norm

/-- A successful `swtn` of at least one level. -/
theorem swtn_fits {x : Arr M} {wavelet : PerAxis (Wavelet R)} (hw : wavelet.Ok) {l m : ℕ}
    {axes : Option (List ℤ)} {trim : Bool} {norm : Option R} {r : SwtN M} (hl : 1 ≤ l)
    (h : swtn x wavelet (l : ℤ) (m : ℤ) axes trim norm = .ok r) :
    1 ≤ x.ndim ∧ ∃ st : List (SStage R), SwtResolves x.ndim wavelet axes norm st ∧
      SwtnFits st (m + l) x.shape := by
  obtain ⟨hnd, st, hr, hn, hlt⟩ := swtn_resolves h
  refine ⟨hnd, st, hr, ?_⟩
  by_contra hc
  rw [swtn_err hr hnd hn (fun s hs => ⟨hlt s hs, hr.stages_ok hw s hs⟩) hl hc] at h
  simp at h

/-- The same arguments with another factor. -/
theorem SwtResolves.renorm {ndim : ℕ} {wavelet : PerAxis (Wavelet R)} {axes : Option (List ℤ)}
    {norm : Option R} {st : List (SStage R)} (h : SwtResolves ndim wavelet axes norm st) (norm' : Option R) :
    ∃ st' : List (SStage R), SwtResolves ndim wavelet axes norm' st' ∧ st'.map (·.1) = st.map (·.1) ∧
      List.Forall₂ (fun s s' : SStage R => s.1 = s'.1 ∧ ∃ w : Wavelet R, (∃ n, ∃ ws, wavelet.expand n = .ok ws ∧ w ∈ ws) ∧
        s.2 = w.normed norm ∧ s'.2 = w.normed norm') st st' := by
  obtain ⟨h1, ws, h2, h3⟩ := h
  have hlen := PerAxis.expand_length h2
  have hf1 : ((st.map (·.1)).zip (ws.map fun w => w.normed norm')).map (·.1) = st.map (·.1) :=
    List.map_fst_zip (by simp [hlen])
  have hl' : ((st.map (·.1)).zip (ws.map fun w => w.normed norm')).length = st.length := by simp [hlen]
  refine ⟨(st.map (·.1)).zip (ws.map fun w => w.normed norm'), ⟨?_, ws, ?_, ?_⟩, hf1, ?_⟩
  · cases axes with
    | none => simp only at h1 ⊢; rw [hf1]; exact h1
    | some l =>
      simp only at h1 ⊢
      rw [← h1, show (((st.map (·.1)).zip (ws.map fun w => w.normed norm')).map fun s : SStage R => (s.1 : ℤ)) =
        (((st.map (·.1)).zip (ws.map fun w => w.normed norm')).map (·.1)).map fun n : ℕ => (n : ℤ) by
          rw [List.map_map]; rfl, hf1, List.map_map]
      rfl
  · rw [hl']; exact h2
  · rw [List.map_snd_zip (by simp [hlen])]
  · rw [List.forall₂_iff_get]
    refine ⟨hl'.symm, ?_⟩
    intro i hi hi'
    simp only [List.get_eq_getElem, List.getElem_zip, List.getElem_map, true_and]
    refine ⟨ws[i]'(by omega), ⟨_, ws, h2, List.getElem_mem _⟩, ?_, rfl⟩
    have : (st.map (·.2))[i]'(by simpa using hi) = (ws.map fun w => w.normed norm)[i]'(by simpa [hlen] using hi) := by
      simp only [h3]
    simpa using this

/-! ### Round trips -/

section
variable [Invertible (2 : R)]

/-- What is needed of the factors on the two sides: each wavelet with the first inverts to each wavelet
with the second. -/
def NormsInv (wavelet : PerAxis (Wavelet R)) (norm norm' : Option R) : Prop :=
  ∀ n ws, wavelet.expand n = .ok ws → ∀ w ∈ ws,
    PR (w.normed norm).dec_lo (w.normed norm).dec_hi (w.normed norm').rec_lo (w.normed norm').rec_hi

theorem normed_lengths {w : Wavelet R} (hw : w.Ok) (norm norm' : Option R) :
    (w.normed norm).dec_lo.length = (w.normed norm').rec_len ∧
      (w.normed norm).dec_hi.length = (w.normed norm').rec_len := by
  obtain ⟨-, -, h3, h4, -⟩ := hw
  have e1 : (w.normed norm).dec_lo.length = w.dec_lo.length := by
    cases norm <;> simp [Wavelet.normed, Wavelet.rescale]
  have e2 : (w.normed norm).dec_hi.length = w.dec_hi.length := by
    cases norm <;> simp [Wavelet.normed, Wavelet.rescale]
  have e3 : (w.normed norm').rec_len = w.rec_lo.length := by
    cases norm' <;> simp [Wavelet.normed, Wavelet.rescale, Wavelet.rec_len]
  rw [e1, e2, e3]
  unfold Wavelet.dec_len at *
  omega

theorem StagesPR.of_renorm {wavelet : PerAxis (Wavelet R)} (hw : wavelet.Ok) {norm norm' : Option R}
    (hpr : NormsInv wavelet norm norm') {st st' : List (SStage R)}
    (h : List.Forall₂ (fun s s' : SStage R => s.1 = s'.1 ∧ ∃ w : Wavelet R, (∃ n, ∃ ws, wavelet.expand n = .ok ws ∧ w ∈ ws) ∧
        s.2 = w.normed norm ∧ s'.2 = w.normed norm') st st') : StagesPR st st' := by
  unfold StagesPR
  refine h.imp ?_
  rintro s s' ⟨h1, w, ⟨n, ws, h2, h3⟩, h4, h5⟩
  have hok := hw.expand h2 w h3
  rw [h4, h5]
  exact ⟨h1, hok.normed norm', hpr n ws h2 w h3, (normed_lengths hok norm norm').1,
    (normed_lengths hok norm norm').2⟩

theorem SwtnFits.renorm {st st' : List (SStage R)} {L : ℕ} {S : List ℕ} (h : SwtnFits st L S)
    (hp : StagesPR st st') (h1 : st'.map (·.1) = st.map (·.1)) : SwtnFits st' L S := by
  refine ⟨by rw [h1]; exact h.1, ?_⟩
  have h2 := h.2
  clear h1
  unfold StagesPR at hp
  clear h
  induction hp with
  | nil => simp
  | @cons s s' st st' h hp ih =>
    intro t ht
    rcases List.mem_cons.mp ht with rfl | ht
    · have := h2 s List.mem_cons_self
      rw [h.1] at this
      exact ⟨this.1, h.2.1, this.2.2⟩
    · exact ih (fun s hs => h2 s (List.mem_cons_of_mem _ hs)) t ht

/-- `iswtn` inverts `swtn`. -/
theorem iswtn_swtn {x : Arr M} {wavelet : PerAxis (Wavelet R)} (hw : wavelet.Ok) {norm norm' : Option R}
    (hpr : NormsInv wavelet norm norm') {l : ℤ} (hl : 1 ≤ l) {axes : Option (List ℤ)} (hax : axes ≠ some [])
    {trim : Bool} {r : SwtN M} (h : swtn x wavelet l 0 axes trim norm = .ok r) :
    iswtn r wavelet axes norm' = .ok x := by
  obtain ⟨l, rfl⟩ := Int.eq_ofNat_of_zero_le (show 0 ≤ l by omega)
  have hl' : 1 ≤ l := by simpa using hl
  obtain ⟨hnd, st, hr, hf⟩ := swtn_fits (m := 0) hw hl' h
  obtain ⟨st', hr', h1, h2⟩ := hr.renorm norm'
  have hP := StagesPR.of_renorm hw hpr h2
  have hst : st ≠ [] := by
    rintro rfl
    have := hr.1
    cases axes with
    | none =>
      simp only [List.map_nil] at this
      have := congrArg List.length this
      simp at this
      omega
    | some l =>
      simp only [List.map_nil] at this
      have := congrArg List.length this
      simp at this
      exact hax (by rw [List.length_eq_zero_iff.mp this.symm])
  obtain ⟨r', h3, h4⟩ := swtn_iswtn hr hr' hnd hl' (by simpa using hf)
    ((by simpa using hf : SwtnFits st l x.shape).renorm hP h1) hst hP trim
  rw [h3] at h
  simp only [Except.ok.injEq] at h
  rw [← h]
  exact h4

theorem swt2Det_lookup {st : List (SStage R)} (hst : st.length = 2) (m : ℕ) (trim : Bool) (x : Arr M) (j : ℕ) {k : Key}
    (hk : k ∈ words st.length) (hne : k ≠ aKey st.length) :
    (dict3 (swt2Det st m x j)).lookup k = (swtnDict st m trim x j).lookup k := by
  rw [swtnDict_lookup trim x j hk hne]
  rw [hst] at hk hne
  have hw : words 2 = [['a', 'a'], ['a', 'd'], ['d', 'a'], ['d', 'd']] := rfl
  rw [hw] at hk
  have hne' : k ≠ ['a', 'a'] := hne
  simp only [List.mem_cons, List.not_mem_nil, or_false] at hk
  rcases hk with rfl | rfl | rfl | rfl
  · exact absurd rfl hne'
  · rfl
  · rfl
  · rfl

/-- `iswt2` inverts `swt2`. -/
theorem iswt2_swt2 {x : Arr M} {wavelet : PerAxis (Wavelet R)} (hw : wavelet.Ok) {norm norm' : Option R}
    (hpr : NormsInv wavelet norm norm') {l : ℤ} (hl : 1 ≤ l) {axes : List ℤ}
    {trim : Bool} {r : Swt2 M} (h : swt2 x wavelet l 0 axes trim norm = .ok r) :
    iswt2 r wavelet norm' axes = .ok x := by
  obtain ⟨l, rfl⟩ := Int.eq_ofNat_of_zero_le (show 0 ≤ l by omega)
  have hl' : 1 ≤ l := by simpa using hl
  have hal : axes.length = 2 := by
    by_contra hc
    unfold swt2 at h
    rw [if_pos hc] at h
    exact absurd h (by simp [Py_throw, Py_bind_error])
  have hsome : ∃ r', swtn x wavelet (l : ℤ) 0 (some axes) trim norm = .ok r' := by
    cases hr : swtn x wavelet (l : ℤ) 0 (some axes) trim norm with
    | ok r' => exact ⟨r', rfl⟩
    | error e =>
      unfold swt2 at h
      simp only [hr] at h
      rw [if_neg (not_not.mpr hal)] at h
      split_ifs at h <;> exact absurd h (by simp [Py_throw, Py_bind_error, Py_pure, Py_bind_ok])
  obtain ⟨r', hr0⟩ := hsome
  obtain ⟨hnd, st, hr, hf⟩ := swtn_fits (m := 0) hw hl' hr0
  obtain ⟨st', hr', h1, h2⟩ := hr.renorm norm'
  have hP := StagesPR.of_renorm hw hpr h2
  have hst : st.length = 2 := by
    have := congrArg List.length hr.1
    simp only [List.length_map] at this
    omega
  have hst' : st'.length = 2 := by rw [← hP.length]; exact hst
  have hf0 : SwtnFits st l x.shape := by simpa using hf
  have hf' := hf0.renorm hP h1
  have hv := swt2_ok (m := 0) hst hr hf trim
  rw [Nat.cast_zero] at hv
  have h' : swt2 x wavelet (l : ℤ) 0 axes trim norm = .ok r := h
  rw [hv] at h'
  simp only [Except.ok.injEq] at h'
  subst h'
  have hbs : ∀ j k, (swtnBand st 0 x j k).shape = x.shape := by
    intro j k
    rw [swtnBand, swtBand_shape, swtnApprox_shape]
  have hcas : iswtnCascade st' (((List.range l).map fun j => dict3 (swt2Det st 0 x j)).reverse)
      (swtnApprox st 0 x l) = x := by
    rw [← List.map_reverse]
    rw [iswtnCascade_congr_map (g := swtnDict st 0 true x)]
    · rw [List.map_reverse, cascade_roundtrip (x := x) hP true l hf']
    · intro j _ k hk hne
      rw [← hP.length] at hk hne
      exact swt2Det_lookup hst 0 true x j hk hne
  cases trim with
  | true =>
    simp only [if_true]
    rw [iswt2_trimmed hst' (by unfold Arr.ndim at hr' ⊢; rw [swtnApprox_shape]; exact hr')
      (by rw [swtnApprox_shape]; simpa using hf') (by simp; omega)]
    · rw [List.map_reverse, List.map_map]
      rw [show (dict3 ∘ swt2Det st 0 x) = fun j => dict3 (swt2Det st 0 x j) from rfl, hcas]
    · intro p hp
      obtain ⟨j, _, rfl⟩ := List.mem_map.mp (List.mem_reverse.mp hp)
      rw [swtnApprox_shape]
      exact ⟨hbs _ _, hbs _ _, hbs _ _⟩
  | false =>
    obtain ⟨l, rfl⟩ : ∃ k, l = k + 1 := ⟨l - 1, by omega⟩
    simp only [Bool.false_eq_true, if_false]
    have hsh : ∀ p ∈ ((List.range (l + 1)).map fun j => (swtnApprox st 0 x (j + 1), swt2Det st 0 x j)).reverse,
        p.1.shape = (swtnApprox st 0 x (l + 1)).shape ∧ p.2.1.shape = (swtnApprox st 0 x (l + 1)).shape ∧
        p.2.2.1.shape = (swtnApprox st 0 x (l + 1)).shape ∧ p.2.2.2.shape = (swtnApprox st 0 x (l + 1)).shape := by
      intro p hp
      obtain ⟨j, _, rfl⟩ := List.mem_map.mp (List.mem_reverse.mp hp)
      rw [swtnApprox_shape st 0 x (l + 1)]
      exact ⟨swtnApprox_shape _ _ _ _, hbs _ _, hbs _ _, hbs _ _⟩
    have hmap : (((List.range (l + 1)).map fun j => (swtnApprox st 0 x (j + 1), swt2Det st 0 x j)).reverse).map
        (fun p => dict3 p.2) = ((List.range (l + 1)).map fun j => dict3 (swt2Det st 0 x j)).reverse := by
      rw [List.map_reverse, List.map_map]
      rfl
    rw [← hmap] at hcas
    rw [List.range_succ, List.map_append, List.reverse_append] at hsh hcas ⊢
    simp only [List.map_cons, List.map_nil, List.reverse_cons, List.reverse_nil, List.nil_append,
      List.cons_append] at hsh hcas ⊢
    rw [iswt2_pairs hst' (by unfold Arr.ndim at hr' ⊢; rw [swtnApprox_shape]; exact hr')
      (by rw [swtnApprox_shape]; simpa using hf') hsh]
    simp only [List.map_cons]
    rw [hcas]

end

section
variable {R M : Type} [CommRing R] [AddCommGroup M] [Module R M]

theorem normsInv_none {R : Type} [Ring R] {wavelet : PerAxis (Wavelet R)} (hpr : wavelet.PR) :
    NormsInv wavelet none none := fun _ _ h w hw => hpr.expand h w hw

theorem normsInv_some {wavelet : PerAxis (Wavelet R)} (hpr : wavelet.PR) {s s' : R} (hs : s * s' = 1) :
    NormsInv wavelet (some s) (some s') := fun _ _ h w hw => PR_scale (hpr.expand h w hw) hs

end

theorem lookup_filter_self (d : ADict M) (k : Key) : (d.filter fun p => p.1 ≠ k).lookup k = none := by
  induction d with
  | nil => rfl
  | cons p d ih =>
    obtain ⟨k0, v⟩ := p
    by_cases h0 : k0 = k
    · subst h0
      rw [List.filter_cons_of_neg (by simp), ih]
    · rw [List.filter_cons_of_pos (by simpa using h0), List.lookup_cons, ih,
        show (k == k0) = false by simpa using Ne.symm h0]

theorem putBack_lookup (m : ℕ) (d : ADict M) (k : Key) : (putBack m d).lookup k = d.lookup k := by
  unfold putBack
  cases h : d.lookup (aKey m) with
  | none => rfl
  | some a =>
    simp only
    rw [List.lookup_append]
    by_cases hk : k = aKey m
    · subst hk
      rw [lookup_filter_self, h]
      simp
    · rw [lookup_filter_ne hk]
      have : List.lookup k [(aKey m, a)] = none := by
        rw [List.lookup_cons, show (k == aKey m) = false by simpa using hk]
        rfl
      rw [this, Option.or_none]

theorem putBack_perm {m : ℕ} {d : ADict M} (hd : (d.map (·.1)).Nodup) : (putBack m d).Perm d := by
  unfold putBack
  cases h : d.lookup (aKey m) with
  | none => exact List.Perm.refl _
  | some a =>
    simp only
    induction d with
    | nil => simp at h
    | cons p d ih =>
      obtain ⟨k0, v⟩ := p
      simp only [List.map_cons, List.nodup_cons] at hd
      by_cases h0 : k0 = aKey m
      · subst h0
        simp only [List.lookup_cons_self, Option.some.injEq] at h
        subst h
        rw [List.filter_cons_of_neg (by simp), List.filter_eq_self.mpr]
        · exact List.perm_append_singleton _ _
        · intro q hq
          simp only [ne_eq, decide_not, Bool.not_eq_eq_eq_not, Bool.not_true, decide_eq_false_iff_not]
          rintro hq1
          exact hd.1 (List.mem_map.mpr ⟨q, hq, hq1⟩)
      · rw [List.lookup_cons, show (aKey m == k0) = false by simpa using Ne.symm h0] at h
        rw [List.filter_cons_of_pos (by simpa using h0), List.cons_append]
        exact (ih hd.2 h).cons _

end Pywt
