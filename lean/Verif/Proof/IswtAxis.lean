import Verif.Proof.Iswt2
import Verif.Proof.AxisMulti

/-! `iswt` along an axis, `iswt2` and `swt2`. -/

namespace Pywt

open Finset Spec

set_option linter.unusedSectionVars false

variable {R M : Type} [Ring R] [AddCommGroup M] [Module R M]

section
variable [Invertible (2 : R)]

theorem iswtnStep_one {ax : ℕ} {w : Wavelet R} {step : ℕ} {A D : Arr M} (ha : ax < A.shape.length)
    (hs : D.shape = A.shape) {band : Key → Arr M} (ba : band ['a'] = A) (bd : band ['d'] = D)
    {idx : ℕ → ℕ}
    (hidx : ∀ k < A.shape.length, k ≠ ax → idx k < A.shape.getD k 0) :
    (Arr.iswtnStep [(ax, w)] step band A.shape).line ax idx =
      iswtStep w.rec_lo w.rec_hi step (A.line ax idx) (D.line ax idx) := by
  have hd : (D.line ax idx).length = (A.line ax idx).length := by simp [hs]
  apply List.ext_getElem
  · rw [Arr.line_length, iswtnStep_shape, iswtStep_length _ _ _ hd, Arr.line_length]
  · intro j h1 h2
    rw [Arr.line_length, iswtnStep_shape] at h1
    have hin : InB A.shape (Function.update idx ax j) := by
      intro k hk
      by_cases e : k = ax
      · subst e; rw [Function.update_self]; exact h1
      · rw [Function.update_of_ne e]; exact hidx k hk e
    have hal : ∀ (x : Arr M) (f : List R), x.shape = A.shape →
        (x.along ax (x.shape.getD ax 0) (atrousInv f step)).get (Function.update idx ax j) =
          (atrousInv f step (x.line ax idx)).getD j 0 := by
      intro x f hx
      rw [Arr.along_get (by rw [hx]; exact ha) (by rw [list_set_getD, hx]; exact hin),
        Function.update_self, x.line_congr (g := idx)]
      intro k _ hk
      rw [Function.update_of_ne hk]
    have hst : Arr.iswtnStep [(ax, w)] step band A.shape = Arr.ofFn A.shape fun idx =>
        (⅟2 : R) • ((A.along ax (A.shape.getD ax 0) (atrousInv w.rec_lo step)).get idx +
          (D.along ax (D.shape.getD ax 0) (atrousInv w.rec_hi step)).get idx) := by
      unfold Arr.iswtnStep
      congr 1
      funext idx
      have hw : words (([(ax, w)] : List (SStage R)).length) = [['a'], ['d']] := rfl
      rw [hw]
      simp only [List.map_cons, List.map_nil, List.sum_cons, List.sum_nil, add_zero, ba, bd,
        Arr.swtUnband, List.length_singleton, pow_one, Wavelet.recFilter]
      rfl
    rw [Arr.line_getElem, hst, Arr.get_ofFn _ hin, hal A _ rfl, hal D _ hs]
    · simp only [iswtStep, List.getElem_zipWith]
      rw [List.getD_eq_getElem, List.getD_eq_getElem]
    · intro f g hfg
      have hc : ∀ Y : Arr M, Y.shape = A.shape → Y.get f = Y.get g := by
        intro Y hY
        apply Y.get_congr
        intro k hk
        rw [hY] at hk
        exact hfg k hk
      beta_reduce
      rw [hc _ (by rw [Arr.shape_along, list_set_getD]), hc _ (by rw [Arr.shape_along, list_set_getD, hs])]

theorem cascade_one {ax : ℕ} {w : Wavelet R} (ds : List (Arr M)) {dict : Arr M → ADict M}
    (hdict : ∀ d, (dict d).lookup ['d'] = some d) :
    ∀ A : Arr M, ax < A.shape.length → (∀ d ∈ ds, d.shape = A.shape) → ∀ idx : ℕ → ℕ,
      (∀ k < A.shape.length, k ≠ ax → idx k < A.shape.getD k 0) →
      (iswtnCascade [(ax, w)] (ds.map dict) A).line ax idx =
        iswtCascade w.rec_lo w.rec_hi (ds.map fun d => d.line ax idx) (A.line ax idx) := by
  induction ds with
  | nil => intro A _ _ idx _; rfl
  | cons d ds ih =>
    intro A ha hd idx hidx
    simp only [List.map_cons, iswtnCascade, iswtCascade, List.length_map]
    rw [ih _ (by rw [iswtnStep_shape]; exact ha) (by
      rw [iswtnStep_shape]; exact fun e he => hd e (List.mem_cons_of_mem _ he)) idx (by
      rw [iswtnStep_shape]; exact hidx),
      iswtnStep_one ha (hd d List.mem_cons_self) (by simp [bandOf]) _ hidx]
    simp only [bandOf]
    rw [if_neg (by simp), hdict]
    rfl

theorem iswtnCascade_congr {st : List (SStage R)} {ds ds' : List (ADict M)}
    (h : List.Forall₂ (fun d d' => ∀ k ∈ words st.length, k ≠ aKey st.length →
      d.lookup k = d'.lookup k) ds ds') : ∀ A : Arr M, iswtnCascade st ds A = iswtnCascade st ds' A := by
  induction h with
  | nil => intro A; rfl
  | @cons d d' ds ds' h hs ih =>
    intro A
    simp only [iswtnCascade, hs.length_eq]
    rw [ih]
    congr 1
    unfold Arr.iswtnStep
    congr 1
    funext idx
    congr 2
    apply List.map_congr_left
    intro k hk
    have : bandOf d A st.length k = bandOf d' A st.length k := by
      unfold bandOf
      split
      · rfl
      · rename_i hne
        rw [h k hk hne]
    rw [this]

theorem iswtnCascade_congr_map {α : Type} {st : List (SStage R)} (l : List α) {f g : α → ADict M}
    (h : ∀ p ∈ l, ∀ k ∈ words st.length, k ≠ aKey st.length → (f p).lookup k = (g p).lookup k) (A : Arr M) :
    iswtnCascade st (l.map f) A = iswtnCascade st (l.map g) A := by
  apply iswtnCascade_congr
  induction l with
  | nil => exact .nil
  | cons p l ih =>
    exact .cons (h p List.mem_cons_self) (ih fun q hq => h q (List.mem_cons_of_mem _ hq))

/-- What `iswt` along an axis needs. -/
theorem swtResolves_axis {ndim : ℕ} {axis : ℤ} {ax : ℕ} (hax : AxisIs ndim axis ax) (w : Wavelet R)
    (norm : Option R) : SwtResolves ndim (.one w) (some [axis]) norm [(ax, w.normed norm)] :=
  ⟨by simp [hax.1], [w], rfl, rfl⟩

theorem iswtA_trimmed {w : Wavelet R} (hw : w.Ok) {norm : Option R} {axis : ℤ} {ax : ℕ} {A : Arr M}
    {ds : List (Arr M)} (hax : AxisIs A.ndim axis ax) (hs : ∀ d ∈ ds, d.shape = A.shape) (hne : ds ≠ [])
    (h1 : 1 ≤ A.shape.getD ax 0) (h2 : 2 ^ ds.length ∣ A.shape.getD ax 0) :
    iswtA w norm axis (.trimmed (A :: ds)) =
      .ok (iswtnCascade [(ax, w.normed norm)] (ds.map fun d => [(['d'], d)]) A) := by
  have hw' := hw.normed norm
  unfold iswtA
  simp only [swtCoeffsDim, Py_bind_ok]
  by_cases hd : A.ndim > 1
  · rw [if_pos hd]
    simp only [iswtToN, Py_bind_ok, iswtn]
    rw [iswtn_trimmed (swtResolves_axis hax w norm) (st := [(ax, w.normed norm)])]
    · refine ⟨by simp, ?_⟩
      intro s hs
      simp only [List.mem_singleton] at hs
      subst hs
      refine ⟨hax.2, hw', h1, by simpa using h2⟩
    · simpa using hne
    · intro d hd
      obtain ⟨e, he, rfl⟩ := List.mem_map.mp hd
      refine ⟨⟨by simp, ?_⟩, by simp⟩
      intro p hp
      simp only [List.mem_singleton] at hp
      subst hp
      exact ⟨by simp [words], hs e he⟩
  · have h0 := hax.2
    have hn : A.ndim = 1 := by omega
    have hax0 : ax = 0 := by omega
    subst hax0
    have hax1 : axis = 0 ∨ axis = -1 := by
      have := hax.1
      rw [hn] at this
      split at this <;> omega
    rw [if_neg hd, if_neg (by omega), if_neg (by omega)]
    obtain ⟨n, hsh⟩ : ∃ n, A.shape = [n] := List.length_eq_one_iff.mp hn
    have hdl : A.data.length = n := by rw [A.ok, hsh]; simp
    have hdd : ∀ d ∈ ds, d.data.length = n := fun d hd => by rw [d.ok, hs d hd, hsh]; simp
    rw [hsh] at h1 h2
    simp only [List.getD_cons_zero] at h1 h2
    simp only [SwtCoeffs.toLists, List.map_cons, iswt]
    rw [iswtLoop_gen hw' (ds.map fun d => d.data) A.data (by omega) (by simpa [hdl] using h2) (by
      intro d hd
      obtain ⟨e, he, rfl⟩ := List.mem_map.mp hd
      rw [hdd e he, hdl])]
    simp only [Py_bind_ok, Py_pure, Except.ok.injEq]
    have hcl : (iswtCascade (w.normed norm).rec_lo (w.normed norm).rec_hi (ds.map fun d => d.data) A.data).length
        = n := by
      rw [iswtCascade_length _ _ _ _ (by
        intro d hd
        obtain ⟨e, he, rfl⟩ := List.mem_map.mp hd
        rw [hdd e he, hdl]), hdl]
    apply Arr.ext_line (axis := 0) (by simp [Arr.of1])
    · rw [iswtnCascade_shape, hsh]
      simp only [Arr.of1, hcl]
    · intro idx hidx
      rw [cascade_one ds (dict := fun d => [(['d'], d)]) (fun d => rfl) A (by rw [hsh]; simp) hs idx
        (by intro k hk hk0; rw [hsh] at hk; simp at hk; omega), Arr.line_one hn, Arr.line_one rfl]
      simp only [Arr.of1]
      congr 1
      apply List.map_congr_left
      intro d hd
      rw [Arr.line_one (by unfold Arr.ndim; rw [hs d hd]; exact hn)]

theorem iswtA_pairs {w : Wavelet R} (hw : w.Ok) {norm : Option R} {axis : ℤ} {ax : ℕ} {A D : Arr M}
    {ps : List (Arr M × Arr M)} (hax : AxisIs A.ndim axis ax)
    (hs : ∀ p ∈ (A, D) :: ps, p.1.shape = A.shape ∧ p.2.shape = A.shape)
    (h1 : 1 ≤ A.shape.getD ax 0) (h2 : 2 ^ (ps.length + 1) ∣ A.shape.getD ax 0) :
    iswtA w norm axis (.pairs ((A, D) :: ps)) =
      .ok (iswtnCascade [(ax, w.normed norm)] (((A, D) :: ps).map fun p => [(['d'], p.2)]) A) := by
  by_cases hd : A.ndim > 1
  · have hw' := hw.normed norm
    unfold iswtA
    simp only [swtCoeffsDim, Py_bind_ok, if_pos hd, iswtToN, iswtn, List.map_cons]
    rw [iswtn_dicts (A := A) (by rfl) (swtResolves_axis hax w norm) (st := [(ax, w.normed norm)])]
    · have := iswtnCascade_congr_map (st := [(ax, w.normed norm)]) ((A, D) :: ps)
        (f := fun p => [(['a'], p.1), (['d'], p.2)]) (g := fun p => [(['d'], p.2)]) (by
          intro p _ k _ hk
          have hk' : k ≠ ['a'] := hk
          simp only [List.lookup_cons]
          rw [show (k == ['a']) = false by simpa using hk']) A
      simp only [List.map_cons] at this
      rw [this]
    · refine ⟨by simp, ?_⟩
      intro s hs
      simp only [List.mem_singleton] at hs
      subst hs
      exact ⟨hax.2, hw', h1, by simpa using h2⟩
    · intro e he
      have he' : e ∈ ((A, D) :: ps).map fun p => [(['a'], p.1), (['d'], p.2)] := he
      obtain ⟨p, hp, rfl⟩ := List.mem_map.mp he'
      refine ⟨⟨by simp, ?_⟩, by simp [aKey], ['d'], by simp, by simp [aKey]⟩
      intro q hq
      simp only [List.mem_cons, List.not_mem_nil, or_false] at hq
      rcases hq with rfl | rfl
      · exact ⟨by simp [words], (hs p hp).1⟩
      · exact ⟨by simp [words], (hs p hp).2⟩
  · have e : iswtA w norm axis (.pairs ((A, D) :: ps)) =
        iswtA w norm axis (.trimmed (A :: ((A, D) :: ps).map (·.2))) := by
      unfold iswtA
      simp only [swtCoeffsDim, Py_bind_ok, if_neg hd, SwtCoeffs.toLists, List.map_cons, iswt, List.map_map]
      rfl
    rw [e, iswtA_trimmed hw hax (by
      intro d hd
      obtain ⟨p, hp, rfl⟩ := List.mem_map.mp hd
      exact (hs p hp).2) (by simp) h1 (by simpa using h2)]
    rw [List.map_map]
    rfl

/-! ### `iswt2` -/

/-- The dict of an approximation and three detail arrays. -/
abbrev dict4 (p : Arr M × (Arr M × Arr M × Arr M)) : ADict M :=
  [(['a', 'a'], p.1), (['d', 'a'], p.2.1), (['a', 'd'], p.2.2.1), (['d', 'd'], p.2.2.2)]

theorem dict4_lookup (p : Arr M × (Arr M × Arr M × Arr M)) {k : Key} (h : k ≠ ['a', 'a']) :
    (dict4 p).lookup k = (dict3 p.2).lookup k := by
  simp only [dict4, dict3, List.lookup_cons]
  rw [show (k == ['a', 'a']) = false by simpa using h]

theorem iswt2_2d {wavelet : PerAxis (Wavelet R)} {norm : Option R} {st : List (SStage R)} {A : Arr M}
    {ps : List (Arr M × Arr M × Arr M)} (hA : A.ndim = 2)
    (hr : SwtResolves A.ndim wavelet (some [-2, -1]) norm st) (hf : SwtnFits st ps.length A.shape)
    (hs : ∀ p ∈ ps, p.1.shape = A.shape ∧ p.2.1.shape = A.shape ∧ p.2.2.shape = A.shape) :
    (do let wavelets ← wavelet.expand 2
        iswt2Loop (wavelets.map fun w => w.normed norm) ps A : Py (Arr M)) =
      .ok (iswtnCascade st (ps.map dict3) A) := by
  obtain ⟨h1, ws, h2, h3⟩ := hr
  simp only [hA] at h1
  have hst : st.map (fun s : SStage R => (s.1 : ℤ)) = [0, 1] := h1
  obtain ⟨s0, s1, rfl⟩ : ∃ s0 s1, st = [s0, s1] := by
    have : st.length = 2 := by simpa using congrArg List.length hst
    exact List.length_eq_two.mp this
  obtain ⟨a0, w0⟩ := s0
  obtain ⟨a1, w1⟩ := s1
  simp only [List.map_cons, List.map_nil, List.cons.injEq, Nat.cast_eq_zero, Nat.cast_eq_one, and_true] at hst
  obtain ⟨rfl, rfl⟩ := hst
  have h2' : wavelet.expand 2 = .ok ws := h2
  rw [h2']
  simp only [Py_bind_ok]
  rw [← h3]
  exact iswt2Loop_ok ps A hA hf hs

theorem iswt2_trimmed {wavelet : PerAxis (Wavelet R)} {norm : Option R} {axes : List ℤ}
    {st : List (SStage R)} {A : Arr M} {ps : List (Arr M × Arr M × Arr M)} (hl : st.length = 2)
    (hr : SwtResolves A.ndim wavelet (some axes) norm st) (hf : SwtnFits st ps.length A.shape)
    (hne : ps ≠ [])
    (hs : ∀ p ∈ ps, p.1.shape = A.shape ∧ p.2.1.shape = A.shape ∧ p.2.2.shape = A.shape) :
    iswt2 (.trimmed A ps) wavelet norm axes = .ok (iswtnCascade st (ps.map dict3) A) := by
  unfold iswt2
  simp only [swt2Parts, Py_bind_ok]
  by_cases h : A.ndim ≠ 2 ∨ axes ≠ [-2, -1]
  · rw [if_pos h]
    simp only [iswt2ToN, iswtn]
    rw [iswtn_trimmed hr (by simpa using hf) (by simpa using hne)]
    intro d hd
    obtain ⟨p, hp, rfl⟩ := List.mem_map.mp hd
    rw [hl]
    exact ⟨dict3_ok (hs p hp).1 (hs p hp).2.1 (hs p hp).2.2, by simp⟩
  · rw [if_neg h]
    push Not at h
    obtain ⟨hA, rfl⟩ := h
    exact iswt2_2d hA hr hf hs

theorem iswt2_pairs {wavelet : PerAxis (Wavelet R)} {norm : Option R} {axes : List ℤ}
    {st : List (SStage R)} {A : Arr M} {q : Arr M × Arr M × Arr M}
    {ps : List (Arr M × (Arr M × Arr M × Arr M))} (hl : st.length = 2)
    (hr : SwtResolves A.ndim wavelet (some axes) norm st) (hf : SwtnFits st (ps.length + 1) A.shape)
    (hs : ∀ p ∈ (A, q) :: ps, p.1.shape = A.shape ∧ p.2.1.shape = A.shape ∧ p.2.2.1.shape = A.shape ∧
      p.2.2.2.shape = A.shape) :
    iswt2 (.pairs ((A, q) :: ps)) wavelet norm axes =
      .ok (iswtnCascade st (((A, q) :: ps).map fun p => dict3 p.2) A) := by
  unfold iswt2
  simp only [swt2Parts, Py_bind_ok]
  by_cases h : A.ndim ≠ 2 ∨ axes ≠ [-2, -1]
  · rw [if_pos h]
    have hN : iswt2ToN (.pairs ((A, q) :: ps)) = .dicts (dict4 (A, q) :: ps.map dict4) := rfl
    simp only [hN, iswtn]
    rw [iswtn_dicts (A := A) (by rw [hl]; rfl) hr (by simpa using hf)]
    · rw [← List.map_cons (f := dict4), iswtnCascade_congr_map (g := fun p => dict3 p.2)]
      intro p _ k _ hk
      rw [hl] at hk
      exact dict4_lookup p hk
    · intro e he
      rw [← List.map_cons (f := dict4)] at he
      obtain ⟨p, hp, rfl⟩ := List.mem_map.mp he
      obtain ⟨g1, g2, g3, g4⟩ := hs p hp
      rw [hl]
      refine ⟨⟨by simp, ?_⟩, by simp [aKey], ['d', 'd'], by simp, by simp [aKey]⟩
      intro q hq
      simp only [List.mem_cons, List.not_mem_nil, or_false] at hq
      rcases hq with rfl | rfl | rfl | rfl
      · exact ⟨by simp [words], g1⟩
      · exact ⟨by simp [words], g2⟩
      · exact ⟨by simp [words], g3⟩
      · exact ⟨by simp [words], g4⟩
  · rw [if_neg h]
    push Not at h
    obtain ⟨hA, rfl⟩ := h
    have := iswt2_2d (ps := ((A, q) :: ps).map (·.2)) hA hr (by simpa using hf) (by
      intro p hp
      obtain ⟨r, hr, rfl⟩ := List.mem_map.mp hp
      exact (hs r hr).2)
    rw [List.map_map] at this
    exact this

end

/-! ### `swt2` -/

theorem mapM_ok_map {α β : Type} (f : α → Py β) (g : α → β) (l : List α) (h : ∀ a ∈ l, f a = .ok (g a)) :
    l.mapM f = .ok (l.map g) := by
  induction l with
  | nil => rfl
  | cons a l ih =>
    rw [List.mapM_cons, h a List.mem_cons_self, ih fun b hb => h b (List.mem_cons_of_mem _ hb)]
    rfl

theorem numUnique_le (l : List ℤ) : numUnique l ≤ l.length := by
  unfold numUnique
  exact (List.dedup_sublist l).length_le

theorem swt2_ok {wavelet : PerAxis (Wavelet R)} {axes : List ℤ} {norm : Option R}
    {st : List (SStage R)} {x : Arr M} (hl : st.length = 2)
    (hr : SwtResolves x.ndim wavelet (some axes) norm st) {l m : ℕ}
    (hf : SwtnFits st (m + l) x.shape) (trim : Bool) :
    swt2 x wavelet (l : ℤ) (m : ℤ) axes trim norm =
      .ok (if trim then .trimmed (swtnApprox st m x l) ((List.range l).map (swt2Det st m x)).reverse
        else .pairs ((List.range l).map fun j =>
          (swtnApprox st m x (j + 1), swt2Det st m x j)).reverse) := by
  have h1 := hr.1
  simp only at h1
  have hal : axes.length = 2 := by
    have := congrArg List.length h1
    simp only [List.length_map] at this
    omega
  have han : axes.Nodup := by
    have : (st.map fun s : SStage R => (s.1 : ℤ)).Nodup := by
      have := hf.1.map (f := fun n : ℕ => (n : ℤ)) Nat.cast_injective
      rwa [List.map_map] at this
    rw [h1] at this
    exact this.of_map _
  obtain ⟨s0, s1, rfl⟩ := List.length_eq_two.mp hl
  have hnd : 2 ≤ x.ndim := by
    have a1 := (hf.2 s0 (by simp)).1
    have a2 := (hf.2 s1 (by simp)).1
    have a3 : s0.1 ≠ s1.1 := by simpa using hf.1
    unfold Arr.ndim
    omega
  have hnu := numUnique_le axes
  have e1 : ¬ axes.length ≠ 2 := by omega
  have e2 : ¬ ¬ axes.Nodup := not_not.mpr han
  have e3 : ¬ x.ndim < numUnique axes := by omega
  unfold swt2
  rw [if_neg e1, if_neg e2, if_neg e3, swtn_ok hr (by omega) hf trim]
  have hw : words ([s0, s1] : List (SStage R)).length = [['a', 'a'], ['a', 'd'], ['d', 'a'], ['d', 'd']] := rfl
  cases trim with
  | true =>
    simp only [if_true, Py_bind_ok]
    rw [mapM_ok_map _ (fun d : ADict M => ((d.lookup ['d', 'a']).getD x, (d.lookup ['a', 'd']).getD x,
      (d.lookup ['d', 'd']).getD x))]
    · simp only [Py_bind_ok, Py_pure, Except.ok.injEq, Swt2.trimmed.injEq, true_and]
      rw [List.map_reverse, List.map_map]
      congr 1
    · intro d hd
      rw [List.mem_reverse] at hd
      obtain ⟨j, _, rfl⟩ := List.mem_map.mp hd
      rfl
  | false =>
    simp only [Bool.false_eq_true, if_false, Py_bind_ok]
    rw [mapM_ok_map _ (fun d : ADict M => ((d.lookup ['a', 'a']).getD x, (d.lookup ['d', 'a']).getD x,
      (d.lookup ['a', 'd']).getD x, (d.lookup ['d', 'd']).getD x))]
    · simp only [Py_bind_ok, Py_pure, Except.ok.injEq, Swt2.pairs.injEq]
      rw [List.map_reverse, List.map_map]
      congr 1
    · intro d hd
      rw [List.mem_reverse] at hd
      obtain ⟨j, _, rfl⟩ := List.mem_map.mp hd
      rfl

end Pywt
