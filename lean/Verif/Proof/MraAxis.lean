import Verif.Proof.Mra2

/-!
# `mra` with `transform='swt'` along an axis; the default level
-/

namespace Pywt

open Finset Spec

set_option linter.unusedSectionVars false

variable {R M : Type} [Ring R] [AddCommGroup M] [Module R M]

/-- The position of array number `k` of `[cA, cD, …]`. -/
def posOf : ℕ → Option (ℕ × Key)
  | 0 => none
  | j + 1 => some (j, ['d'])

theorem coefPos_axis (ds : List (Arr M)) :
    coefPos (ds.map fun d => [(['d'], d)]) = (List.range (ds.length + 1)).map posOf := by
  unfold coefPos
  rw [List.range_succ_eq_map, List.map_cons, List.map_map, List.length_map]
  congr 1
  rw [show (List.range ds.length).map (posOf ∘ Nat.succ) = (List.range ds.length).flatMap
    fun j => [some (j, ['d'])] from ?_]
  · apply List.flatMap_congr
    intro j hj
    rw [List.mem_range] at hj
    rw [List.getD_eq_getElem (hn := by simpa using hj)]
    simp
  · rw [List.map_eq_flatMap]
    rfl

theorem onlyD_axis (ds : List (Arr M)) (k : ℕ) :
    onlyD (ds.map fun d => [(['d'], d)]) (posOf k) =
      (ds.mapIdx fun j d => if j + 1 = k then d else Arr.zero d.shape).map fun d => [(['d'], d)] := by
  apply List.ext_getElem (by simp [onlyD])
  intro j h1 h2
  simp only [onlyD, List.getElem_mapIdx, List.getElem_map, List.map_cons, List.map_nil]
  congr 2
  cases k with
  | zero => simp [posOf]
  | succ k =>
    by_cases h : j = k
    · subst h; simp [posOf]
    · rw [if_neg (by simp [posOf, Ne.symm h]), if_neg (by omega)]

/-- The coefficients with zeros everywhere except in array number `k`. -/
theorem only_axis (A : Arr M) (ds : List (Arr M)) (k : ℕ) :
    ((A :: ds).mapIdx fun j c => if j = k then c else Arr.zero c.shape) =
      onlyA A (posOf k) :: ds.mapIdx fun j d => if j + 1 = k then d else Arr.zero d.shape := by
  rw [List.mapIdx_cons]
  congr 1
  unfold onlyA
  cases k with
  | zero => simp [posOf]
  | succ k => simp [posOf]

section
variable [Invertible (2 : R)]

/-- `mra` with `transform='swt'` along an axis. -/
theorem mraSwtA_ok {w : Wavelet R} (hw : w.Ok) {s s' : R} {level : Option ℤ} {axis : ℤ} {ax : ℕ} {x : Arr M}
    (hax : AxisIs x.ndim axis ax) {r : SwtCoeffs (Arr M)}
    (h : swtA w level 0 true (some s) axis x = .ok r) (hinv : iswtA w (some s') axis r = .ok x) :
    ∃ cs comps, r = .trimmed cs ∧ mraSwtA w s s' .periodization level axis x = .ok comps ∧
      comps.length = cs.length ∧
      (∀ k, (hk : k < comps.length) → comps[k].shape = x.shape ∧
        iswtA w (some s') axis (.trimmed (cs.mapIdx fun j c => if j = k then c else Arr.zero c.shape)) =
          .ok comps[k]) ∧
      imra comps = .ok x := by
  obtain ⟨l, m, hm, h', -⟩ := swtA_level hax h
  have hm0 : m = 0 := by omega
  subst hm0
  rw [swtA_eq hw l 0 true (some s) hax] at h'
  by_cases hc : 1 ≤ l ∧ 1 ≤ x.shape.getD ax 0 ∧ 2 ^ (0 + l) ∣ x.shape.getD ax 0
  · rw [if_pos hc] at h'
    simp only [Except.ok.injEq] at h'
    have hsh := swtLines_shape (w := w.normed (some s)) (m := 0) (l := l) (trim := true) (ax := ax) (x := x)
    have hlv := swtLines_levels (w := w.normed (some s)) (m := 0) (l := l) (trim := true) (ax := ax) (x := x)
    obtain ⟨A, ds, hr, hdl⟩ : ∃ A ds, r = .trimmed (A :: ds) ∧ ds.length = l := by
      rw [← h']
      exact ⟨_, _, rfl, by simp⟩
    rw [h', hr] at hsh
    have hAs : A.shape = x.shape := hsh A (by simp [SwtCoeffs.arrays])
    have hds : ∀ d ∈ ds, d.shape = x.shape := fun d hd => hsh d (by simp [SwtCoeffs.arrays, hd])
    set st : List (SStage R) := [(ax, w.normed (some s'))] with hst
    set dd : List (ADict M) := ds.map fun d => [(['d'], d)] with hdd
    have hval : ∀ (A' : Arr M) (ds' : List (Arr M)), A'.shape = x.shape → (∀ d ∈ ds', d.shape = x.shape) →
        ds'.length = l → iswtA w (some s') axis (.trimmed (A' :: ds')) =
          .ok (iswtnCascade st (ds'.map fun d => [(['d'], d)]) A') := by
      intro A' ds' g1 g2 g3
      apply iswtA_trimmed hw
      · unfold Arr.ndim at hax ⊢; rw [g1]; exact hax
      · intro d hd; rw [g2 d hd, g1]
      · rintro rfl; simp at g3; omega
      · rw [g1]; exact hc.2.1
      · rw [g1, g3]; simpa using hc.2.2
    have hfull : iswtnCascade st dd A = x := by
      rw [hr, hval A ds hAs hds hdl] at hinv
      simpa using hinv
    have hkeys : ∀ d ∈ dd, (d.map (·.1)).Nodup := by
      intro d hd
      obtain ⟨p, -, rfl⟩ := List.mem_map.mp hd
      simp
    obtain ⟨t, t1, t2⟩ := mra_only (R := R) (recM := fun a ds => iswtnCascade st ds a)
      (recP := fun a ds => iswtnCascade st ds a) (fun φ a ds => iswtnCascade_map φ st ds a) hkeys
      (x := x) (a := A) (by rw [hfull]; exact Arr.Extends.refl x)
    have hsame : ∀ i, iswtnCascade st (onlyD dd i) (onlyA A i) = t i := by
      intro i
      have hs : (iswtnCascade st (onlyD dd i) (onlyA A i)).shape = x.shape := by
        rw [← hfull]
        exact only_shape (R := R) (recM := fun a ds => iswtnCascade st ds a)
          (recP := fun a ds => iswtnCascade st ds a) (fun φ a ds => iswtnCascade_map φ st ds a) A _ i
      refine Arr.ext_get (by rw [hs, (t1 i).2.1]) fun idx hidx => ?_
      exact (t1 i).2.2.2.2 idx (by rw [(t1 i).2.1, ← hs]; exact hidx)
    have honly : ∀ k, iswtA w (some s') axis
        (.trimmed ((A :: ds).mapIdx fun j c => if j = k then c else Arr.zero c.shape)) = .ok (t (posOf k)) := by
      intro k
      rw [only_axis, hval _ _ (by rw [onlyA_shape, hAs]) ?_ (by simp [hdl]), ← onlyD_axis, hsame]
      intro d hd
      obtain ⟨j, hj, rfl⟩ := List.mem_iff_getElem.mp hd
      have hj' : j < ds.length := by simpa using hj
      rw [List.getElem_mapIdx]
      have := hds _ (List.getElem_mem hj')
      split
      · exact this
      · exact this
    refine ⟨A :: ds, (List.range (ds.length + 1)).map fun k => t (posOf k), hr, ?_, by simp, ?_, ?_⟩
    · unfold mraSwtA
      rw [if_neg (by simp), h, hr]
      simp only [Py_bind_ok]
      rw [mraLoop_ok (t := fun k => t (posOf k))]
      · simp
      · intro k hk
        have hk : k < (A :: ds).length := by simpa using hk
        refine ⟨hk, t (posOf k), ?_, ?_, ?_⟩
        · rw [List.getElem?_eq_getElem (by simpa using hk), List.getElem_replicate]
        · rw [← honly k]
          congr 2
          apply List.ext_getElem (by simp)
          intro j h1 h2
          have hj : j < (A :: ds).length := by simpa using h2
          have hsj : ((A :: ds)[j]).shape = x.shape := hsh _ (by
            simp only [SwtCoeffs.arrays]
            exact List.getElem_mem hj)
          rw [List.getElem_set, List.getElem_mapIdx]
          by_cases e : k = j
          · subst e; simp
          · rw [if_neg e, if_neg (Ne.symm e), List.getElem_replicate, hsj, ← hAs]
            rfl
        · have := (t1 (posOf k)).1
          rw [hsame] at this
          exact this
    · intro k hk
      simp only [List.getElem_map, List.getElem_range]
      exact ⟨(t1 _).2.1, honly k⟩
    · rw [coefPos_axis, List.map_map] at t2
      exact t2
  · rw [if_neg hc] at h'
    simp at h'

end

/-! ### The default level -/

theorem swtMaxLevel_mapM {shape : List ℕ} (h : ∀ n ∈ shape, 1 ≤ n) :
    shape.mapM swtMaxLevel = .ok (shape.map fun n => swtMaxLevelC n) := by
  induction shape with
  | nil => rfl
  | cons n shape ih =>
    rw [List.mapM_cons, ih fun m hm => h m (by simp [hm])]
    have : swtMaxLevel n = .ok (swtMaxLevelC n) := if_neg (by have := h n (by simp); omega)
    rw [this]
    rfl

theorem le_foldl_min (l : List ℕ) : ∀ (a k : ℕ), k ≤ l.foldl min a ↔ k ≤ a ∧ ∀ n ∈ l, k ≤ n := by
  induction l with
  | nil => intro a k; simp
  | cons b l ih =>
    intro a k
    rw [List.foldl_cons, ih]
    simp only [List.mem_cons, forall_eq_or_imp, le_min_iff]
    tauto

/-- Without a level, the largest one for which all extents are multiples of `2 ** level` is used: those
of all axes, not only of the transformed ones. -/
theorem mraSwtLevel_default {shape : List ℕ} (hne : shape ≠ []) (h : ∀ n ∈ shape, 1 ≤ n) :
    ∃ L : ℕ, mraSwtLevel none shape = .ok (L : ℤ) ∧ ∀ k, k ≤ L ↔ ∀ n ∈ shape, 2 ^ k ∣ n := by
  cases shape with
  | nil => exact absurd rfl hne
  | cons n ns =>
    refine ⟨(ns.map fun n => swtMaxLevelC n).foldl min (swtMaxLevelC n), ?_, fun k => ?_⟩
    · simp only [mraSwtLevel, swtMaxLevel_mapM h, Py_bind_ok, List.map_cons]
      rfl
    · have hs : ∀ n, 1 ≤ n → ∀ k, k ≤ swtMaxLevelC n ↔ 2 ^ k ∣ n := by
        intro n hn k
        obtain ⟨L, e, hL⟩ := swtMaxLevelC_spec n hn 0
        rw [show swtMaxLevelC n = L by rw [e]; simp]
        exact hL k
      rw [le_foldl_min]
      simp only [List.mem_map, forall_exists_index, and_imp, forall_apply_eq_imp_iff₂, List.mem_cons,
        forall_eq_or_imp]
      rw [hs n (h n (by simp))]
      constructor
      · rintro ⟨a, b⟩
        exact ⟨a, fun m hm => (hs m (h m (by simp [hm])) k).mp (b m hm)⟩
      · rintro ⟨a, b⟩
        exact ⟨a, fun m hm => (hs m (h m (by simp [hm])) k).mpr (b m hm)⟩

/-! ### Rejected arguments -/

theorem mranDwtn_err {x : Arr M} {wavelet : PerAxis (Wavelet R)}
    {mode : PerAxis Mode} {axes : Option (List ℤ)} {st : List (Stage R)} (hne : st ≠ [])
    (hr : Resolves x.ndim wavelet mode axes st) (hb : ∀ s ∈ st, s.1 < x.ndim ∧ s.2.1.Ok)
    (hn : (st.map (·.1)).Nodup) {level : Option ℤ} {e : PyErr}
    (h : wavedecn x wavelet mode level axes = .error e) : mranDwtn x wavelet level axes mode = .error e := by
  have hd : 1 ≤ x.ndim := by
    cases st with
    | nil => exact absurd rfl hne
    | cons s st => have := (hb s (by simp)).1; omega
  obtain ⟨L, hL, hall⟩ := wavedecn_eq hd hne hr hb hn
  obtain ⟨L', hL', hall'⟩ := wavedecn_eq hd hne hr.expanded hb hn
  have hLL : L' = L := by
    apply le_antisymm
    · rw [hL, ← hL']
    · rw [hL', ← hL]
  rw [hLL] at hall'
  have hp := prepAxes_ok (shape := x.shape) hd hr (fun s hs => (hb s hs).1) hn
  have hlen := hr.length
  have hw : wavelet.expand (axes.getD (rangeAxes x.shape.length)).length = .ok (st.map (·.2.1)) := by
    have h2 := hr.2.1
    rw [← hlen] at h2
    exact h2
  have hm : mode.expand (axes.getD (rangeAxes x.shape.length)).length = .ok (st.map (·.2.2)) := by
    have h2 := hr.2.2
    rw [← hlen] at h2
    exact h2
  have hs' : wavedecn x (.many (st.map (·.2.1))) (.many (st.map (·.2.2))) level
      (some (axes.getD (rangeAxes x.shape.length))) = .error e := by
    have := hall' level
    unfold Arr.ndim at this
    rw [this, ← hall, h]
  simp only [mranDwtn, hp, Py_bind_ok, hw, hm, hs']
  rfl

theorem isPer_false {mode : PerAxis Mode} (h : mode ≠ .one .periodization) : ¬ mode.isPer = true := by
  cases mode with
  | one m => cases m <;> simp_all [PerAxis.isPer]
  | many l => simp [PerAxis.isPer]

section
variable [Invertible (2 : R)]

theorem mranSwtn_mode {s s' : R} {x : Arr M} {wavelet : PerAxis (Wavelet R)} {level : Option ℤ}
    {axes : Option (List ℤ)} {mode : PerAxis Mode} (h : mode ≠ .one .periodization) :
    ∃ e, mranSwtn s s' x wavelet level axes mode = .error e := by
  unfold mranSwtn
  cases h1 : prepAxes x.shape axes with
  | error e => exact ⟨e, rfl⟩
  | ok p =>
    obtain ⟨axes', q⟩ := p
    simp only [Py_bind_ok]
    cases h2 : wavelet.expand axes'.length with
    | error e => exact ⟨e, rfl⟩
    | ok ws =>
      simp only [Py_bind_ok]
      rw [if_pos (isPer_false h)]
      exact ⟨_, rfl⟩

theorem mra2Swt2_mode {s s' : R} {x : Arr M} {wavelet : PerAxis (Wavelet R)} {level : Option ℤ}
    {axes : List ℤ} {mode : PerAxis Mode} (h : mode ≠ .one .periodization) :
    mra2Swt2 s s' x wavelet level axes mode = .error .value := by
  unfold mra2Swt2
  rw [if_pos (isPer_false h)]
  rfl

theorem mra2Swt2_err {s s' : R} {x : Arr M} {wavelet : PerAxis (Wavelet R)} {level : Option ℤ} {l : ℤ}
    (hl : mraSwtLevel level x.shape = .ok l) {axes : List ℤ} {e : PyErr}
    (h : swt2 x wavelet l 0 axes true (some s) = .error e) :
    mra2Swt2 s s' x wavelet level axes (.one .periodization) = .error e := by
  have hper : ¬ ¬ (PerAxis.one Mode.periodization).isPer = true := by simp [PerAxis.isPer]
  simp only [mra2Swt2, if_neg hper, hl, Py_bind_ok, h]
  rfl

/-- The first steps of `mran` with a stationary transform. -/
theorem mranSwtn_start {s s' : R} {x : Arr M} (hd : 1 ≤ x.ndim) {wavelet : PerAxis (Wavelet R)}
    {level : Option ℤ} {l : ℤ} (hlev : mraSwtLevel level x.shape = .ok l) {axes : Option (List ℤ)}
    {st : List (SStage R)} (hr : SwtResolves x.ndim wavelet axes (some s) st) (hb : ∀ p ∈ st, p.1 < x.ndim)
    (hn : (st.map (·.1)).Nodup) :
    ∃ ws, SwtResolves x.ndim (.many ws) (some (axes.getD (rangeAxes x.ndim))) (some s) st ∧
      wavelet.expand st.length = .ok ws ∧
      swtn x (.many ws) l 0 (some (axes.getD (rangeAxes x.ndim))) true (some s) =
        swtn x wavelet l 0 axes true (some s) ∧
      mranSwtn s s' x wavelet level axes (.one .periodization) =
        (swtn x (.many ws) l 0 (some (axes.getD (rangeAxes x.ndim))) true (some s)).bind fun r =>
          match r with
          | .trimmed A ds =>
              mranCore (fun A ds => iswtn (.trimmed A ds) (.many ws) (some (axes.getD (rangeAxes x.ndim))) (some s'))
                x A ds
          | .dicts _ => .error .type := by
  obtain ⟨ws, hws⟩ : ∃ ws, wavelet.expand st.length = .ok ws := ⟨_, hr.2.choose_spec.1⟩
  obtain ⟨st0, hr0, h0⟩ := hr.resolves
  have hp := prepAxes_ok (shape := x.shape) hd hr0 (by
    intro q hq
    have : q.1 ∈ st.map (·.1) := by rw [← h0]; exact List.mem_map_of_mem hq
    obtain ⟨p, hp, e⟩ := List.mem_map.mp this
    rw [← e]
    exact hb p hp) (by rw [h0]; exact hn)
  have hlen0 : (axes.getD (rangeAxes x.shape.length)).length = st.length := by
    have e1 := hr0.length
    have e2 := congrArg List.length h0
    simp only [List.length_map] at e2
    unfold Arr.ndim at e1
    omega
  have hw0 : wavelet.expand (axes.getD (rangeAxes x.shape.length)).length = .ok ws := by
    rw [hlen0]; exact hws
  have hper : ¬ ¬ (PerAxis.one Mode.periodization).isPer = true := by simp [PerAxis.isPer]
  refine ⟨ws, hr.expanded hws, hws, ?_, ?_⟩
  · rw [swtn_unfold hr hd hb hn, swtn_unfold (hr.expanded hws) hd hb hn]
  · simp only [mranSwtn, hp, Py_bind_ok, hw0, if_neg hper, hlev]
    rfl

theorem mranSwtn_err {s s' : R} {x : Arr M} (hd : 1 ≤ x.ndim) {wavelet : PerAxis (Wavelet R)}
    {level : Option ℤ} {l : ℤ} (hlev : mraSwtLevel level x.shape = .ok l) {axes : Option (List ℤ)}
    {st : List (SStage R)} (hr : SwtResolves x.ndim wavelet axes (some s) st) (hb : ∀ p ∈ st, p.1 < x.ndim)
    (hn : (st.map (·.1)).Nodup) {e : PyErr} (h : swtn x wavelet l 0 axes true (some s) = .error e) :
    mranSwtn s s' x wavelet level axes (.one .periodization) = .error e := by
  obtain ⟨ws, -, -, h2, h3⟩ := mranSwtn_start (s' := s') hd hlev hr hb hn
  rw [h3, h2, h]
  rfl

theorem mranSwtn_default {s s' : R} {x : Arr M} {n k : ℕ} {rest : List ℕ} (hsh : x.shape = n :: k :: rest)
    (hpos : ∀ n ∈ x.shape, 1 ≤ n) (hodd : ∃ n ∈ x.shape, n % 2 = 1) {wavelet : PerAxis (Wavelet R)}
    {axes : Option (List ℤ)} {st : List (SStage R)} (hr : SwtResolves x.ndim wavelet axes (some s) st)
    (hb : ∀ p ∈ st, p.1 < x.ndim) (hn : (st.map (·.1)).Nodup) (hk : k ≠ st.length) :
    mranSwtn s s' x wavelet none axes (.one .periodization) = .error .value := by
  have hd : 1 ≤ x.ndim := by unfold Arr.ndim; rw [hsh]; simp
  obtain ⟨L, hL, hL2⟩ := mraSwtLevel_default (shape := x.shape) (by rw [hsh]; simp) hpos
  have hL0 : L = 0 := by
    by_contra hc
    obtain ⟨m, hm, hm2⟩ := hodd
    have := (hL2 1).mp (by omega) m hm
    omega
  subst hL0
  obtain ⟨ws, hr1, hws, h2, h3⟩ := mranSwtn_start (s' := s') hd hL hr hb hn
  have hsw : swtn x (.many ws) ((0 : ℕ) : ℤ) 0 (some (axes.getD (rangeAxes x.ndim))) true (some s) =
      .ok (.trimmed x []) := by
    rw [swtn_unfold hr1 hd hb hn]
    rfl
  rw [h3, hsw]
  have hkey : swtnKeyLen (.trimmed x ([] : List (ADict M))) = .ok k := by
    simp only [swtnKeyLen, maxRowLen, hsh]
    rw [if_neg]
    have := hpos n (by rw [hsh]; simp)
    omega
  have hlenax : (normAxes x.ndim (axes.getD (rangeAxes x.ndim))).length = st.length := by
    have := congrArg List.length hr1.1
    simp only [List.length_map] at this
    simp [normAxes, ← this]
  have hinv : iswtn (.trimmed x ([] : List (ADict M))) (.many ws) (some (axes.getD (rangeAxes x.ndim))) (some s') =
      .error .value := by
    unfold iswtn iswtnFull iswtnPrep
    simp only [hkey, Py_bind_ok, swtnApprox0, Option.getD_some]
    by_cases hnd : ¬ (normAxes x.ndim (axes.getD (rangeAxes x.ndim))).Nodup
    · rw [if_pos hnd]; rfl
    · rw [if_neg hnd, if_pos (by rw [hlenax]; exact hk)]; rfl
  simp only [Except.bind, mranCore, List.map_nil]
  rw [hinv]
  rfl

end

end Pywt
