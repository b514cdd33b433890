import Verif.Proof.MraNSwt

/-!
# `mra2`
-/

namespace Pywt

open Finset Spec

set_option linter.unusedSectionVars false

variable {R M : Type} [Ring R] [AddCommGroup M] [Module R M]

theorem onlyD_dict3 (ps : List (Arr M × Arr M × Arr M)) (i : Option (ℕ × Key)) :
    onlyD (ps.map dict3) i = (onlyP ps i).map dict3 := by
  apply List.ext_getElem (by simp [onlyD, onlyP])
  intro j h1 h2
  simp [onlyD, onlyP]

theorem onlyT_triples (ps : List (Arr M × Arr M × Arr M)) (i : Option (ℕ × Key)) :
    onlyT ps i = (onlyP ps i).map tripleList := by
  unfold onlyT
  rw [onlyD_dict3, List.map_map]
  rfl

theorem onlyP_length (ps : List (Arr M × Arr M × Arr M)) (i : Option (ℕ × Key)) :
    (onlyP ps i).length = ps.length := by simp [onlyP]

theorem itemTriples_ofTriple (ps : List (Arr M × Arr M × Arr M)) :
    itemTriples (ps.map Item.ofTriple) = .ok (ps.map tripleList) := by
  induction ps with
  | nil => rfl
  | cons p ps ih =>
    have : itemTriples (Item.ofTriple p :: ps.map Item.ofTriple) =
        (itemTriples (ps.map Item.ofTriple)).bind fun rest => .ok (tripleList p :: rest) := rfl
    rw [List.map_cons, List.map_cons, this, ih]
    rfl

theorem asTriples_tripleList (ps : List (Arr M × Arr M × Arr M)) :
    asTriples (ps.map tripleList) = .ok ps := by
  induction ps with
  | nil => rfl
  | cons p ps ih =>
    have : asTriples (tripleList p :: ps.map tripleList) =
        (asTriples (ps.map tripleList)).bind fun rest => .ok (p :: rest) := rfl
    rw [List.map_cons, this, ih]
    rfl

/-- The triples of components. -/
def compsP (ps : List (Arr M × Arr M × Arr M)) (t : Option (ℕ × Key) → Arr M) : List (Arr M × Arr M × Arr M) :=
  (List.range ps.length).map fun j =>
    (t (some (j, ['d', 'a'])), t (some (j, ['a', 'd'])), t (some (j, ['d', 'd'])))

theorem comps2Of_eq (ps : List (Arr M × Arr M × Arr M)) (t : Option (ℕ × Key) → Arr M) :
    comps2Of ps t = (compsP ps t).map tripleList := by
  unfold comps2Of compsP
  rw [List.map_map]
  rfl

theorem compsP_dict3 (ps : List (Arr M × Arr M × Arr M)) (t : Option (ℕ × Key) → Arr M) :
    (compsP ps t).map dict3 = compsOf (ps.map dict3) t := by
  unfold compsP compsOf
  rw [List.map_map, List.length_map]
  apply List.map_congr_left
  intro j hj
  rw [List.mem_range] at hj
  rw [List.getD_eq_getElem (hn := by simpa using hj), List.getElem_map]
  rfl

theorem dict3_nodup (p : Arr M × Arr M × Arr M) : ((dict3 p).map (·.1)).Nodup := by
  simp only [dict3, List.map_cons, List.map_nil]
  decide

/-- `mra2` with `transform='dwt2'`. -/
theorem mra2Dwt2_ok {x : Arr M} {wavelet : PerAxis (Wavelet R)}
    {mode : PerAxis Mode} {axes : List ℤ} {s u : Stage R}
    (hr : Resolves x.ndim wavelet mode (some axes) [s, u]) (hb : ∀ v ∈ [s, u], v.1 < x.ndim ∧ v.2.1.Ok)
    (hn : s.1 ≠ u.1)
    (hpr : ∀ v ∈ [s, u], PR v.2.1.dec_lo v.2.1.dec_hi v.2.1.rec_lo v.2.1.rec_hi)
    {level : Option ℤ} {cs : List (Item M)} (h : wavedec2 x wavelet mode level axes = .ok cs) :
    ∃ (A : Arr M) (ps : List (Arr M × Arr M × Arr M)) (c0 : Arr M) (qs : List (Arr M × Arr M × Arr M)), cs = .arr A :: ps.map Item.ofTriple ∧
      mra2Dwt2 x wavelet level axes mode = .ok (c0, qs.map tripleList) ∧
      qs.length = ps.length ∧
      (∀ i ∈ coefPos (ps.map dict3), ∃ c y, arrayAt c0 (qs.map dict3) i = some c ∧ c.shape = x.shape ∧
        waverec2 (.arr (onlyA A i) :: (onlyP ps i).map Item.ofTriple) wavelet mode axes = .ok (.arr y) ∧
        y.Extends c) ∧
      imra (allArrays c0 (qs.map dict3)) = .ok x := by
  have hnn : ([s, u].map (·.1)).Nodup := by simpa using hn
  obtain ⟨L, hL, hall⟩ := wavedec2_eq hr hb hn
  have h0 := h
  rw [hall] at h
  split at h
  · simp at h
  split at h
  · rename_i hlv
    simp only [Except.ok.injEq] at h
    set n := (level.map Int.toNat).getD L with hn0
    set f : ℕ → Arr M × Arr M × Arr M := fun j => ((x.approxN [s, u] j).subband [s, u] ['d', 'a'],
      (x.approxN [s, u] j).subband [s, u] ['a', 'd'], (x.approxN [s, u] j).subband [s, u] ['d', 'd']) with hfd
    set ps := ((List.range n).map f).reverse with hps
    have hcs : cs = .arr (x.approxN [s, u] n) :: ps.map Item.ofTriple := by
      rw [← h, hps, List.map_reverse, List.map_map]
      rfl
    have hds : ps.map dict3 = ((List.range n).map fun j => dict3 (f j)).reverse := by
      rw [hps, List.map_reverse, List.map_map]
      rfl
    have hdok : ∀ j < n, DictOk (dict3 (f j)) [s, u].length ((decShape [s, u])^[j + 1] x.shape) ∧
        dict3 (f j) ≠ [] := by
      intro j _
      refine ⟨⟨dict3_nodup _, ?_⟩, by simp⟩
      intro p hp
      have hsb : ∀ k : Key, k.length = 2 → ((x.approxN [s, u] j).subband [s, u] k).shape =
          (decShape [s, u])^[j + 1] x.shape := by
        intro k hk
        rw [shape_subband hk, Arr.shape_approxN, ← Function.iterate_succ_apply' (decShape [s, u])]
      simp only [dict3, List.mem_cons, List.not_mem_nil, or_false] at hp
      rcases hp with rfl | rfl | rfl
      · exact ⟨(by decide : ['d', 'a'] ∈ words 2), hsb _ rfl⟩
      · exact ⟨(by decide : ['a', 'd'] ∈ words 2), hsb _ rfl⟩
      · exact ⟨(by decide : ['d', 'd'] ∈ words 2), hsb _ rfl⟩
    have hA : (x.approxN [s, u] n).shape = (decShape [s, u])^[n] x.shape := Arr.shape_approxN _ n x
    have hfit : RecnFits [s, u] (ps.map dict3) (x.approxN [s, u] n).shape := by
      rw [hds]
      exact recnFits_levels hnn hdok hlv _ (by rw [hA]; exact Near.refl _)
    have hkeys : ∀ d ∈ ps.map dict3, (d.map (·.1)).Nodup := by
      intro d hd'
      obtain ⟨p, -, rfl⟩ := List.mem_map.mp hd'
      exact dict3_nodup p
    have hval : ∀ i, waverec2 (.arr (onlyA (x.approxN [s, u] n) i) :: (onlyP ps i).map Item.ofTriple)
        wavelet mode axes =
          .ok (.arr (waverecnCascade [s, u] (onlyD (ps.map dict3) i) (onlyA (x.approxN [s, u] n) i))) := by
      intro i
      rw [onlyD_dict3]
      apply waverec2_values rfl _ hnn
      · rw [onlyA_shape, ← onlyD_dict3]
        exact hfit.of_skel (skel_onlyD _ i).symm
      · have : (onlyA (x.approxN [s, u] n) i).ndim = x.ndim := by
          unfold Arr.ndim
          rw [onlyA_shape]
          exact Arr.approxN_ndim [s, u] n x
        rw [this]; exact hr
    obtain ⟨y, e1, -, -, e4⟩ := waverec2_cascade hr hn hpr hlv
    have hfull : waverecnCascade [s, u] (ps.map dict3) (x.approxN [s, u] n) = y := by
      have h2 := waverec2_values (A := x.approxN [s, u] n) (ps := ps) (wavelet := wavelet) (mode := mode)
        (axes := axes) (st := [s, u]) rfl (by rw [Arr.approxN_ndim]; exact hr) hnn hfit
      rw [← hcs, ← h, e1] at h2
      simpa using h2.symm
    obtain ⟨t, t1, t2⟩ := mra_only (R := R) (recM := fun a ds => waverecnCascade [s, u] ds a)
      (recP := fun a ds => waverecnCascade [s, u] ds a) (fun φ a ds => waverecnCascade_map φ [s, u] ds a) hkeys
      (x := x) (a := x.approxN [s, u] n) (by rw [hfull]; exact e4)
    refine ⟨x.approxN [s, u] n, ps, t none, compsP ps t, hcs, ?_, by simp [compsP], ?_, ?_⟩
    · rw [← comps2Of_eq]
      simp only [mra2Dwt2, h0, Py_bind_ok, hcs, itemTriples_ofTriple]
      apply mra2Core_ok
      intro i _
      refine ⟨_, ?_, (t1 i).1⟩
      simp only [mra2Waverec2]
      have hm : ((onlyT ps i).map fun d => Item.tup (d.map some)) = (onlyP ps i).map Item.ofTriple := by
        rw [onlyT_triples, List.map_map]
        rfl
      rw [hm, hval i]
      rfl
    · intro i hi
      refine ⟨t i, _, ?_, (t1 i).2.1, hval i, (t1 i).2.2⟩
      rw [compsP_dict3]
      exact arrayAt_compsOf hkeys t hi
    · unfold allArrays
      rw [compsP_dict3, compsOf_flat]
      exact t2
  · simp at h

section
variable [Invertible (2 : R)]

/-- `mra2` with `transform='swt2'`. -/
theorem mra2Swt2_ok {s s' : R} {x : Arr M} {wavelet : PerAxis (Wavelet R)} (hw : wavelet.Ok)
    (hpr : NormsInv wavelet (some s) (some s')) {level : Option ℤ} {l : ℤ} (hlev : mraSwtLevel level x.shape = .ok l)
    (hl : 1 ≤ l) {axes : List ℤ} {r : Swt2 M} (h : swt2 x wavelet l 0 axes true (some s) = .ok r) :
    ∃ (A : Arr M) (ps : List (Arr M × Arr M × Arr M)) (c0 : Arr M) (qs : List (Arr M × Arr M × Arr M)), r = .trimmed A ps ∧
      mra2Swt2 s s' x wavelet level axes (.one .periodization) = .ok (c0, qs.map tripleList) ∧
      qs.length = ps.length ∧
      (∀ i ∈ coefPos (ps.map dict3), ∃ c, arrayAt c0 (qs.map dict3) i = some c ∧ c.shape = x.shape ∧
        iswt2 (.trimmed (onlyA A i) (onlyP ps i)) wavelet (some s') axes = .ok c) ∧
      imra (allArrays c0 (qs.map dict3)) = .ok x := by
  have hinv := iswt2_swt2 hw hpr hl h
  have h0 := h
  obtain ⟨l, rfl⟩ := Int.eq_ofNat_of_zero_le (show 0 ≤ l by omega)
  have hl' : 1 ≤ l := by simpa using hl
  have hal : axes.length = 2 := by
    by_contra hc
    unfold swt2 at h
    rw [if_pos hc] at h
    exact absurd h (by simp [Py_throw, Py_bind_error])
  have hsome : ∃ r', swtn x wavelet (l : ℤ) 0 (some axes) true (some s) = .ok r' := by
    cases hr : swtn x wavelet (l : ℤ) 0 (some axes) true (some s) with
    | ok r' => exact ⟨r', rfl⟩
    | error e =>
      unfold swt2 at h
      simp only [hr] at h
      rw [if_neg (not_not.mpr hal)] at h
      split_ifs at h <;> exact absurd h (by simp [Py_throw, Py_bind_error, Py_pure, Py_bind_ok])
  obtain ⟨r', hr0⟩ := hsome
  obtain ⟨hnd, st, hr, hf⟩ := swtn_fits (m := 0) hw hl' hr0
  obtain ⟨st', hr', h1, h2⟩ := hr.renorm (some s')
  have hP := StagesPR.of_renorm hw hpr h2
  have hst : st.length = 2 := by
    have := congrArg List.length hr.1
    simp only [List.length_map] at this
    omega
  have hst' : st'.length = 2 := by rw [← hP.length]; exact hst
  have hf0 : SwtnFits st l x.shape := by simpa using hf
  have hf' := hf0.renorm hP h1
  have hv := swt2_ok (m := 0) hst hr hf true
  rw [Nat.cast_zero] at hv
  have h' : swt2 x wavelet (l : ℤ) 0 axes true (some s) = .ok r := h
  rw [hv] at h'
  simp only [if_true, Except.ok.injEq] at h'
  set A := swtnApprox st 0 x l with hA
  set ps := ((List.range l).map (swt2Det st 0 x)).reverse with hps
  have hAs : A.shape = x.shape := swtnApprox_shape _ _ _ _
  have hpl : ps.length = l := by simp [hps]
  have hbs : ∀ j k, (swtnBand st 0 x j k).shape = x.shape := by
    intro j k
    rw [swtnBand, swtBand_shape, swtnApprox_shape]
  have hshape : ∀ p ∈ ps, p.1.shape = A.shape ∧ p.2.1.shape = A.shape ∧ p.2.2.shape = A.shape := by
    intro p hp
    obtain ⟨j, _, rfl⟩ := List.mem_map.mp (List.mem_reverse.mp hp)
    rw [hAs]
    exact ⟨hbs _ _, hbs _ _, hbs _ _⟩
  have hne : ∀ qs : List (Arr M × Arr M × Arr M), qs.length = ps.length → qs ≠ [] := by
    rintro qs hq rfl
    rw [hpl] at hq
    simp at hq
    omega
  have hkeys : ∀ d ∈ ps.map dict3, (d.map (·.1)).Nodup := by
    intro d hd'
    obtain ⟨p, -, rfl⟩ := List.mem_map.mp hd'
    exact dict3_nodup p
  have hval : ∀ i, iswt2 (.trimmed (onlyA A i) (onlyP ps i)) wavelet (some s') axes =
      .ok (iswtnCascade st' (onlyD (ps.map dict3) i) (onlyA A i)) := by
    intro i
    rw [onlyD_dict3]
    apply iswt2_trimmed hst'
    · have : (onlyA A i).ndim = x.ndim := by unfold Arr.ndim; rw [onlyA_shape, hAs]
      rw [this]; exact hr'
    · rw [onlyP_length, hpl, onlyA_shape, hAs]; exact hf'
    · exact hne _ (onlyP_length _ _)
    · intro p hp
      obtain ⟨j, hj, rfl⟩ := List.mem_iff_getElem.mp hp
      have hj' : j < ps.length := by rwa [onlyP_length] at hj
      obtain ⟨g1, g2, g3⟩ := hshape _ (List.getElem_mem hj')
      have hk : ∀ (c : Prop) [Decidable c] (a : Arr M), (if c then a else Arr.zero a.shape).shape = a.shape := by
        intro c _ a
        split <;> rfl
      simp only [onlyP, List.getElem_mapIdx]
      rw [onlyA_shape, hk, hk, hk]
      exact ⟨g1, g2, g3⟩
  have hfull : iswtnCascade st' (ps.map dict3) A = x := by
    have h3 := iswt2_trimmed (A := A) (ps := ps) (wavelet := wavelet) (norm := some s') (axes := axes) hst'
      (by unfold Arr.ndim at hr' ⊢; rw [hAs]; exact hr') (by rw [hpl, hAs]; exact hf') (hne _ rfl) hshape
    rw [← h', h3] at hinv
    simpa using hinv
  obtain ⟨t, t1, t2⟩ := mra_only (R := R) (recM := fun a ds => iswtnCascade st' ds a)
    (recP := fun a ds => iswtnCascade st' ds a) (fun φ a ds => iswtnCascade_map φ st' ds a) hkeys
    (x := x) (a := A) (by rw [hfull]; exact Arr.Extends.refl x)
  have hsame : ∀ i, iswtnCascade st' (onlyD (ps.map dict3) i) (onlyA A i) = t i := by
    intro i
    have hs : (iswtnCascade st' (onlyD (ps.map dict3) i) (onlyA A i)).shape = x.shape := by
      rw [← hfull]
      exact only_shape (R := R) (recM := fun a ds => iswtnCascade st' ds a)
        (recP := fun a ds => iswtnCascade st' ds a) (fun φ a ds => iswtnCascade_map φ st' ds a) A _ i
    refine Arr.ext_get (by rw [hs, (t1 i).2.1]) fun idx hidx => ?_
    exact (t1 i).2.2.2.2 idx (by rw [(t1 i).2.1, ← hs]; exact hidx)
  refine ⟨A, ps, t none, compsP ps t, h'.symm, ?_, by simp [compsP], ?_, ?_⟩
  · rw [← comps2Of_eq]
    have hper : ¬ ¬ (PerAxis.one Mode.periodization).isPer = true := by simp [PerAxis.isPer]
    have h3 : swt2 x wavelet (l : ℤ) 0 axes true (some s) = .ok (.trimmed A ps) := by
      rw [hv]; rfl
    have hlev' : mraSwtLevel level x.shape = .ok (l : ℤ) := hlev
    simp only [mra2Swt2, if_neg hper, hlev', Py_bind_ok, h3]
    apply mra2Core_ok
    intro i _
    refine ⟨_, ?_, (t1 i).1⟩
    simp only [mra2Iswt2]
    rw [onlyT_triples, asTriples_tripleList, Py_bind_ok]
    exact hval i
  · intro i hi
    refine ⟨t i, ?_, (t1 i).2.1, ?_⟩
    · rw [compsP_dict3]
      exact arrayAt_compsOf hkeys t hi
    · rw [hval i, hsame]
  · unfold allArrays
    rw [compsP_dict3, compsOf_flat]
    exact t2

end

end Pywt
