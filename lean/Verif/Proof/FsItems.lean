import Verif.Proof.FsTop

/-! Items of the result of a fully separable transform. -/

namespace Pywt

open Finset Spec

set_option linter.unusedSectionVars false

section
variable {R M : Type} [Ring R] [AddCommGroup M] [Module R M]

/-- Axis, offset and length of the part of a key. -/
def FsAxis.part (shape : List ℕ) (q : FsAxis R × ℕ) : ℕ × ℕ × ℕ :=
  (q.1.ax, ((q.1.lens shape).take q.2).sum, (q.1.lens shape).getD q.2 0)

theorem FsAxis.lens_length (shape : List ℕ) (p : FsAxis R) : (p.lens shape).length = p.n + 1 := by
  simp [FsAxis.lens, cascadeLens]

theorem take_sum_le (ns : List ℕ) (j : ℕ) : (ns.take j).sum + ns.getD j 0 ≤ ns.sum := by
  induction ns generalizing j with
  | nil => simp
  | cons n ns ih =>
    cases j with
    | zero => simp
    | succ j =>
      have := ih j
      simp only [List.take_succ_cons, List.sum_cons, List.getD_cons_succ]
      omega

theorem take_sum_mono (ns : List ℕ) {i j : ℕ} (h : i < j) :
    (ns.take i).sum + ns.getD i 0 ≤ (ns.take j).sum := by
  induction ns generalizing i j with
  | nil => simp
  | cons n ns ih =>
    cases j with
    | zero => omega
    | succ j =>
      cases i with
      | zero => simp
      | succ i =>
        have := ih (i := i) (j := j) (by omega)
        simp only [List.take_succ_cons, List.sum_cons, List.getD_cons_succ]
        omega

theorem offsetSlices_get (ns : List ℕ) (off : ℕ) {j : ℕ} (hj : j < ns.length) :
    (offsetSlices ns off)[j]? =
      some ⟨off + (ns.take j).sum, some (off + (ns.take j).sum + ns.getD j 0)⟩ := by
  induction ns generalizing off j with
  | nil => simp at hj
  | cons n ns ih =>
    cases j with
    | zero => simp [offsetSlices]
    | succ j =>
      simp only [offsetSlices, List.getElem?_cons_succ]
      rw [ih _ (by simpa using hj)]
      simp [Nat.add_assoc]

/-- The slice of a key along an axis. -/
def partSlice (o : ℕ × ℕ × ℕ) : Slice := ⟨o.2.1, some (o.2.1 + o.2.2)⟩

theorem coefSl_ok (shape : List ℕ) (qs : List (FsAxis R × ℕ)) (hn : (qs.map (·.1.ax)).Nodup) :
    ∀ sl : List Slice, (∀ q ∈ qs, AxisIs sl.length q.1.arg q.1.ax ∧ q.2 ≤ q.1.n) →
      ∃ sl', FsResult.coefSl (qs.map fun q => (q.1.arg, q.1.slices shape, q.2)) sl = .ok sl' ∧
        sl'.length = sl.length ∧
        (∀ k, k ∉ qs.map (·.1.ax) → sl'.getD k .full = sl.getD k .full) ∧
        (∀ q ∈ qs, sl'.getD q.1.ax .full = partSlice (FsAxis.part shape q)) := by
  induction qs with
  | nil => intro sl _; exact ⟨sl, rfl, rfl, fun _ _ => rfl, by simp⟩
  | cons q qs ih =>
    intro sl h
    simp only [List.map_cons, List.nodup_cons] at hn
    obtain ⟨h1, h2⟩ := h q (by simp)
    obtain ⟨sl', s1, s2, s3, s4⟩ := ih hn.2 (sl.set q.1.ax (partSlice (FsAxis.part shape q)))
      (fun p hp => by rw [List.length_set]; exact h p (by simp [hp]))
    refine ⟨sl', ?_, by rw [s2, List.length_set], ?_, ?_⟩
    · simp only [List.map_cons, FsResult.coefSl, FsAxis.slices]
      rw [offsetSlices_get _ _ (by rw [FsAxis.lens_length]; omega)]
      simp only [Nat.zero_add]
      rw [pySet_eq h1.2 h1.1]
      simp only [Py_bind_ok]
      exact s1
    · intro k hk
      simp only [List.map_cons, List.mem_cons, not_or] at hk
      rw [s3 k hk.2]
      simp only [List.getD_eq_getElem?_getD, List.getElem?_set_ne (Ne.symm hk.1)]
    · intro p hp
      rcases List.mem_cons.mp hp with rfl | hp
      · rw [s3 _ hn.1, List.getD_eq_getElem (hn := by simpa using h1.2), List.getElem_set_self]
      · exact s4 p hp

/-- The slices as operations on lines. -/
def keyOps (shape : List ℕ) (qs : List (FsAxis R × ℕ)) : List (LOp M) :=
  qs.map fun q => sliceOp ((q.1.lens shape).sum) (FsAxis.part shape q)

theorem keyOps_ax (shape : List ℕ) (qs : List (FsAxis R × ℕ)) :
    ((keyOps shape qs : List (LOp M)).map (·.ax)) = qs.map (·.1.ax) := by
  simp [keyOps, sliceOp, FsAxis.part, Function.comp_def]

/-- What a key selects: a box. -/
def keyLow (shape : List ℕ) (qs : List (FsAxis R × ℕ)) : ℕ → ℕ := lowOf (qs.map (FsAxis.part shape))

theorem part_ax (shape : List ℕ) (qs : List (FsAxis R × ℕ)) :
    (qs.map (FsAxis.part shape)).map (·.1) = qs.map (·.1.ax) := by
  simp [FsAxis.part, Function.comp_def]

theorem keyLow_mem {shape : List ℕ} {qs : List (FsAxis R × ℕ)} (hn : (qs.map (·.1.ax)).Nodup)
    {q : FsAxis R × ℕ} (hq : q ∈ qs) : keyLow shape qs q.1.ax = ((q.1.lens shape).take q.2).sum :=
  lowOf_mem (o := FsAxis.part shape q) (by rw [part_ax]; exact hn)
    (List.mem_map.mpr ⟨q, hq, rfl⟩)

theorem keyLow_not_mem {shape : List ℕ} {qs : List (FsAxis R × ℕ)} {k : ℕ}
    (hk : k ∉ qs.map (·.1.ax)) : keyLow shape qs k = 0 :=
  lowOf_not_mem (by rw [part_ax]; exact hk)

theorem keyOps_shape_mem {shape : List ℕ} {qs : List (FsAxis R × ℕ)} (hn : (qs.map (·.1.ax)).Nodup)
    {q : FsAxis R × ℕ} (hq : q ∈ qs) {c : Arr M} (hax : q.1.ax < c.shape.length) :
    (c.run (keyOps shape qs)).shape.getD q.1.ax 0 = (q.1.lens shape).getD q.2 0 :=
  Arr.run_shape_eq (keyOps shape qs) (by rw [keyOps_ax]; exact hn)
    (o := sliceOp ((q.1.lens shape).sum) (FsAxis.part shape q)) (List.mem_map.mpr ⟨q, hq, rfl⟩) c hax

/-- `_get_coef_sl` and the region it selects. -/
theorem coefSl_slFor {shape : List ℕ} {qs : List (FsAxis R × ℕ)} (hn : (qs.map (·.1.ax)).Nodup)
    {c : Arr M} (hq : ∀ q ∈ qs, AxisIs c.ndim q.1.arg q.1.ax ∧ q.2 ≤ q.1.n ∧
      c.shape.getD q.1.ax 0 = (q.1.lens shape).sum) :
    ∃ sl, FsResult.coefSl (qs.map fun q => (q.1.arg, q.1.slices shape, q.2))
        (List.replicate c.ndim Slice.full) = .ok sl ∧
      SlFor c.shape sl (keyLow shape qs) (c.run (keyOps shape qs)).shape := by
  obtain ⟨sl, s1, s2, s3, s4⟩ := coefSl_ok shape qs hn (List.replicate c.ndim Slice.full)
    (fun q h => by
      rw [List.length_replicate]
      exact ⟨(hq q h).1, (hq q h).2.1⟩)
  refine ⟨sl, s1, by rw [s2, List.length_replicate]; rfl, Arr.run_length _ _, ?_⟩
  intro k hk
  by_cases hk' : k ∈ qs.map (·.1.ax)
  · obtain ⟨q, hqm, rfl⟩ := List.mem_map.mp hk'
    obtain ⟨a1, a2, a3⟩ := hq q hqm
    have hle := take_sum_le (q.1.lens shape) q.2
    rw [s4 q hqm, keyLow_mem hn hqm, keyOps_shape_mem hn hqm hk, a3]
    simp only [partSlice, FsAxis.part, Slice.len, Slice.lo, Option.getD_some]
    omega
  · rw [s3 k hk', keyLow_not_mem hk', Arr.run_shape_ne _ (by rw [keyOps_ax]; exact hk')]
    have : (List.replicate c.ndim Slice.full).getD k Slice.full = Slice.full := by
      simp [List.getD_eq_getElem?_getD, List.getElem?_replicate]
      split <;> rfl
    rw [this]
    simp [Slice.full, Slice.len, Slice.lo]

theorem getSlices_key {shape : List ℕ} {qs : List (FsAxis R × ℕ)} (hn : (qs.map (·.1.ax)).Nodup)
    {c : Arr M} (hq : ∀ q ∈ qs, AxisIs c.ndim q.1.arg q.1.ax ∧ q.2 ≤ q.1.n ∧
      c.shape.getD q.1.ax 0 = (q.1.lens shape).sum) {sl : List Slice}
    (hsl : SlFor c.shape sl (keyLow shape qs) (c.run (keyOps shape qs)).shape) :
    c.getSlices sl = .ok (c.run (keyOps shape qs)) := by
  have e1 : ¬ c.ndim < sl.length := by rw [hsl.1, Arr.ndim]; omega
  simp only [Arr.getSlices, if_neg e1, Py_pure, sliceShape_eq hsl]
  congr 1
  refine Arr.ext_get rfl fun idx hidx => ?_
  rw [Arr.shape_ofFn] at hidx
  rw [Arr.get_ofFn _ hidx]
  · have := run_slices_get (M := M) (fun _ => 0) (qs.map (FsAxis.part shape))
      (by rw [part_ax]; exact hn) c (by
        intro o ho
        obtain ⟨q, hqm, rfl⟩ := List.mem_map.mp ho
        obtain ⟨a1, a2, a3⟩ := hq q hqm
        refine ⟨a1.2, ?_⟩
        show _ ≤ c.shape.getD q.1.ax 0
        rw [a3]
        exact take_sum_le _ _) idx
    have e : ∀ x : Arr M, x.run ((qs.map (FsAxis.part shape)).map fun o => sliceOp 0 o) =
        x.run (keyOps shape qs) := by
      intro x
      unfold Arr.run keyOps
      rw [List.map_map, List.foldl_map, List.foldl_map]
      rfl
    rw [e] at this
    rw [this hidx]
    refine c.get_congr fun k hk => ?_
    rw [sliceLo_eq hsl hk]
    rfl
  · intro f g hfg
    refine c.get_congr fun k hk => ?_
    rw [hfg k (by rw [hsl.2.1]; exact hk)]

theorem zip_key {ps : List (FsAxis R)} {key : List ℕ} (shape : List ℕ) :
    (ps.map (·.arg)).zip ((ps.map fun p => p.slices shape).zip key) =
      (ps.zip key).map fun q => (q.1.arg, q.1.slices shape, q.2) := by
  induction ps generalizing key with
  | nil => rfl
  | cons p ps ih =>
    cases key with
    | nil => rfl
    | cons k key => simp [ih]

theorem FsKey.length_eq {ps : List (FsAxis R)} {key : List ℕ} (h : FsKey ps key) :
    ps.length = key.length := List.Forall₂.length_eq h

theorem FsKey.zip {ps : List (FsAxis R)} {key : List ℕ} (h : FsKey ps key) :
    (∀ q ∈ ps.zip key, q.1 ∈ ps ∧ q.2 ≤ q.1.n) ∧
      (ps.zip key).map (·.1.ax) = ps.map (·.ax) := by
  induction h with
  | nil => simp
  | cons h1 _ ih =>
    rename_i p k ps key _
    constructor
    · intro q hq
      rw [List.zip_cons_cons] at hq
      rcases List.mem_cons.mp hq with rfl | hq
      · exact ⟨by simp, h1⟩
      · exact ⟨by simp [(ih.1 q hq).1], (ih.1 q hq).2⟩
    · simp [ih.2]

/-- The setting of the following theorems. -/
structure FsSetting (r : FsResult R M) (shape : List ℕ) (ps : List (FsAxis R)) : Prop where
  is : r.Is shape ps
  nodup : (ps.map (·.ax)).Nodup
  axes : ∀ p ∈ ps, AxisIs shape.length p.arg p.ax

theorem FsSetting.zip {r : FsResult R M} {shape : List ℕ} {ps : List (FsAxis R)}
    (h : FsSetting r shape ps) {key : List ℕ} (hk : FsKey ps key) :
    ((ps.zip key).map (·.1.ax)).Nodup ∧
    ∀ q ∈ ps.zip key, AxisIs r.coeffs.ndim q.1.arg q.1.ax ∧ q.2 ≤ q.1.n ∧
      r.coeffs.shape.getD q.1.ax 0 = (q.1.lens shape).sum := by
  obtain ⟨h1, h2⟩ := hk.zip
  rw [h2]
  refine ⟨h.nodup, fun q hq => ⟨?_, (h1 q hq).2, h.is.2.2.2.2.2.1 _ (h1 q hq).1⟩⟩
  have : r.coeffs.ndim = shape.length := h.is.2.2.2.2.1
  rw [this]
  exact h.axes _ (h1 q hq).1

theorem getCoefSl_eq {r : FsResult R M} {shape : List ℕ} {ps : List (FsAxis R)}
    (h : FsSetting r shape ps) (key : List ℕ) :
    r.getCoefSl key = FsResult.coefSl ((ps.zip key).map fun q => (q.1.arg, q.1.slices shape, q.2))
      (List.replicate r.coeffs.ndim Slice.full) := by
  unfold FsResult.getCoefSl
  rw [h.is.1, h.is.2.1, zip_key]

theorem offsetSlices_length (ns : List ℕ) (off : ℕ) : (offsetSlices ns off).length = ns.length := by
  induction ns generalizing off with
  | nil => rfl
  | cons n ns ih => simp [offsetSlices, ih]

theorem FsSetting.levels {r : FsResult R M} {shape : List ℕ} {ps : List (FsAxis R)}
    (h : FsSetting r shape ps) : r.levels = ps.map (·.n) := by
  unfold FsResult.levels
  rw [h.is.2.1, List.map_map]
  apply List.map_congr_left
  intro p _
  simp only [Function.comp_apply, FsAxis.slices]
  rw [offsetSlices_length, FsAxis.lens_length]
  rfl

theorem any_key_gt {ps : List (FsAxis R)} {key : List ℕ} (hk : FsKey ps key) :
    (((key.map fun k : ℕ => (k : ℤ)).zip (ps.map fun p => p.n)).any
      fun p : ℤ × ℕ => decide (p.1 > (p.2 : ℤ))) = false := by
  induction hk with
  | nil => rfl
  | cons h1 _ ih =>
    rw [List.map_cons, List.map_cons, List.zip_cons_cons, List.any_cons, ih]
    simp only [Bool.or_false, decide_eq_false_iff_not]
    omega

theorem validateIndex_ok {r : FsResult R M} {shape : List ℕ} {ps : List (FsAxis R)}
    (h : FsSetting r shape ps) {key : List ℕ} (hk : FsKey ps key) :
    r.validateIndex (key.map fun k : ℕ => (k : ℤ)) = .ok () := by
  have e1 : ¬ (key.map fun k : ℕ => (k : ℤ)).length ≠ r.axes.length := by
    rw [h.is.1]; simp [hk.length_eq]
  have e2 : ((key.map fun k : ℕ => (k : ℤ)).any fun l => decide (l < 0)) = false := by
    rw [List.any_eq_false]
    intro l hl
    obtain ⟨k, _, rfl⟩ := List.mem_map.mp hl
    simp
  have e3 : (((key.map fun k : ℕ => (k : ℤ)).zip r.levels).any
      fun p => decide (p.1 > (p.2 : ℤ))) = false := by
    rw [h.levels]
    exact any_key_gt hk
  simp only [FsResult.validateIndex, if_neg e1, e2, e3, Bool.false_eq_true, if_false, Py_pure]

theorem toNat_key (key : List ℕ) : (key.map fun k : ℕ => (k : ℤ)).map Int.toNat = key := by
  simp [Function.comp_def]

theorem getItem_ok {r : FsResult R M} {shape : List ℕ} {ps : List (FsAxis R)}
    (h : FsSetting r shape ps) {key : List ℕ} (hk : FsKey ps key) :
    r.getItem (key.map fun k : ℕ => (k : ℤ)) =
      .ok (r.coeffs.run (keyOps shape (ps.zip key))) := by
  obtain ⟨hn, hq⟩ := h.zip hk
  obtain ⟨sl, s1, s2⟩ := coefSl_slFor (c := r.coeffs) hn hq
  unfold FsResult.getItem
  rw [validateIndex_ok h hk, toNat_key, getCoefSl_eq h, s1]
  simp only [Py_bind_ok]
  exact getSlices_key hn hq s2

/-- The box of a key. -/
def keyBox (shape : List ℕ) (qs : List (FsAxis R × ℕ)) (v : Arr M) : Box M := ⟨keyLow shape qs, v⟩

theorem setItem_ok {r : FsResult R M} {shape : List ℕ} {ps : List (FsAxis R)}
    (h : FsSetting r shape ps) {key : List ℕ} (hk : FsKey ps key) {v : Arr M}
    (hv : v.shape = (r.coeffs.run (keyOps shape (ps.zip key))).shape) :
    ∃ c, r.setItem (key.map fun k : ℕ => (k : ℤ)) v = .ok { r with coeffs := c } ∧
      c.shape = r.coeffs.shape ∧
      Filled c (fun idx => r.coeffs.get idx) [keyBox shape (ps.zip key) v] := by
  obtain ⟨hn, hq⟩ := h.zip hk
  obtain ⟨sl, s1, s2⟩ := coefSl_slFor (c := r.coeffs) hn hq
  obtain ⟨c, c1, c2, c3⟩ := setSlices_filled (A := r.coeffs) (base := fun idx => r.coeffs.get idx)
    (bs := []) (b := keyBox shape (ps.zip key) v) (sl := sl)
    ⟨by simp, fun _ _ _ => rfl⟩ (by rw [keyBox]; simp only [hv]; exact s2) (by simp)
  refine ⟨c, ?_, c2, c3⟩
  have e : ¬ (r.coeffs.run (keyOps shape (ps.zip key))).shape ≠ v.shape := by rw [hv]; simp
  unfold FsResult.setItem
  rw [validateIndex_ok h hk, toNat_key, getCoefSl_eq h, s1]
  simp only [Py_bind_ok]
  rw [getSlices_key hn hq s2]
  simp only [Py_bind_ok, if_neg e]
  have c1' : r.coeffs.setSlices sl v = .ok c := c1
  rw [c1']
  rfl

theorem FsSetting.with {r : FsResult R M} {shape : List ℕ} {ps : List (FsAxis R)}
    (h : FsSetting r shape ps) {c : Arr M} (hc : c.shape = r.coeffs.shape) :
    FsSetting { r with coeffs := c } shape ps := by
  obtain ⟨⟨h1, h2, h3, h4, h5, h6, h7⟩, h8, h9⟩ := h
  exact ⟨⟨h1, h2, h3, h4, by rw [hc]; exact h5, by rw [hc]; exact h6, by rw [hc]; exact h7⟩, h8, h9⟩

/-- The value of an item at an index. -/
theorem keyOps_get {r : FsResult R M} {shape : List ℕ} {ps : List (FsAxis R)}
    (h : FsSetting r shape ps) {key : List ℕ} (hk : FsKey ps key) {idx : ℕ → ℕ}
    (hidx : InB (r.coeffs.run (keyOps shape (ps.zip key))).shape idx) :
    (r.coeffs.run (keyOps shape (ps.zip key))).get idx =
      r.coeffs.get fun k => keyLow shape (ps.zip key) k + idx k := by
  obtain ⟨hn, hq⟩ := h.zip hk
  have := run_slices_get (M := M) (fun _ => 0) ((ps.zip key).map (FsAxis.part shape))
      (by rw [part_ax]; exact hn) r.coeffs (by
        intro o ho
        obtain ⟨q, hqm, rfl⟩ := List.mem_map.mp ho
        obtain ⟨a1, a2, a3⟩ := hq q hqm
        refine ⟨a1.2, ?_⟩
        show _ ≤ r.coeffs.shape.getD q.1.ax 0
        rw [a3]
        exact take_sum_le _ _) idx
  have e : ∀ x : Arr M, x.run (((ps.zip key).map (FsAxis.part shape)).map fun o => sliceOp 0 o) =
      x.run (keyOps shape (ps.zip key)) := by
    intro x
    unfold Arr.run keyOps
    rw [List.map_map, List.foldl_map, List.foldl_map]
    rfl
  rw [e] at this
  exact this hidx

theorem keyOps_inB {r : FsResult R M} {shape : List ℕ} {ps : List (FsAxis R)}
    (h : FsSetting r shape ps) {key : List ℕ} (hk : FsKey ps key) {idx : ℕ → ℕ}
    (hidx : InB (r.coeffs.run (keyOps shape (ps.zip key))).shape idx) :
    InB r.coeffs.shape fun k => keyLow shape (ps.zip key) k + idx k := by
  obtain ⟨hn, hq⟩ := h.zip hk
  obtain ⟨sl, s1, s2⟩ := coefSl_slFor (c := r.coeffs) hn hq
  intro k hk'
  have h1 := hidx k (by rw [Arr.run_length]; exact hk')
  have h2 := s2.le hk'
  simp only
  omega

theorem keys_differ {ps : List (FsAxis R)} {key key' : List ℕ} (hk : FsKey ps key)
    (hk' : FsKey ps key') (hne : key ≠ key') :
    ∃ q ∈ ps.zip key, ∃ q' ∈ ps.zip key', q.1 = q'.1 ∧ q.2 ≠ q'.2 := by
  induction hk generalizing key' with
  | nil => cases hk' with | nil => exact absurd rfl hne
  | cons h1 h2 ih =>
    rename_i p k ps key
    cases hk' with
    | cons g1 g2 =>
      rename_i k' key'
      by_cases hkk : k = k'
      · subst hkk
        obtain ⟨q, hq, q', hq', e1, e2⟩ := ih g2 (by rintro rfl; exact hne rfl)
        exact ⟨q, by simp [hq], q', by simp [hq'], e1, e2⟩
      · exact ⟨(p, k), by simp, (p, k'), by simp, rfl, hkk⟩

/-- Assigning to a key changes that item only. -/
theorem setItem_getItem {r : FsResult R M} {shape : List ℕ} {ps : List (FsAxis R)}
    (h : FsSetting r shape ps) {key : List ℕ} (hk : FsKey ps key) {v : Arr M}
    (hv : v.shape = (r.coeffs.run (keyOps shape (ps.zip key))).shape) :
    ∃ r', r.setItem (key.map fun k : ℕ => (k : ℤ)) v = .ok r' ∧ FsSetting r' shape ps ∧
      r'.coeffs.shape = r.coeffs.shape ∧
      r'.getItem (key.map fun k : ℕ => (k : ℤ)) = .ok v ∧
      ∀ key', FsKey ps key' → key' ≠ key →
        r'.getItem (key'.map fun k : ℕ => (k : ℤ)) = r.getItem (key'.map fun k : ℕ => (k : ℤ)) := by
  obtain ⟨c, c1, c2, c3⟩ := setItem_ok h hk hv
  have h' := h.with c2
  obtain ⟨hn, hq⟩ := h.zip hk
  have hshape : ∀ key', FsKey ps key' → (c.run (keyOps shape (ps.zip key'))).shape =
      (r.coeffs.run (keyOps shape (ps.zip key'))).shape := by
    intro key' hk'
    obtain ⟨hn', hq'⟩ := h.zip hk'
    refine List.ext_getElem (by rw [Arr.run_length, Arr.run_length, c2]) ?_
    intro k k1 k2
    have e : ∀ l : List ℕ, ∀ hl : k < l.length, l[k] = l.getD k 0 := by
      intro l hl; rw [List.getD_eq_getElem (hn := hl)]
    rw [e, e]
    by_cases hk2 : k ∈ (ps.zip key').map (·.1.ax)
    · obtain ⟨q, hqm, rfl⟩ := List.mem_map.mp hk2
      have hax : q.1.ax < r.coeffs.shape.length := (hq' q hqm).1.2
      rw [keyOps_shape_mem hn' hqm hax, keyOps_shape_mem hn' hqm (by rw [c2]; exact hax)]
    · rw [Arr.run_shape_ne _ (by rw [keyOps_ax]; exact hk2),
        Arr.run_shape_ne _ (by rw [keyOps_ax]; exact hk2), c2]
  refine ⟨_, c1, h', c2, ?_, ?_⟩
  · rw [getItem_ok h' hk]
    congr 1
    simp only
    have hs := hshape key hk
    refine Arr.ext_get (hs.trans hv.symm) fun idx hidx => ?_
    rw [keyOps_get h' hk hidx]
    have hin := keyOps_inB h' hk hidx
    simp only at hin ⊢
    rw [c3.1 _ (List.mem_singleton.mpr rfl) _ hin]
    · refine v.get_congr fun k _ => ?_
      simp only [keyBox]
      omega
    · intro k hk2
      simp only [keyBox]
      rw [hs, ← hv] at hidx
      exact ⟨by omega, by have := hidx k hk2; omega⟩
  · intro key' hk' hne
    rw [getItem_ok h' hk', getItem_ok h hk']
    congr 1
    simp only
    refine Arr.ext_get (hshape key' hk') fun idx hidx => ?_
    have hidx2 : InB (r.coeffs.run (keyOps shape (ps.zip key'))).shape idx := by
      rw [← hshape key' hk']; exact hidx
    rw [keyOps_get h' hk' hidx, keyOps_get h hk' hidx2]
    have hin := keyOps_inB h' hk' hidx
    simp only at hin ⊢
    refine c3.2 _ hin ?_
    intro b hb
    rw [List.mem_singleton] at hb
    subst hb
    intro hcov
    obtain ⟨q, hqm, q', hqm', e1, e2⟩ := keys_differ hk hk' (Ne.symm hne)
    obtain ⟨hn', hq'⟩ := h.zip hk'
    have hax : q.1.ax < r.coeffs.shape.length := (hq q hqm).1.2
    have h1 := hcov q.1.ax (by
      show _ < v.shape.length
      rw [hv, Arr.run_length]; exact hax)
    simp only [keyBox] at h1
    rw [hv, keyOps_shape_mem hn hqm hax, keyLow_mem hn hqm] at h1
    have h2 := hidx2 q'.1.ax (by rw [Arr.run_length]; exact (hq' q' hqm').1.2)
    rw [keyOps_shape_mem hn' hqm' (hq' q' hqm').1.2] at h2
    rw [e1, keyLow_mem hn' hqm'] at h1
    rcases Nat.lt_or_gt_of_ne e2 with h3 | h3
    · have := take_sum_mono (q'.1.lens shape) h3
      omega
    · have := take_sum_mono (q'.1.lens shape) h3
      omega

end

section
variable {R M : Type} [CommRing R] [AddCommGroup M] [Module R M]

/-- The item of a key of the transform is the subband. -/
theorem subband_of_transform {x : Arr M} {ps : List (FsAxis R)} {key : List ℕ}
    (hn : (ps.map (·.ax)).Nodup) (ha : ∀ p ∈ ps, p.ax < x.shape.length) (hw : ∀ p ∈ ps, p.w.Ok)
    (hk : FsKey ps key) :
    (x.fsTransform ps).run (keyOps x.shape (ps.zip key)) = x.fsSubband ps key := by
  obtain ⟨hz1, hz2⟩ := hk.zip
  have hzl : (ps.zip key).map (·.1) = ps := by
    rw [List.map_fst_zip]
    rw [hk.length_eq]
  have hfwd : (ps.map fun p => (p.fwd x.shape : LOp M)) =
      (ps.zip key).map fun q => (q.1.fwd x.shape : LOp M) := by
    conv_lhs => rw [← hzl]
    rw [List.map_map]
    rfl
  have hrun := Arr.run_run (R := R) ((ps.zip key).map fun q => ((q.1.fwd x.shape : LOp M),
      (sliceOp ((q.1.lens x.shape).sum) (FsAxis.part x.shape q) : LOp M)))
    (by rw [List.map_map]; exact hz2 ▸ hn) x (by
      intro o ho
      obtain ⟨q, hq, rfl⟩ := List.mem_map.mp ho
      obtain ⟨q1, q2⟩ := hz1 q hq
      refine ⟨FsAxis.fwd_fits (ha _ q1) (hw _ q1), rfl, rfl, ?_⟩
      exact isMat_slice (take_sum_le _ _))
  simp only [List.map_map, Function.comp_def] at hrun
  rw [fsTransform_eq, hfwd]
  unfold keyOps
  rw [hrun]
  have : x.fsSubband ps key = x.run ((ps.zip key).map fun q => (⟨q.1.ax, x.shape.getD q.1.ax 0,
      (q.1.lens x.shape).getD q.2 0,
      fun l => (cascade q.1.mode q.1.w.dec_lo q.1.w.dec_hi q.1.n l).getD q.2 []⟩ : LOp M)) := by
    unfold Arr.fsSubband Arr.run
    rw [List.foldl_map]
    rfl
  rw [this]
  refine Arr.run_congr _ _ x ?_ ?_ ?_
  · rw [List.forall₂_map_left_iff, List.forall₂_map_right_iff, List.forall₂_same]
    intro q hq
    obtain ⟨q1, q2⟩ := hz1 q hq
    refine ⟨rfl, rfl, rfl, fun l hl => ?_⟩
    have hl' : l.length = x.shape.getD q.1.ax 0 := hl
    show (((cascade q.1.mode q.1.w.dec_lo q.1.w.dec_hi q.1.n l).flatten).drop
      ((q.1.lens x.shape).take q.2).sum).take ((q.1.lens x.shape).getD q.2 0) = _
    have e2 : q.1.lens x.shape =
        (cascade q.1.mode q.1.w.dec_lo q.1.w.dec_hi q.1.n l).map List.length := by
      rw [cascade_lens (hw _ q1).2.2.1, hl']
      rfl
    rw [← chunks_getD _ _ (by rw [FsAxis.lens_length]; omega), e2, chunks_flatten]
  · have : (((ps.zip key).map fun q => LOp.comp ((q.1.fwd x.shape : LOp M),
      (sliceOp ((q.1.lens x.shape).sum) (FsAxis.part x.shape q) : LOp M))).map (·.ax)) =
        (ps.zip key).map (·.1.ax) := by
      simp [LOp.comp, FsAxis.fwd, Function.comp_def]
    rw [this, hz2]
    exact hn
  · intro o ho
    obtain ⟨q, hq, rfl⟩ := List.mem_map.mp ho
    rfl

end

/-! ### Keys -/

theorem mem_prodRanges {ns : List ℕ} {key : List ℕ} :
    key ∈ FsResult.prodRanges ns ↔ List.Forall₂ (fun n k => k ≤ n) ns key := by
  induction ns generalizing key with
  | nil => simp [FsResult.prodRanges]
  | cons n ns ih =>
    simp only [FsResult.prodRanges, List.mem_flatMap, List.mem_range, List.mem_map]
    constructor
    · rintro ⟨i, hi, k, hk, rfl⟩
      exact List.Forall₂.cons (by omega) (ih.mp hk)
    · intro h
      cases h with
      | cons h1 h2 => exact ⟨_, by omega, _, ih.mpr h2, rfl⟩

theorem prodRanges_sorted (ns : List ℕ) : (FsResult.prodRanges ns).Pairwise (· < ·) := by
  induction ns with
  | nil => simp [FsResult.prodRanges]
  | cons n ns ih =>
    simp only [FsResult.prodRanges]
    rw [List.pairwise_flatMap]
    constructor
    · intro i _
      rw [List.pairwise_map]
      exact ih.imp fun h => List.cons_lt_cons_self.mpr h
    · refine (List.pairwise_lt_range (n := n + 1)).imp ?_
      intro i j hij a ha b hb
      obtain ⟨a', _, rfl⟩ := List.mem_map.mp ha
      obtain ⟨b', _, rfl⟩ := List.mem_map.mp hb
      exact List.cons_lt_cons_iff.mpr (.inl hij)

end Pywt
