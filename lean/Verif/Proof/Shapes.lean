import Verif.Spec.Shapes
import Verif.Proof.WaverecN

/-! `wavedecn_shapes`, `wavedecn_size`, `dwtn_max_level`. -/

namespace Pywt

open Finset Spec

set_option linter.unusedSectionVars false

variable {R M : Type} [Ring R] [AddCommGroup M] [Module R M]

theorem pySet_eq {α : Type} {l : List α} {a : ℤ} {n : ℕ} {v : α} (hn : n < l.length)
    (h : (n : ℤ) = if a < 0 then a + (l.length : ℤ) else a) :
    pySet l a v = .ok (l.set n v) := by
  unfold pySet
  split at h
  · have : l.length - (-a).toNat = n := by omega
    rw [if_neg (by omega), if_pos (by omega), this]
    rfl
  · have : a.toNat = n := by omega
    rw [if_pos (by omega), if_pos (by omega), this]
    rfl

theorem setAll_ok {axis : ℤ} {n v : ℕ} {keys : List Key} {sh : List ℕ} (hn : n < sh.length)
    (h : (n : ℤ) = if axis < 0 then axis + (sh.length : ℤ) else axis) :
    setAll axis v (keys.map fun k => (k, sh)) = .ok (keys.map fun k => (k, sh.set n v)) := by
  induction keys with
  | nil => rfl
  | cons k keys ih =>
    simp only [List.map_cons, setAll, pySet_eq hn h, ih, Py_bind_ok, Py_pure]

/-- All extents computed from the original shape. -/
def decShape0 (shape : List ℕ) (st : List (Stage R)) (sh : List ℕ) : List ℕ :=
  st.foldl (fun sh s => sh.set s.1 (coeffLen s.2.2 (shape.getD s.1 0) s.2.1.dec_len)) sh

theorem decShape0_eq {shape sh : List ℕ} {st : List (Stage R)} (hn : (st.map (·.1)).Nodup)
    (hb : ∀ s ∈ st, s.1 < sh.length) (h : ∀ s ∈ st, sh.getD s.1 0 = shape.getD s.1 0) :
    decShape0 shape st sh = decShape st sh := by
  induction st generalizing sh with
  | nil => rfl
  | cons s st ih =>
    simp only [List.map_cons, List.nodup_cons] at hn
    have hs := h s (by simp)
    unfold decShape0 decShape at ih ⊢
    rw [List.foldl_cons, List.foldl_cons, hs]
    refine ih hn.2 (fun t ht => by simpa using hb t (by simp [ht])) fun t ht => ?_
    rw [getD_set (hb s (by simp)), if_neg]
    · exact h t (by simp [ht])
    · intro e
      exact hn.1 (e ▸ List.mem_map_of_mem ht)

theorem shapesStep_ok {shape : List ℕ} {axes : List ℤ} {st : List (Stage R)} {keys : List Key}
    {sh : List ℕ} (hl : sh.length = shape.length)
    (hb : ∀ s ∈ st, s.1 < shape.length ∧ 1 ≤ s.2.1.dec_len ∧ 1 ≤ shape.getD s.1 0)
    (h : normAxes shape.length axes = st.map fun s : Stage R => (s.1 : ℤ)) :
    shapesStep shape (zipStages axes (st.map (·.2.1)) (st.map (·.2.2)))
      (keys.map fun k => (k, sh)) = .ok (keys.map fun k => (k, decShape0 shape st sh)) := by
  induction axes generalizing st sh with
  | nil => cases st with
    | nil => rfl
    | cons s st => simp [normAxes] at h
  | cons a axes ih => cases st with
    | nil => simp [normAxes] at h
    | cons s st =>
      simp only [normAxes, List.map_cons, List.cons.injEq] at h
      obtain ⟨b1, b2, b3⟩ := hb s (by simp)
      have e := pyIndex_eq b1 h.1.symm
      have e2 : dwtCoeffLen (shape.getD s.1 0) s.2.1.dec_len s.2.2 =
          .ok (coeffLen s.2.2 (shape.getD s.1 0) s.2.1.dec_len) := by
        unfold dwtCoeffLen
        rw [if_neg (by omega), if_neg (by omega), dwtBufferLength_eq b3 b2]
      have e3 := setAll_ok (keys := keys) (sh := sh)
        (v := coeffLen s.2.2 (shape.getD s.1 0) s.2.1.dec_len)
        (by rw [hl]; exact b1) (by rw [hl]; exact h.1.symm)
      have e4 := ih (st := st) (sh := sh.set s.1 (coeffLen s.2.2 (shape.getD s.1 0) s.2.1.dec_len))
        (by simpa using hl) (fun t ht => hb t (by simp [ht])) h.2
      simp only [zipStages, List.map_cons, List.zip_cons_cons, shapesStep, shapeAt, e, e2, e3,
        Py_bind_ok, Py_pure]
      exact e4

theorem StagesOk.mem_lens {st : List (Stage R)} {shape : List ℕ} (h : StagesOk st shape)
    (hn : (st.map (·.1)).Nodup) :
    ∀ s ∈ st, s.1 < shape.length ∧ s.2.1.Ok ∧ LenOk s.2.2 (shape.getD s.1 0) := by
  induction st generalizing shape with
  | nil => intro s hs; simp at hs
  | cons t st ih =>
    simp only [List.map_cons, List.nodup_cons] at hn
    obtain ⟨a1, a2, a3, a4⟩ := h
    intro s hs
    rcases List.mem_cons.mp hs with rfl | hs
    · exact ⟨a1, a2, a3⟩
    · obtain ⟨b1, b2, b3⟩ := ih a4 hn.2 s hs
      rw [getD_set a1, if_neg] at b3
      · exact ⟨by simpa using b1, b2, b3⟩
      · intro e
        exact hn.1 (e ▸ List.mem_map_of_mem hs)

theorem shapesLoop_ok {axes : List ℤ} {st : List (Stage R)} (hn : (st.map (·.1)).Nodup)
    (n : ℕ) (shape : List ℕ) (hlv : LevelsOkN st shape n)
    (h : normAxes shape.length axes = st.map fun s : Stage R => (s.1 : ℤ))
    (acc : List (List (Key × List ℕ))) :
    shapesLoop (zipStages axes (st.map (·.2.1)) (st.map (·.2.2))) axes.length n shape acc =
      .ok ((decShape st)^[n] shape, acc ++ (List.range n).map fun j =>
        ((words st.length).filter fun k => k ≠ List.replicate st.length 'a').map fun k =>
          (k, (decShape st)^[j + 1] shape)) := by
  have hlen : axes.length = st.length := by
    have := congrArg List.length h
    simpa [normAxes] using this
  induction n generalizing shape acc with
  | zero => simp [shapesLoop]
  | succ n ih =>
    have h0 := (hlv 0 (by omega)).mem_lens hn
    simp only [Function.iterate_zero, id_eq] at h0
    simp only [shapesLoop]
    rw [shapesStep_ok rfl (fun s hs => ⟨(h0 s hs).1, by have := (h0 s hs).2.1.1; unfold Wavelet.dec_len; omega,
      (h0 s hs).2.2.1⟩) h, decShape0_eq hn (fun s hs => (h0 s hs).1) fun _ _ => rfl]
    simp only [Py_bind_ok, lookupKey, hlen, aKey]
    rw [lookup_map (replicate_a_mem _)]
    simp only [Py_bind_ok]
    have herase : eraseKey ((words st.length).map fun k => (k, decShape st shape))
        (List.replicate st.length 'a') =
        ((words st.length).filter fun k => k ≠ List.replicate st.length 'a').map fun k =>
          (k, decShape st shape) := by
      unfold eraseKey
      rw [List.filter_map]
      rfl
    rw [herase]
    have := ih (decShape st shape) hlv.tail (by rw [decShape_length]; exact h)
      (acc ++ [((words st.length).filter fun k => k ≠ List.replicate st.length 'a').map fun k =>
          (k, decShape st shape)])
    rw [hlen] at this
    rw [this]
    congr 2
    rw [List.range_succ_eq_map, List.map_cons, List.map_map, List.append_assoc]
    rfl

theorem cascadeN_shapes {x : Arr M} {st : List (Stage R)} (n : ℕ) :
    (x.cascadeN st n).map Item.shapes =
      .shape ((decShape st)^[n] x.shape) :: (((List.range n).map fun j =>
        ((words st.length).filter fun k => k ≠ List.replicate st.length 'a').map fun k =>
          (k, (decShape st)^[j + 1] x.shape)).map ShapeItem.dict).reverse := by
  unfold Arr.cascadeN
  rw [List.map_cons, List.map_reverse, List.map_map, List.map_map]
  congr 1
  · rw [Item.shapes, Arr.shape_approxN]
  congr 1
  apply List.map_congr_left
  intro j hj
  simp only [Function.comp_apply, Item.shapes, Item.ofDict, Arr.detailsN, ShapeItem.dict.injEq]
  rw [List.map_map, List.filterMap_map, List.filterMap_eq_map_iff_forall_eq_some.mpr]
  intro k hk
  simp only [Function.comp_apply, Option.map_some, Option.some.injEq, Prod.mk.injEq, true_and]
  have hk2 := (mem_words.mp (List.mem_filter.mp hk).1).1
  rw [shape_subband hk2, Arr.shape_approxN, Function.iterate_succ_apply']

theorem pyMin_map {st : List (Stage R)} (hne : st ≠ []) (f : Stage R → ℕ) :
    ∃ m, pyMin (st.map f) = .ok m ∧ (∃ s ∈ st, f s = m) ∧ ∀ s ∈ st, m ≤ f s := by
  unfold pyMin
  cases h : (st.map f).min? with
  | none => rw [List.min?_eq_none_iff] at h; simp at h; exact absurd h hne
  | some m =>
    refine ⟨m, rfl, ?_, ?_⟩
    · have := List.min?_mem h
      exact List.mem_map.mp this
    · intro s hs
      exact (List.le_min?_iff h).mp le_rfl _ (List.mem_map_of_mem hs)

theorem pyMax_map {st : List (Stage R)} (hne : st ≠ []) (f : Stage R → ℕ) :
    ∃ m, pyMax (st.map f) = .ok m ∧ (∃ s ∈ st, f s = m) ∧ ∀ s ∈ st, f s ≤ m := by
  unfold pyMax
  cases h : (st.map f).max? with
  | none => rw [List.max?_eq_none_iff] at h; simp at h; exact absurd h hne
  | some m =>
    refine ⟨m, rfl, ?_, ?_⟩
    · have := List.max?_mem h
      exact List.mem_map.mp this
    · intro s hs
      exact (List.max?_le_iff h).mp le_rfl _ (List.mem_map_of_mem hs)

/-- `wavedecn_shapes` on acceptable arguments. -/
theorem wavedecnShapes_eq {x : Arr M} {wavelet : PerAxis (Wavelet R)} {mode : PerAxis Mode}
    {axes : Option (List ℤ)} {st : List (Stage R)} (hd : 1 ≤ x.ndim) (hne : st ≠ [])
    (hr : Resolves x.ndim wavelet mode axes st) (hb : ∀ s ∈ st, s.1 < x.ndim ∧ s.2.1.Ok)
    (hn : (st.map (·.1)).Nodup) :
    ∃ L, (∀ l, l ≤ L ↔ l = 0 ∨ ∀ s ∈ st, ∀ t ∈ st,
        (s.2.1.dec_len - 1) * 2 ^ l ≤ x.shape.getD t.1 0) ∧
      ∀ level, ¬ (level.any (· < 0) = true) →
        LevelsOkN st x.shape ((level.map Int.toNat).getD L) →
        wavedecnShapes x.shape wavelet mode level axes =
          .ok ((x.cascadeN st ((level.map Int.toNat).getD L)).map Item.shapes) := by
  obtain ⟨m, hm1, ⟨t0, ht0, hm2⟩, hm3⟩ := pyMin_map hne fun s : Stage R => x.shape.getD s.1 0
  obtain ⟨f, hf1, ⟨s0, hs0, hf2⟩, hf3⟩ := pyMax_map hne fun s : Stage R => s.2.1.dec_len
  have hF : 2 ≤ f := by rw [← hf2]; exact (hb s0 hs0).2.1
  refine ⟨dwtMaxLevelC m f, ?_, ?_⟩
  · intro l
    rw [dwtMaxLevelC_le hF]
    refine or_congr_right ⟨?_, ?_⟩
    · intro h s hs t ht
      calc (s.2.1.dec_len - 1) * 2 ^ l ≤ (f - 1) * 2 ^ l :=
            Nat.mul_le_mul_right _ (Nat.sub_le_sub_right (hf3 s hs) 1)
        _ ≤ m := h
        _ ≤ _ := hm3 t ht
    · intro h
      rw [← hf2, ← hm2]
      exact h s0 hs0 t0 ht0
  · intro level hlev hlv
    have hp := prepAxes_ok (shape := x.shape) hd hr (fun s hs => (hb s hs).1) hn
    have hlen := hr.length
    have hw : wavelet.expand (axes.getD (rangeAxes x.shape.length)).length =
        .ok (st.map (·.2.1)) := by
      have h2 := hr.2.1
      rw [← hlen] at h2
      exact h2
    have hm : mode.expand (axes.getD (rangeAxes x.shape.length)).length =
        .ok (st.map (·.2.2)) := by
      have h2 := hr.2.2
      rw [← hlen] at h2
      exact h2
    have hf1' : pyMax ((st.map (·.2.1)).map (·.dec_len)) = .ok f := by
      rw [List.map_map]; exact hf1
    have hc : checkLevel [m] [f] level = .ok ((level.map Int.toNat).getD (dwtMaxLevelC m f)) := by
      have e : dwtMaxLevel m f = .ok (dwtMaxLevelC m f) := by
        unfold dwtMaxLevel
        rw [if_neg (by omega)]
      unfold checkLevel
      simp only [List.zip_cons_cons, List.zip_nil_right, List.mapM_cons, List.mapM_nil, e,
        Py_bind_ok, Py_pure, List.min?_singleton]
      cases level with
      | none => rfl
      | some l =>
        simp only [Option.any_some, decide_eq_true_eq] at hlev
        simp only [if_neg hlev]
        rfl
    simp only [wavedecnShapes, hp, hw, hm, hm1, hf1', hc, Py_bind_ok]
    rw [shapesLoop_ok (axes := axes.getD (rangeAxes x.shape.length)) hn _ x.shape hlv hr.axes_eq]
    simp only [Py_bind_ok, Py_pure, List.nil_append, cascadeN_shapes]

/-! ### Sizes -/

theorem sizeShapes_eq {M : Type} (cs : List (Item M)) (hc : ∀ c ∈ cs, ∃ d : List (Key × Arr M), c = Item.ofDict d)
    (n : ℕ) : sizeShapes (cs.map Item.shapes) n = .ok (n + (cs.map Item.count).sum) := by
  have fold : ∀ (d : List (Key × List ℕ)) (n : ℕ),
      d.foldl (fun n p => n + p.2.prod) n = n + (d.map fun p => p.2.prod).sum := by
    intro d
    induction d with
    | nil => simp
    | cons p d ih => intro n; rw [List.foldl_cons, ih, List.map_cons, List.sum_cons, Nat.add_assoc]
  induction cs generalizing n with
  | nil => simp [sizeShapes, Py_pure]
  | cons c cs ih =>
    obtain ⟨d, rfl⟩ := hc c (by simp)
    simp only [List.map_cons, Item.shapes, Item.ofDict, sizeShapes]
    rw [ih fun c hc' => hc c (by simp [hc']), fold, List.sum_cons, Nat.add_assoc]
    congr 3
    simp only [Item.count]
    rw [List.filterMap_map, List.map_map]
    clear ih hc
    induction d with
    | nil => rfl
    | cons p d ih => simp [Function.comp_def, p.2.ok] at ih ⊢; exact ih

theorem sizeDict_eq (d : CDict M) (hd : ∀ p ∈ d, p.2.isSome) (n : ℕ) :
    sizeDict d n = .ok (n + (d.map fun p => (p.2.map fun a => a.data.length).getD 0).sum) := by
  induction d generalizing n with
  | nil => simp [sizeDict, Py_pure]
  | cons p d ih =>
    obtain ⟨k, v⟩ := p
    cases v with
    | none => exact absurd (hd (k, none) (by simp)) (by simp)
    | some a =>
      simp only [sizeDict]
      rw [ih fun p hp => hd p (by simp [hp])]
      simp [Nat.add_assoc]

theorem sizeDicts_eq (cs : List (Item M))
    (hc : ∀ c ∈ cs, ∃ d : CDict M, c = .dict d ∧ ∀ p ∈ d, p.2.isSome) (n : ℕ) :
    sizeDicts cs n = .ok (n + (cs.map Item.count).sum) := by
  induction cs generalizing n with
  | nil => simp [sizeDicts, Py_pure]
  | cons c cs ih =>
    obtain ⟨d, rfl, hd⟩ := hc c (by simp)
    simp only [sizeDicts, sizeDict_eq d hd, Py_bind_ok]
    rw [ih fun c hc' => hc c (by simp [hc'])]
    simp [Item.count, Nat.add_assoc]

/-! ### `dwtn_max_level` -/

theorem dwtnMaxLevel_eq {shape : List ℕ} {wavelet : PerAxis (Wavelet R)} {mode : PerAxis Mode}
    {axes : Option (List ℤ)} {st : List (Stage R)} (hd : 1 ≤ shape.length) (hne : st ≠ [])
    (hr : Resolves shape.length wavelet mode axes st)
    (hb : ∀ s ∈ st, s.1 < shape.length ∧ s.2.1.Ok) (hn : (st.map (·.1)).Nodup) :
    ∃ L, dwtnMaxLevel shape wavelet axes = .ok L ∧
      ∀ l, l ≤ L ↔ ∀ s ∈ st, l = 0 ∨ (s.2.1.dec_len - 1) * 2 ^ l ≤ shape.getD s.1 0 := by
  have hp := prepAxes_ok (shape := shape) hd hr (fun s hs => (hb s hs).1) hn
  have hlen := hr.length
  have hw : wavelet.expand (axes.getD (rangeAxes shape.length)).length =
      .ok (st.map (·.2.1)) := by
    have h2 := hr.2.1
    rw [← hlen] at h2
    exact h2
  obtain ⟨m, hm1, ⟨t0, ht0, hm2⟩, hm3⟩ :=
    pyMin_map hne fun s : Stage R => dwtMaxLevelC (shape.getD s.1 0) s.2.1.dec_len
  refine ⟨m, ?_, ?_⟩
  · have hz : (st.map fun s : Stage R => shape.getD s.1 0).zip (st.map (·.2.1)) =
        st.map fun s : Stage R => (shape.getD s.1 0, s.2.1) := by
      rw [List.zip_map']
    have hmm : (st.map fun s : Stage R => (shape.getD s.1 0, s.2.1)).mapM
        (fun p => dwtMaxLevel p.1 p.2.dec_len) =
        (.ok (st.map fun s : Stage R => dwtMaxLevelC (shape.getD s.1 0) s.2.1.dec_len) :
          Py (List ℕ)) := by
      have hb' : ∀ s ∈ st, 2 ≤ s.2.1.dec_len := fun s hs => (hb s hs).2.1
      clear hm1 hm2 hm3 ht0 hz hw hlen hp hn hb hr hne
      induction st with
      | nil => rfl
      | cons s st ih =>
        have e : dwtMaxLevel (shape.getD s.1 0) s.2.1.dec_len =
            .ok (dwtMaxLevelC (shape.getD s.1 0) s.2.1.dec_len) := by
          unfold dwtMaxLevel
          rw [if_neg]
          have := hb' s (by simp)
          omega
        rw [List.map_cons, List.mapM_cons, e]
        simp only [Py_bind_ok]
        rw [ih fun t ht => hb' t (by simp [ht])]
        rfl
    simp only [dwtnMaxLevel, hp, hw, hz, hmm, hm1, Py_bind_ok]
  · intro l
    constructor
    · intro h s hs
      exact (dwtMaxLevelC_le (hb s hs).2.1).mp (h.trans (hm3 s hs))
    · intro h
      rw [← hm2]
      exact (dwtMaxLevelC_le (hb t0 ht0).2.1).mpr (h t0 ht0)

end Pywt
