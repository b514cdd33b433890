import Verif.Spec.Ravel
import Verif.Proof.PackFmt

/-! `ravel_coeffs`, `unravel_coeffs`. -/

namespace Pywt

open Finset Spec

set_option linter.unusedSectionVars false

section
variable {M : Type} [AddCommGroup M]

/-! ### Slices of lists -/

theorem setRange_ok {pre old post v : List M} (h : old.length = v.length) :
    setRange (pre ++ old ++ post) ⟨pre.length, some (pre.length + v.length)⟩ v =
      .ok (pre ++ v ++ post) := by
  have hl : (pre ++ old ++ post).length = pre.length + v.length + post.length := by
    simp [h, Nat.add_assoc]
  have h1 : (⟨pre.length, some (pre.length + v.length)⟩ : Slice).lo (pre ++ old ++ post).length =
      pre.length := by
    simp only [Slice.lo, hl]; omega
  have h2 : (⟨pre.length, some (pre.length + v.length)⟩ : Slice).len (pre ++ old ++ post).length =
      v.length := by
    simp only [Slice.len, Option.getD_some]
    rw [h1, hl]
    omega
  unfold setRange
  have t1 : (pre ++ old ++ post).take pre.length = pre := by
    rw [List.append_assoc, List.take_left]
  have t2 : (pre ++ old ++ post).drop (pre.length + v.length) = post := by
    rw [← h, ← List.length_append, List.drop_left]
  simp only [h1, h2, if_true, Py_pure, t1, t2]

theorem getRange_ok {pre v post : List M} :
    getRange (pre ++ v ++ post) ⟨pre.length, some (pre.length + v.length)⟩ = v := by
  have hl : (pre ++ v ++ post).length = pre.length + v.length + post.length := by
    simp [Nat.add_assoc]
  have h1 : (⟨pre.length, some (pre.length + v.length)⟩ : Slice).lo (pre ++ v ++ post).length =
      pre.length := by
    simp only [Slice.lo, hl]; omega
  have h2 : (⟨pre.length, some (pre.length + v.length)⟩ : Slice).len (pre ++ v ++ post).length =
      v.length := by
    simp only [Slice.len, Option.getD_some]
    rw [h1, hl]
    omega
  unfold getRange
  rw [h1, h2, List.append_assoc, List.drop_left, List.take_left]

theorem reshape_ok (a : Arr M) : reshape a.data a.shape = .ok a := by
  unfold reshape
  rw [dif_pos a.ok]
  rfl

/-! ### Slices and shapes of the result -/

/-- The slices of a dict that starts at an offset. -/
def dictSlices : List (Key × Arr M) → ℕ → List (Key × Slice)
  | [], _ => []
  | p :: d, off => (p.1, ⟨off, some (off + p.2.data.length)⟩) :: dictSlices d (off + p.2.data.length)

/-- Number of samples of a dict. -/
def dictLen (d : List (Key × Arr M)) : ℕ := (d.flatMap fun p => p.2.data).length

/-- The slices of a list of dicts. -/
def listSlices : List (List (Key × Arr M)) → ℕ → List RSlice
  | [], _ => []
  | d :: ds, off => .dict (dictSlices d off) :: listSlices ds (off + dictLen d)

/-- The shapes of a list of dicts. -/
def listShapes (ds : List (List (Key × Arr M))) : List ShapeItem :=
  ds.map fun d => .dict (d.map fun p => (p.1, p.2.shape))

theorem dictLen_cons (p : Key × Arr M) (d : List (Key × Arr M)) :
    dictLen (p :: d) = p.2.data.length + dictLen d := by
  simp [dictLen]

theorem dictSlices_sig {d d' : List (Key × Arr M)}
    (h : (d.map fun p => (p.1, p.2.shape)) = d'.map fun p => (p.1, p.2.shape)) (off : ℕ) :
    dictSlices d off = dictSlices d' off ∧ dictLen d = dictLen d' := by
  induction d generalizing d' off with
  | nil => cases d' with
    | nil => exact ⟨rfl, rfl⟩
    | cons p d' => simp at h
  | cons p d ih => cases d' with
    | nil => simp at h
    | cons q d' =>
      simp only [List.map_cons, List.cons.injEq, Prod.mk.injEq] at h
      have hs : p.2.data.length = q.2.data.length := by rw [p.2.ok, q.2.ok, h.1.2]
      obtain ⟨i1, i2⟩ := ih h.2 (off + p.2.data.length)
      refine ⟨?_, ?_⟩
      · rw [dictSlices, dictSlices, h.1.1, ← hs, i1]
      · rw [dictLen_cons, dictLen_cons, hs, i2]

theorem listSlices_sig {ds ds' : List (List (Key × Arr M))} (h : detailSig ds = detailSig ds')
    (off : ℕ) : listSlices ds off = listSlices ds' off := by
  induction ds generalizing ds' off with
  | nil => cases ds' with
    | nil => rfl
    | cons p d' => simp [detailSig] at h
  | cons d ds ih => cases ds' with
    | nil => simp [detailSig] at h
    | cons d' ds' =>
      simp only [detailSig, List.map_cons, List.cons.injEq] at h
      obtain ⟨i1, i2⟩ := dictSlices_sig h.1 off
      rw [listSlices, listSlices, i1, i2, ih h.2]

theorem listShapes_sig {ds ds' : List (List (Key × Arr M))} (h : detailSig ds = detailSig ds') :
    listShapes ds = listShapes ds' := by
  have : ∀ ds : List (List (Key × Arr M)), listShapes ds = (detailSig ds).map ShapeItem.dict := by
    intro ds
    rw [detailSig, List.map_map]
    rfl
  rw [this, this, h]

/-! ### Raveling -/

theorem ravelDict_ok (d : List (Key × Arr M)) (pre old post : List M)
    (h : old.length = dictLen d) (sls : List (Key × Slice)) (shs : List (Key × List ℕ)) :
    ravelDict (d.map fun p => (p.1, some p.2)) pre.length (pre ++ old ++ post) sls shs =
      .ok (pre.length + dictLen d, pre ++ (d.flatMap fun p => p.2.data) ++ post,
        sls ++ dictSlices d pre.length, shs ++ d.map fun p => (p.1, p.2.shape)) := by
  induction d generalizing pre old sls shs with
  | nil =>
    have : old = [] := by simpa [dictLen] using h
    subst this
    simp [ravelDict, dictLen, dictSlices, Py_pure]
  | cons p d ih =>
    rw [dictLen_cons] at h
    have hs : old = old.take p.2.data.length ++ old.drop p.2.data.length :=
      (List.take_append_drop _ _).symm
    have hl1 : (old.take p.2.data.length).length = p.2.data.length := by
      rw [List.length_take]; omega
    have hl2 : (old.drop p.2.data.length).length = dictLen d := by
      rw [List.length_drop]; omega
    have e1 := setRange_ok (pre := pre) (old := old.take p.2.data.length)
      (post := old.drop p.2.data.length ++ post) hl1
    have hm : pre ++ old ++ post =
        pre ++ old.take p.2.data.length ++ (old.drop p.2.data.length ++ post) := by
      conv_lhs => rw [hs]
      simp only [List.append_assoc]
    have e2 := ih (pre ++ p.2.data) (old.drop p.2.data.length) hl2
      (sls ++ [(p.1, ⟨pre.length, some (pre.length + p.2.data.length)⟩)])
      (shs ++ [(p.1, p.2.shape)])
    rw [List.length_append] at e2
    simp only [List.map_cons, ravelDict]
    rw [hm, e1]
    simp only [Py_bind_ok]
    rw [← List.append_assoc, e2]
    simp only [dictLen_cons, dictSlices, List.flatMap_cons, List.append_assoc, List.cons_append,
      List.nil_append, Nat.add_assoc]

theorem ravelLoop_ok (ds : List (List (Key × Arr M))) (hsort : ∀ d ∈ ds,
      sortItems (d.map fun p => (p.1, some p.2)) = d.map fun p => (p.1, some p.2))
    (pre old : List M) (h : old.length = (flatDetails ds).length) (sls : List RSlice)
    (shs : List ShapeItem) :
    ravelLoop (ds.map Item.ofDict) pre.length (pre ++ old) sls shs =
      .ok (pre ++ flatDetails ds, sls ++ listSlices ds pre.length, shs ++ listShapes ds) := by
  induction ds generalizing pre old sls shs with
  | nil =>
    have : old = [] := by simpa [flatDetails] using h
    subst this
    simp [ravelLoop, flatDetails, listSlices, listShapes, Py_pure]
  | cons d ds ih =>
    have hf : flatDetails (d :: ds) = (d.flatMap fun p => p.2.data) ++ flatDetails ds := by
      simp [flatDetails]
    rw [hf, List.length_append] at h
    have hl1 : (old.take (dictLen d)).length = dictLen d := by
      rw [List.length_take]; unfold dictLen; omega
    have hl2 : (old.drop (dictLen d)).length = (flatDetails ds).length := by
      rw [List.length_drop]; unfold dictLen; omega
    have e1 := ravelDict_ok d pre (old.take (dictLen d)) (old.drop (dictLen d)) hl1 [] []
    have e0 : ¬ ((d.map fun p => (p.1, some p.2)).any fun p : Key × Option (Arr M) => p.2.isNone) =
        true := by simp
    have hm : pre ++ old = pre ++ old.take (dictLen d) ++ old.drop (dictLen d) := by
      rw [List.append_assoc, List.take_append_drop]
    have e2 := ih (fun x hx => hsort x (by simp [hx])) (pre ++ d.flatMap fun p => p.2.data)
      (old.drop (dictLen d)) hl2 (sls ++ [.dict (dictSlices d pre.length)])
      (shs ++ [.dict (d.map fun p => (p.1, p.2.shape))])
    rw [List.length_append] at e2
    have hd : (d.flatMap fun p => p.2.data).length = dictLen d := rfl
    rw [hd] at e2
    simp only [List.map_cons, Item.ofDict, ravelLoop, if_neg e0, hsort d (by simp)]
    rw [hm, e1]
    simp only [Py_bind_ok, List.nil_append]
    rw [e2, hf]
    simp [listSlices, listShapes]

theorem sizeDict_missing {c : CDict M} (h : ∃ q ∈ c, q.2 = none) (n : ℕ) :
    sizeDict c n = .error .value := by
  induction c generalizing n with
  | nil => simp at h
  | cons p c ih =>
    obtain ⟨k, v⟩ := p
    cases v with
    | none => rfl
    | some v => exact ih (by simpa using h) _

theorem sizeDict_cases (c : CDict M) (n : ℕ) :
    (∃ m, sizeDict c n = .ok m) ∨ sizeDict c n = .error .value := by
  induction c generalizing n with
  | nil => exact .inl ⟨n, rfl⟩
  | cons p c ih =>
    obtain ⟨k, v⟩ := p
    cases v with
    | none => exact .inr rfl
    | some v => exact ih _

theorem sizeDicts_missing {cs : List (CDict M)} (h : ∃ d ∈ cs, ∃ q ∈ d, q.2 = none) (n : ℕ) :
    sizeDicts (cs.map Item.dict) n = .error .value := by
  induction cs generalizing n with
  | nil => simp at h
  | cons c cs ih =>
    simp only [List.map_cons, sizeDicts]
    by_cases hc : ∃ q ∈ c, q.2 = none
    · rw [sizeDict_missing hc]; rfl
    · obtain ⟨d, hd, hq⟩ := h
      rcases List.mem_cons.mp hd with rfl | hd
      · exact absurd hq hc
      · rcases sizeDict_cases c n with ⟨m, e⟩ | e
        · rw [e]; exact ih ⟨d, hd, hq⟩ m
        · rw [e]; rfl

/-! ### Sorting -/

theorem sortItems_map {α β : Type} (f : α → β) (d : List (Key × α)) :
    sortItems (d.map fun p => (p.1, f p.2)) = (sortItems d).map fun p => (p.1, f p.2) := by
  unfold sortItems
  exact (List.map_insertionSort (fun p q : Key × α => p.1 ≤ q.1) (fun p q : Key × β => p.1 ≤ q.1)
    (fun p => (p.1, f p.2)) d fun a _ b _ => Iff.rfl).symm

theorem sortItems_perm {α : Type} (d : List (Key × α)) : (sortItems d).Perm d :=
  List.perm_insertionSort _ _

theorem sortItems_pairwise {α : Type} (d : List (Key × α)) :
    (sortItems d).Pairwise fun p q => p.1 ≤ q.1 := by
  have i1 : Std.Total fun p q : Key × α => p.1 ≤ q.1 := ⟨fun p q => le_total p.1 q.1⟩
  have i2 : IsTrans (Key × α) fun p q => p.1 ≤ q.1 := ⟨fun _ _ _ h h' => le_trans h h'⟩
  exact List.pairwise_insertionSort _ d

theorem sortItems_eq {α : Type} {d : List (Key × α)} (h : (d.map (·.1)).Pairwise (· < ·)) :
    sortItems d = d := by
  refine List.Pairwise.insertionSort_eq ?_
  rw [List.pairwise_map] at h
  exact h.imp fun h => le_of_lt h

theorem sortItems_lt {α : Type} {d : List (Key × α)} (h : (d.map (·.1)).Nodup) :
    ((sortItems d).map (·.1)).Pairwise (· < ·) := by
  have h1 := sortItems_pairwise d
  have h2 : ((sortItems d).map (·.1)).Nodup := ((sortItems_perm d).map _).nodup_iff.mpr h
  rw [List.Nodup, List.pairwise_map] at h2
  rw [List.pairwise_map]
  exact (h1.and h2).imp fun h => lt_of_le_of_ne h.1 h.2

/-! ### Unraveling -/

theorem lookupKey_of_nodup {α : Type} {c : List (Key × α)} (hn : (c.map (·.1)).Nodup) {p : Key × α}
    (hp : p ∈ c) : lookupKey c p.1 = .ok p.2 := by
  induction c with
  | nil => simp at hp
  | cons q c ih =>
    obtain ⟨n1, n2⟩ := List.nodup_cons.mp hn
    unfold lookupKey
    rw [List.lookup_cons]
    rcases List.mem_cons.mp hp with rfl | hp
    · simp
    · have : (p.1 == q.1) = false := by
        rw [beq_eq_false_iff_ne]
        intro e
        apply n1
        show q.1 ∈ _
        rw [← e]
        exact List.mem_map_of_mem (f := fun x : Key × α => x.1) hp
      rw [this]
      exact ih n2 hp

theorem unravelDict_ok (sh : List (Key × List ℕ)) (hn : (sh.map (·.1)).Nodup)
    (d : List (Key × Arr M)) (hd : ∀ p ∈ d, (p.1, p.2.shape) ∈ sh) (pre post : List M) :
    unravelDict (pre ++ (d.flatMap fun p => p.2.data) ++ post) sh (dictSlices d pre.length) =
      .ok (d.map fun p => (p.1, some p.2)) := by
  induction d generalizing pre with
  | nil => rfl
  | cons p d ih =>
    have e1 : lookupKey sh p.1 = .ok p.2.shape := lookupKey_of_nodup hn (hd p (by simp))
    have hm : pre ++ ((p :: d).flatMap fun p => p.2.data) ++ post =
        pre ++ p.2.data ++ ((d.flatMap fun p => p.2.data) ++ post) := by
      simp
    have e2 : readReshape (pre ++ ((p :: d).flatMap fun p => p.2.data) ++ post)
        ⟨pre.length, some (pre.length + p.2.data.length)⟩ p.2.shape = .ok p.2 := by
      unfold readReshape
      rw [hm, getRange_ok, reshape_ok]
    have e3 := ih (fun q hq => hd q (by simp [hq])) (pre ++ p.2.data)
    rw [List.length_append] at e3
    have hm' : pre ++ ((p :: d).flatMap fun p => p.2.data) ++ post =
        pre ++ p.2.data ++ (d.flatMap fun p => p.2.data) ++ post := by
      simp
    simp only [dictSlices, unravelDict, e1, e2, Py_bind_ok, Py_pure]
    rw [hm', e3]
    rfl

theorem unravelLoop_ok (ds : List (List (Key × Arr M))) (hn : KeysDistinct ds) (pre : List M) :
    unravelLoop (pre ++ flatDetails ds) .wavedecn (listSlices ds pre.length) (listShapes ds) =
      .ok (ds.map Item.ofDict) := by
  suffices H : ∀ (pre : List M) (post : List M), unravelLoop (pre ++ flatDetails ds ++ post)
      .wavedecn (listSlices ds pre.length) (listShapes ds) = .ok (ds.map Item.ofDict) by
    have := H pre []
    rwa [List.append_nil] at this
  induction ds with
  | nil => intro pre post; rfl
  | cons d ds ih =>
    intro pre post
    have hf : flatDetails (d :: ds) = (d.flatMap fun p => p.2.data) ++ flatDetails ds := by
      simp [flatDetails]
    have hm : pre ++ flatDetails (d :: ds) ++ post =
        pre ++ (d.flatMap fun p => p.2.data) ++ (flatDetails ds ++ post) := by
      rw [hf]; simp
    have hm' : pre ++ flatDetails (d :: ds) ++ post =
        pre ++ (d.flatMap fun p => p.2.data) ++ flatDetails ds ++ post := by
      rw [hf]; simp
    have e1 := unravelDict_ok (d.map fun p => (p.1, p.2.shape))
      (by rw [List.map_map]; exact hn d (by simp)) d
      (fun p hp => List.mem_map_of_mem (f := fun p : Key × Arr M => (p.1, p.2.shape)) hp) pre
      (flatDetails ds ++ post)
    have e2 := ih (fun x hx => hn x (by simp [hx])) (pre ++ d.flatMap fun p => p.2.data) post
    rw [List.length_append] at e2
    have hd : (d.flatMap fun p => p.2.data).length = dictLen d := rfl
    rw [hd] at e2
    simp only [listSlices, listShapes, List.map_cons, unravelLoop, unravelItem]
    rw [hm, e1, ← hm, hm']
    simp only [Py_bind_ok, Py_pure]
    simp only [listShapes] at e2
    rw [e2]
    rfl

/-! ### Both -/

theorem keyCount_packAxes {ndim : ℕ} {axes : Option (List ℤ)} {d : List (Key × Arr M)}
    {ds : List (List (Key × Arr M))} (h : KeyCount ndim axes (d :: ds)) :
    ∃ n, firstKeyLen ((d :: ds).map Item.ofDict) = .ok n ∧
      ∃ l, packAxes ndim n axes = .ok l := by
  cases d with
  | nil => exact h.elim
  | cons p d =>
    refine ⟨p.1.length, rfl, ?_⟩
    simp only [KeyCount] at h
    unfold packAxes
    cases axes with
    | none =>
      simp only at h
      refine ⟨rangeAxes ndim, ?_⟩
      rw [h, if_neg (by simp)]
      simp [rangeAxes, Py_pure]
    | some l =>
      simp only at h
      refine ⟨l, ?_⟩
      rw [if_neg (by simp)]
      simp [h, Py_pure]

theorem count_eq (ds : List (List (Key × Arr M))) :
    ((ds.map Item.ofDict).map Item.count).sum = (flatDetails ds).length := by
  induction ds with
  | nil => rfl
  | cons d ds ih =>
    have hf : flatDetails (d :: ds) = (d.flatMap fun p => p.2.data) ++ flatDetails ds := by
      simp [flatDetails]
    rw [List.map_cons, List.map_cons, List.sum_cons, ih, hf, List.length_append]
    congr 1
    simp only [Item.ofDict, Item.count]
    rw [List.length_flatMap, List.map_map]
    rfl

theorem flatDetails_perm {d d' : List (List (Key × Arr M))} (h : List.Forall₂ List.Perm d d') :
    (flatDetails d).length = (flatDetails d').length := by
  induction h with
  | nil => rfl
  | cons hp _ ih =>
    simp only [flatDetails, List.flatMap_cons, List.length_append] at ih ⊢
    rw [ih, (hp.flatMap_right _).length_eq]

theorem ravelCoeffs_ok {a : Arr M} {ds : List (List (Key × Arr M))} {axes : Option (List ℤ)}
    (hk : KeyCount a.ndim axes ds) (hs : KeysSorted ds) (junk : ℕ → M) :
    ravelCoeffs (.arr a :: ds.map Item.ofDict) axes junk =
      .ok (a.data ++ flatDetails ds, .one ⟨0, some a.data.length⟩ :: listSlices ds a.data.length,
        .shape a.shape :: listShapes ds) := by
  cases ds with
  | nil => simp [ravelCoeffs, headArr, detailsToN, Py_pure, flatDetails, listSlices, listShapes]
  | cons d ds =>
    obtain ⟨n, e1, l, e2⟩ := keyCount_packAxes hk
    have e0 := detailsToN_dict d ds
    have e3 : wavedecnSize (.arr a :: (d :: ds).map Item.ofDict) =
        .ok (a.data.length + (flatDetails (d :: ds)).length) := by
      simp only [wavedecnSize]
      rw [sizeDicts_eq, count_eq]
      intro c hc
      obtain ⟨x, -, rfl⟩ := List.mem_map.mp hc
      refine ⟨_, rfl, fun p hp => ?_⟩
      obtain ⟨q, -, rfl⟩ := List.mem_map.mp hp
      rfl
    have hm : (List.range (a.data.length + (flatDetails (d :: ds)).length)).map junk =
        [] ++ ((List.range (a.data.length + (flatDetails (d :: ds)).length)).map junk).take
          a.data.length ++
        ((List.range (a.data.length + (flatDetails (d :: ds)).length)).map junk).drop
          a.data.length := by
      rw [List.nil_append, List.take_append_drop]
    have e4 := setRange_ok (pre := ([] : List M)) (v := a.data)
      (old := ((List.range (a.data.length + (flatDetails (d :: ds)).length)).map junk).take
          a.data.length)
      (post := ((List.range (a.data.length + (flatDetails (d :: ds)).length)).map junk).drop
          a.data.length) (by simp)
    rw [← hm] at e4
    simp only [List.length_nil, Nat.zero_add, List.nil_append] at e4
    have e5 := ravelLoop_ok (d :: ds)
      (fun x hx => sortItems_eq (by rw [List.map_map]; exact hs x hx)) a.data
      (((List.range (a.data.length + (flatDetails (d :: ds)).length)).map junk).drop
          a.data.length) (by simp) [.one ⟨0, some a.data.length⟩] [.shape a.shape]
    simp only [List.map_cons] at e0 e1 e3 e5 ⊢
    simp only [ravelCoeffs, headArr, Py_bind_ok, Py_pure, e0, e1, e2, e3, e4, e5]
    rfl

/-- Raveling depends on the dicts only up to the order of their items. -/
theorem ravelLoop_sort (ds : List (List (Key × Arr M))) (hd : KeysDistinct ds) (off : ℕ)
    (arr : List M) (sls : List RSlice) (shs : List ShapeItem) :
    ravelLoop (ds.map Item.ofDict) off arr sls shs =
      ravelLoop ((ds.map sortItems).map Item.ofDict) off arr sls shs := by
  induction ds generalizing off arr sls shs with
  | nil => rfl
  | cons d ds ih =>
    have e0 : ∀ d : List (Key × Arr M),
        ¬ ((d.map fun p => (p.1, some p.2)).any fun p : Key × Option (Arr M) => p.2.isNone) =
        true := by simp
    have e1 : sortItems ((sortItems d).map fun p => (p.1, some p.2)) =
        (sortItems d).map fun p => (p.1, some p.2) :=
      sortItems_eq (by rw [List.map_map]; exact sortItems_lt (hd d (by simp)))
    simp only [List.map_cons, Item.ofDict, ravelLoop, if_neg (e0 _), e1]
    rw [sortItems_map (f := fun v : Arr M => some v)]
    congr 1
    funext r
    exact ih (fun x hx => hd x (by simp [hx])) _ _ _ _

theorem keyCount_sort {ndim : ℕ} {axes : Option (List ℤ)} {ds : List (List (Key × Arr M))}
    (h : KeyCount ndim axes ds) (hu : ∀ d ∈ ds, ∀ p ∈ d, ∀ q ∈ d, p.1.length = q.1.length) :
    KeyCount ndim axes (ds.map sortItems) := by
  cases ds with
  | nil => trivial
  | cons d ds =>
    cases d with
    | nil => exact h.elim
    | cons p d =>
      have hp := sortItems_perm (p :: d)
      cases hsd : sortItems (p :: d) with
      | nil => rw [hsd] at hp; exact absurd hp.length_eq (by simp)
      | cons q d' =>
        rw [hsd] at hp
        have hq : q ∈ p :: d := hp.mem_iff.mp (by simp)
        simp only [List.map_cons, hsd, KeyCount] at h ⊢
        rw [← h]
        exact hu (p :: d) (by simp) q hq p (by simp)

theorem ravelCoeffs_sort {a : Arr M} {ds : List (List (Key × Arr M))} {axes : Option (List ℤ)}
    (hk : KeyCount a.ndim axes ds) (hd : KeysDistinct ds)
    (hu : ∀ d ∈ ds, ∀ p ∈ d, ∀ q ∈ d, p.1.length = q.1.length) (junk : ℕ → M) :
    ravelCoeffs (.arr a :: ds.map Item.ofDict) axes junk =
      ravelCoeffs (.arr a :: (ds.map sortItems).map Item.ofDict) axes junk := by
  cases ds with
  | nil => rfl
  | cons d ds =>
    have hk' := keyCount_sort hk hu
    obtain ⟨n, e1, l, e2⟩ := keyCount_packAxes hk
    rw [List.map_cons] at hk'
    obtain ⟨n', e1', l', e2'⟩ := keyCount_packAxes hk'
    have e0 := detailsToN_dict d ds
    have e0' := detailsToN_dict (sortItems d) (ds.map sortItems)
    have size : ∀ ds : List (List (Key × Arr M)), wavedecnSize (.arr a :: ds.map Item.ofDict) =
        .ok (a.data.length + (flatDetails ds).length) := by
      intro ds
      simp only [wavedecnSize]
      rw [sizeDicts_eq, count_eq]
      intro c hc
      obtain ⟨x, -, rfl⟩ := List.mem_map.mp hc
      refine ⟨_, rfl, fun p hp => ?_⟩
      obtain ⟨q, -, rfl⟩ := List.mem_map.mp hp
      rfl
    have hl : (flatDetails (sortItems d :: ds.map sortItems)).length =
        (flatDetails (d :: ds)).length := by
      refine flatDetails_perm ?_
      refine .cons (sortItems_perm d) ?_
      clear * -
      induction ds with
      | nil => exact .nil
      | cons d ds ih => exact .cons (sortItems_perm d) ih
    have e3 := size (d :: ds)
    have e3' := size (sortItems d :: ds.map sortItems)
    rw [hl] at e3'
    have e5 := fun arr => ravelLoop_sort (d :: ds) hd a.data.length arr
      [.one ⟨0, some a.data.length⟩] [.shape a.shape]
    simp only [List.map_cons] at e0 e0' e1 e1' e3 e3' e5 ⊢
    simp only [ravelCoeffs, headArr, Py_bind_ok, Py_pure, e0, e1, e2, e3, e0', e1', e2', e3', e5]

theorem unravelCoeffs_ok {a : Arr M} {ds : List (List (Key × Arr M))} (hd : KeysDistinct ds) :
    unravelCoeffs (a.data ++ flatDetails ds)
      (.one ⟨0, some a.data.length⟩ :: listSlices ds a.data.length)
      (.shape a.shape :: listShapes ds) .wavedecn = .ok (.arr a :: ds.map Item.ofDict) := by
  have hlen : (listShapes ds).length = (listSlices ds a.data.length).length := by
    generalize a.data.length = off
    induction ds generalizing off with
    | nil => rfl
    | cons d ds ih =>
      have := ih (fun x hx => hd x (by simp [hx])) (off + dictLen d)
      simp only [listShapes, listSlices, List.length_map, List.length_cons] at this ⊢
      rw [this]
  have e1 : readReshape (a.data ++ flatDetails ds) ⟨0, some a.data.length⟩ a.shape = .ok a := by
    have := getRange_ok (pre := ([] : List M)) (v := a.data) (post := flatDetails ds)
    simp only [List.length_nil, Nat.zero_add, List.nil_append] at this
    unfold readReshape
    rw [this, reshape_ok]
  have e2 := unravelLoop_ok ds hd a.data
  unfold unravelCoeffs
  simp only [List.length_cons, Nat.add_one_ne_zero, if_false, hlen, ne_eq, not_true_eq_false, e1, e2,
    Py_bind_ok, Py_pure]

/-! ### Chunks of an edited list -/

theorem exists_dict (s : List (Key × List ℕ)) (B : List M)
    (h : B.length = (s.map fun p => p.2.prod).sum) :
    ∃ d : List (Key × Arr M), (d.map fun p => (p.1, p.2.shape)) = s ∧
      (d.flatMap fun p => p.2.data) = B := by
  induction s generalizing B with
  | nil => exact ⟨[], rfl, (List.eq_nil_of_length_eq_zero (by simpa using h)).symm⟩
  | cons p s ih =>
    rw [List.map_cons, List.sum_cons] at h
    obtain ⟨d, d1, d2⟩ := ih (B.drop p.2.prod) (by rw [List.length_drop]; omega)
    refine ⟨(p.1, ⟨p.2, B.take p.2.prod, by rw [List.length_take]; omega⟩) :: d, ?_, ?_⟩
    · rw [List.map_cons, d1]
    · rw [List.flatMap_cons, d2, List.take_append_drop]

theorem exists_details (s : List (List (Key × List ℕ))) (B : List M)
    (h : B.length = (s.map fun d => (d.map fun p => p.2.prod).sum).sum) :
    ∃ ds : List (List (Key × Arr M)), detailSig ds = s ∧ flatDetails ds = B := by
  induction s generalizing B with
  | nil => exact ⟨[], rfl, (List.eq_nil_of_length_eq_zero (by simpa using h)).symm⟩
  | cons c s ih =>
    rw [List.map_cons, List.sum_cons] at h
    obtain ⟨d, d1, d2⟩ := exists_dict c (B.take (c.map fun p => p.2.prod).sum)
      (by rw [List.length_take]; omega)
    obtain ⟨ds, e1, e2⟩ := ih (B.drop (c.map fun p => p.2.prod).sum)
      (by rw [List.length_drop]; omega)
    refine ⟨d :: ds, ?_, ?_⟩
    · rw [detailSig, List.map_cons, d1]
      exact congrArg _ e1
    · have : flatDetails (d :: ds) = (d.flatMap fun p => p.2.data) ++ flatDetails ds := by
        simp [flatDetails]
      rw [this, d2, e2, List.take_append_drop]

theorem flatDetails_length (ds : List (List (Key × Arr M))) : (flatDetails ds).length =
    ((detailSig ds).map fun d => (d.map fun p => p.2.prod).sum).sum := by
  induction ds with
  | nil => rfl
  | cons d ds ih =>
    have hf : flatDetails (d :: ds) = (d.flatMap fun p => p.2.data) ++ flatDetails ds := by
      simp [flatDetails]
    rw [hf, List.length_append, ih, detailSig, detailSig, List.map_cons, List.map_cons,
      List.sum_cons, List.length_flatMap]
    congr 2
    rw [List.map_map]
    apply List.map_congr_left
    intro p _
    exact p.2.ok

theorem keysSorted_sig {ds ds' : List (List (Key × Arr M))} (h : detailSig ds = detailSig ds')
    (hs : KeysSorted ds) : KeysSorted ds' := by
  intro d' hd'
  have : (d'.map fun p => (p.1, p.2.shape)) ∈ detailSig ds' :=
    List.mem_map_of_mem (f := fun d : List (Key × Arr M) => d.map fun p => (p.1, p.2.shape)) hd'
  rw [← h] at this
  obtain ⟨d, hd, e⟩ := List.mem_map.mp this
  have e' := congrArg (List.map (fun p : Key × List ℕ => p.1)) e
  rw [List.map_map, List.map_map] at e'
  have h2 := hs d hd
  have e'' : d.map (fun p => p.1) = d'.map (fun p => p.1) := e'
  rw [← e'']
  exact h2

theorem keyCount_sig {ndim : ℕ} {axes : Option (List ℤ)} {ds ds' : List (List (Key × Arr M))}
    (h : detailSig ds = detailSig ds') (hk : KeyCount ndim axes ds) : KeyCount ndim axes ds' := by
  cases ds with
  | nil => cases ds' with
    | nil => trivial
    | cons d ds' => simp [detailSig] at h
  | cons d ds => cases ds' with
    | nil => simp [detailSig] at h
    | cons d' ds' =>
      simp only [detailSig, List.map_cons, List.cons.injEq] at h
      cases d with
      | nil => exact hk.elim
      | cons p d => cases d' with
        | nil => simp at h
        | cons p' d' =>
          simp only [List.map_cons, List.cons.injEq, Prod.mk.injEq] at h
          simp only [KeyCount] at hk ⊢
          rw [← h.1.1.1]
          exact hk

theorem KeysSorted.distinct {ds : List (List (Key × Arr M))} (h : KeysSorted ds) :
    KeysDistinct ds := fun d hd => (h d hd).imp fun h => ne_of_lt h

theorem keysSorted_sort {ds : List (List (Key × Arr M))} (h : KeysDistinct ds) :
    KeysSorted (ds.map sortItems) := by
  intro d hd
  obtain ⟨c, hc, rfl⟩ := List.mem_map.mp hd
  exact sortItems_lt (h c hc)

/-! ### Other formats -/

theorem ravelCoeffs_single {a : Arr M} (ds : List (Arr M)) (h : ∀ d ∈ ds, d.ndim = 1)
    (axes : Option (List ℤ)) (junk : ℕ → M) :
    ravelCoeffs (.arr a :: ds.map Item.arr) axes junk =
      ravelCoeffs (.arr a :: (single ds).map Item.ofDict) axes junk := by
  cases ds with
  | nil => rfl
  | cons d ds =>
    have e1 : detailsToN ((d :: ds).map Item.arr) = .ok ((single (d :: ds)).map Item.ofDict) :=
      wavedecToN_ok (d :: ds) h
    have e2 : detailsToN ((single (d :: ds)).map Item.ofDict) =
        .ok ((single (d :: ds)).map Item.ofDict) := rfl
    unfold ravelCoeffs
    simp only [headArr, Py_bind_ok, Py_pure, e1, e2]

theorem ravelCoeffs_triples {a : Arr M} (ds : List (Arr M × Arr M × Arr M))
    (axes : Option (List ℤ)) (junk : ℕ → M) :
    ravelCoeffs (.arr a :: ds.map Item.ofTriple) axes junk =
      ravelCoeffs (.arr a :: (triples ds).map Item.ofDict) axes junk := by
  cases ds with
  | nil => rfl
  | cons d ds =>
    have e1 : detailsToN ((d :: ds).map Item.ofTriple) = .ok ((triples (d :: ds)).map Item.ofDict) :=
      wavedec2ToN_ok (d :: ds)
    have e2 : detailsToN ((triples (d :: ds)).map Item.ofDict) =
        .ok ((triples (d :: ds)).map Item.ofDict) := rfl
    unfold ravelCoeffs
    simp only [headArr, Py_bind_ok, Py_pure, e1, e2]

theorem unravelDict_lookup {A : List M} {sh : List (Key × List ℕ)} {d : List (Key × Slice)}
    {c : CDict M} (h : unravelDict A sh d = .ok c) {k : Key} {v : Arr M}
    (hk : c.lookup k = some (some v)) : unravelKey A d sh k = .ok v := by
  induction d generalizing c with
  | nil =>
    simp only [unravelDict, Py_pure, Except.ok.injEq] at h
    subst h
    simp at hk
  | cons p d ih =>
    obtain ⟨k', sl⟩ := p
    simp only [unravelDict] at h
    cases hs : lookupKey sh k' with
    | error e => rw [hs] at h; simp [Py_bind_error] at h
    | ok s =>
    cases hg : readReshape A sl s with
    | error e => rw [hs, Py_bind_ok, hg] at h; simp [Py_bind_error] at h
    | ok w =>
      cases hu : unravelDict A sh d with
      | error e => rw [hs, Py_bind_ok, hg, hu] at h; simp [Py_bind_ok, Py_bind_error] at h
      | ok r =>
        rw [hs, Py_bind_ok, hg, hu] at h
        simp only [Py_bind_ok, Py_pure, Except.ok.injEq] at h
        subst h
        rw [List.lookup_cons] at hk
        by_cases hkk : k = k'
        · subst hkk
          simp only [beq_self_eq_true, Option.some.injEq] at hk
          subst hk
          have : lookupKey ((k, sl) :: d) k = .ok sl := by simp [lookupKey]
          simp only [unravelKey, this, hs, hg, Py_bind_ok]
        · have hb : (k == k') = false := by simpa using hkk
          rw [hb] at hk
          have := ih hu hk
          have e : lookupKey ((k', sl) :: d) k = lookupKey d k := by
            simp [lookupKey, List.lookup_cons, hb]
          unfold unravelKey at this ⊢
          rw [e]
          exact this

theorem unravelLoop_inv {A : List M} {s : RSlice} {ss : List RSlice} {t : ShapeItem}
    {ts : List ShapeItem} {c : CDict M} {cs : List (Item M)}
    (h : unravelLoop A .wavedecn (s :: ss) (t :: ts) = .ok (.dict c :: cs)) :
    ∃ d sh, s = .dict d ∧ t = .dict sh ∧ unravelDict A sh d = .ok c ∧
      unravelLoop A .wavedecn ss ts = .ok cs := by
  simp only [unravelLoop] at h
  cases s with
  | one l => simp [unravelItem, Py_bind_error, Py_throw] at h
  | dict d =>
    cases t with
    | shape l => simp [unravelItem, Py_bind_error, Py_throw] at h
    | dict sh =>
      refine ⟨d, sh, rfl, rfl, ?_⟩
      simp only [unravelItem] at h
      cases hu : unravelDict A sh d with
      | error e => rw [hu] at h; simp [Py_bind_error] at h
      | ok r =>
        cases hl : unravelLoop A .wavedecn ss ts with
        | error e => rw [hu, hl] at h; simp [Py_bind_error, Py_bind_ok, Py_pure] at h
        | ok r' =>
          rw [hu, hl] at h
          simp only [Py_bind_ok, Py_pure, Except.ok.injEq, List.cons.injEq, Item.dict.injEq] at h
          rw [h.1, h.2]
          exact ⟨rfl, rfl⟩

theorem unravelLoop_nil {A : List M} {fmt : OutFormat} {ss : List RSlice} {ts : List ShapeItem}
    (h : unravelLoop A .wavedecn ss ts = .ok []) : unravelLoop A fmt ss ts = .ok [] := by
  cases ss with
  | nil => cases ts <;> rfl
  | cons s ss =>
    cases ts with
    | nil => rfl
    | cons t ts =>
      simp only [unravelLoop] at h
      cases hu : unravelItem A .wavedecn s t with
      | error e => rw [hu] at h; simp [Py_bind_error] at h
      | ok r =>
        cases hl : unravelLoop A .wavedecn ss ts with
        | error e => rw [hu, hl] at h; simp [Py_bind_error, Py_bind_ok] at h
        | ok r' => rw [hu, hl] at h; simp [Py_bind_ok, Py_pure] at h

theorem unravelLoop_cons {A : List M} {fmt : OutFormat} {ss : List RSlice} {ts : List ShapeItem}
    {c : Item M} {cs : List (Item M)} (h : unravelLoop A fmt ss ts = .ok (c :: cs)) :
    ∃ s ss' t ts', ss = s :: ss' ∧ ts = t :: ts' := by
  cases ss with
  | nil => cases ts <;> simp [unravelLoop, Py_pure] at h
  | cons s ss =>
    cases ts with
    | nil => simp [unravelLoop, Py_pure] at h
    | cons t ts => exact ⟨s, ss, t, ts, rfl, rfl⟩

theorem unravelLoop_single {A : List M} (ds : List (Arr M)) (ss : List RSlice)
    (ts : List ShapeItem)
    (h : unravelLoop A .wavedecn ss ts = .ok ((single ds).map Item.ofDict)) :
    unravelLoop A .wavedec ss ts = .ok (ds.map Item.arr) := by
  induction ds generalizing ss ts with
  | nil => exact unravelLoop_nil h
  | cons d ds ih =>
    obtain ⟨s, ss, t, ts, rfl, rfl⟩ := unravelLoop_cons h
    obtain ⟨sd, sh, rfl, rfl, h1, h2⟩ := unravelLoop_inv (c := [(['d'], some d)]) h
    have l1 := unravelDict_lookup h1 (k := ['d']) (v := d) (by simp)
    simp only [unravelLoop, unravelItem, l1, ih ss ts h2, Py_bind_ok, Py_pure, List.map_cons]

theorem unravelLoop_triples {A : List M} (ds : List (Arr M × Arr M × Arr M)) (ss : List RSlice)
    (ts : List ShapeItem)
    (h : unravelLoop A .wavedecn ss ts = .ok ((triples ds).map Item.ofDict)) :
    unravelLoop A .wavedec2 ss ts = .ok (ds.map Item.ofTriple) := by
  induction ds generalizing ss ts with
  | nil => exact unravelLoop_nil h
  | cons t ds ih =>
    obtain ⟨s, ss, t', ts, rfl, rfl⟩ := unravelLoop_cons h
    obtain ⟨sd, sh, rfl, rfl, h1, h2⟩ := unravelLoop_inv
        (c := [(['a', 'd'], some t.2.1), (['d', 'a'], some t.1), (['d', 'd'], some t.2.2)]) h
    have l1 := unravelDict_lookup h1 (k := ['d', 'a']) (v := t.1) rfl
    have l2 := unravelDict_lookup h1 (k := ['a', 'd']) (v := t.2.1) rfl
    have l3 := unravelDict_lookup h1 (k := ['d', 'd']) (v := t.2.2) rfl
    simp only [unravelLoop, unravelItem, l1, l2, l3, ih ss ts h2, Py_bind_ok, Py_pure,
      List.map_cons, Item.ofTriple]

theorem unravelCoeffs_conv {A : List M} {a : Arr M} {ss : List RSlice} {ts : List ShapeItem}
    {f g : OutFormat} {cs cs' : List (Item M)}
    (hc : ∀ ss ts, unravelLoop A f ss ts = .ok cs → unravelLoop A g ss ts = .ok cs')
    (h : unravelCoeffs A ss ts f = .ok (.arr a :: cs)) :
    unravelCoeffs A ss ts g = .ok (.arr a :: cs') := by
  unfold unravelCoeffs at h ⊢
  split at h
  · simp [Py_throw] at h
  rename_i g1
  rw [if_neg g1]
  split at h
  · simp [Py_throw] at h
  rename_i g2
  rw [if_neg g2]
  split at h
  · simp [Py_throw] at h
  rename_i g3
  rw [if_neg g3]
  split at h
  · rename_i _ _ sl sls s shs
    cases hg : readReshape A sl s with
    | error e => rw [hg] at h; simp [Py_bind_error] at h
    | ok w =>
      cases hu : unravelLoop A f sls shs with
      | error e => rw [hg, hu] at h; simp [Py_bind_error, Py_bind_ok] at h
      | ok r =>
        rw [hg, hu] at h
        simp only [Py_bind_ok, Py_pure, Except.ok.injEq, List.cons.injEq, Item.arr.injEq] at h
        obtain ⟨rfl, rfl⟩ := h
        simp only [hg, hc sls shs hu, Py_bind_ok, Py_pure]
  · simp [Py_throw] at h

/-! ### Keys of the three formats -/

theorem keysSorted_single (ds : List (Arr M)) : KeysSorted (single ds) := by
  intro d hd
  obtain ⟨c, -, rfl⟩ := List.mem_map.mp hd
  simp

theorem keysSorted_triples (ds : List (Arr M × Arr M × Arr M)) : KeysSorted (triples ds) := by
  intro d hd
  obtain ⟨c, -, rfl⟩ := List.mem_map.mp hd
  simp only [List.map_cons, List.map_nil]
  decide

theorem words_sorted (n : ℕ) : (words n).Pairwise (· < ·) := by
  induction n with
  | zero => simp [words]
  | succ n ih =>
    simp only [words]
    rw [List.pairwise_append, List.pairwise_map, List.pairwise_map]
    refine ⟨ih.imp fun h => ?_, ih.imp fun h => ?_, ?_⟩
    · exact List.cons_lt_cons_self.mpr h
    · exact List.cons_lt_cons_self.mpr h
    · intro p hp q hq
      obtain ⟨p', -, rfl⟩ := List.mem_map.mp hp
      obtain ⟨q', -, rfl⟩ := List.mem_map.mp hq
      exact List.Lex.rel (by decide)

theorem Packable.keyCount {ax cur : List ℕ} {ds : List (List (Key × Arr M))} {ndim : ℕ}
    {axes : Option (List ℤ)} (h : Packable ax cur ds) (ha : AxesAre ndim axes ax) :
    KeyCount ndim axes ds := by
  cases ds with
  | nil => trivial
  | cons d ds =>
    obtain ⟨-, h2, h3, -⟩ := h
    cases d with
    | nil => simp at h3
    | cons p d =>
      have hl : p.1.length = ax.length := (mem_words.mp (h2 p (by simp)).1).1
      simp only [KeyCount]
      rw [hl]
      cases axes with
      | none =>
        have := congrArg List.length ha.1
        simpa [rangeAxes] using this
      | some l =>
        have := congrArg List.length ha.1
        simpa using this

end

end Pywt
