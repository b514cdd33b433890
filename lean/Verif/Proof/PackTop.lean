import Verif.Proof.Pack

/-! `coeffs_to_array`, `array_to_coeffs`: the loops. -/

namespace Pywt

open Finset Spec

set_option linter.unusedSectionVars false

variable {M : Type} [AddCommGroup M]

/-! ### Geometry -/

theorem zip_getElem_mem {ax : List ℕ} {key : Key} (hk : key.length = ax.length) {i : ℕ}
    (hi : i < ax.length) : (ax[i], key[i]'(by omega)) ∈ ax.zip key := by
  rw [List.mem_iff_getElem]
  exact ⟨i, by simp; omega, by simp⟩

/-- Every axis has one letter. -/
theorem zip_letter_unique {ax : List ℕ} (hn : ax.Nodup) {key : Key} {j : ℕ} {c c' : Char}
    (h : (j, c) ∈ ax.zip key) (h' : (j, c') ∈ ax.zip key) : c = c' := by
  induction ax generalizing key with
  | nil => simp at h
  | cons x ax ih =>
    cases key with
    | nil => simp at h
    | cons k key =>
      obtain ⟨n1, n2⟩ := List.nodup_cons.mp hn
      simp only [List.zip_cons_cons, List.mem_cons, Prod.mk.injEq] at h h'
      rcases h with ⟨rfl, rfl⟩ | h
      · rcases h' with ⟨-, rfl⟩ | h'
        · rfl
        · exact absurd h' (not_mem_zip_of_not_mem n1)
      · rcases h' with ⟨rfl, -⟩ | h'
        · exact absurd h (not_mem_zip_of_not_mem n1)
        · exact ih n2 h h'

theorem grow_length (ax cur d : List ℕ) : (grow ax cur d).length = cur.length := by simp [grow]

theorem grow_getD {ax cur d : List ℕ} {j : ℕ} (hj : j < cur.length) :
    (grow ax cur d).getD j 0 =
      if j ∈ ax then cur.getD j 0 + d.getD j 0 else cur.getD j 0 := by
  rw [List.getD_eq_getElem (hn := by simpa [grow] using hj)]
  simp only [grow, List.getElem_mapIdx]
  rw [List.getD_eq_getElem (hn := hj)]

theorem packedShape_length (ax : List ℕ) (cur : List ℕ) (ds : List (List (Key × Arr M))) :
    (packedShape ax cur ds).length = cur.length := by
  induction ds generalizing cur with
  | nil => rfl
  | cons d ds ih => rw [packedShape, ih, grow_length]

theorem packedShape_getD {ax cur : List ℕ} {ds : List (List (Key × Arr M))} {j : ℕ}
    (hj : j < cur.length) :
    cur.getD j 0 ≤ (packedShape ax cur ds).getD j 0 ∧
      (j ∉ ax → (packedShape ax cur ds).getD j 0 = cur.getD j 0) := by
  induction ds generalizing cur with
  | nil => exact ⟨le_rfl, fun _ => rfl⟩
  | cons d ds ih =>
    rw [packedShape]
    obtain ⟨h1, h2⟩ := ih (cur := grow ax cur (levelShape d)) (by rw [grow_length]; exact hj)
    rw [grow_getD hj] at h1 h2
    constructor
    · split at h1 <;> omega
    · intro hja
      rw [h2 hja, if_neg hja]

/-- A subband that is not all low-pass lies outside the block it is placed next to. -/
theorem Box.outside {ax cur : List ℕ} {key : Key} {v : Arr M} (hk : key ∈ words ax.length)
    (hne : key ≠ List.replicate ax.length 'a') (hb : ∀ j ∈ ax, j < cur.length)
    (hl : v.shape.length = cur.length) {idx : ℕ → ℕ}
    (hc : (⟨boxLo ax cur key, v⟩ : Box M).Covers idx) : ∃ j ∈ ax, cur.getD j 0 ≤ idx j := by
  obtain ⟨hkl, hkc⟩ := mem_words.mp hk
  have : ∃ i, ∃ h : i < key.length, key[i] = 'd' := by
    by_contra hcon
    push Not at hcon
    apply hne
    rw [← hkl]
    apply List.eq_replicate_iff.mpr
    refine ⟨rfl, fun c hc => ?_⟩
    obtain ⟨i, hi, rfl⟩ := List.getElem_of_mem hc
    exact (hkc _ (List.getElem_mem hi)).resolve_right (hcon i hi)
  obtain ⟨i, hi, hid⟩ := this
  have hi' : i < ax.length := by omega
  have hm := zip_getElem_mem hkl hi'
  rw [hid] at hm
  refine ⟨ax[i], List.getElem_mem _, ?_⟩
  have := (hc ax[i] (by simp only; rw [hl]; exact hb _ (List.getElem_mem _))).1
  simp only [boxLo, if_pos hm] at this
  exact this

/-- Two different subbands of a level are disjoint. -/
theorem Box.disjoint_keys {ax cur : List ℕ} {k1 k2 : Key} {v1 v2 : Arr M} (hn : ax.Nodup)
    (h1 : k1 ∈ words ax.length) (h2 : k2 ∈ words ax.length) (hne : k1 ≠ k2)
    (hb : ∀ j ∈ ax, j < cur.length) (hl1 : v1.shape.length = cur.length)
    (hl2 : v2.shape.length = cur.length) (hle1 : ∀ j ∈ ax, v1.shape.getD j 0 ≤ cur.getD j 0)
    (hle2 : ∀ j ∈ ax, v2.shape.getD j 0 ≤ cur.getD j 0) :
    (⟨boxLo ax cur k1, v1⟩ : Box M).Disjoint ⟨boxLo ax cur k2, v2⟩ := by
  have key : ∀ {k1 k2 : Key} {v1 v2 : Arr M}, k1 ∈ words ax.length → k2 ∈ words ax.length →
      v1.shape.length = cur.length → v2.shape.length = cur.length →
      (∀ j ∈ ax, v2.shape.getD j 0 ≤ cur.getD j 0) → ∀ idx,
      (⟨boxLo ax cur k1, v1⟩ : Box M).Covers idx → (⟨boxLo ax cur k2, v2⟩ : Box M).Covers idx →
      ∀ i, i < ax.length → k1[i]? = some 'd' → k2[i]? = some 'a' → False := by
    intro k1 k2 v1 v2 h1 h2 hl1 hl2 hle2 idx c1 c2 i hi e1 e2
    obtain ⟨w1, -⟩ := mem_words.mp h1
    obtain ⟨w2, -⟩ := mem_words.mp h2
    have m1 := zip_getElem_mem w1 hi
    have m2 := zip_getElem_mem w2 hi
    rw [List.getElem?_eq_getElem (by omega), Option.some.injEq] at e1 e2
    rw [e1] at m1
    rw [e2] at m2
    have hj := hb _ (List.getElem_mem hi)
    have a1 := (c1 ax[i] (by simp only; omega)).1
    have a2 := (c2 ax[i] (by simp only; omega)).2
    have n2 : (ax[i], 'd') ∉ ax.zip k2 := fun h => absurd (zip_letter_unique hn m2 h) (by decide)
    simp only [boxLo, if_pos m1, if_neg n2] at a1 a2
    have := hle2 _ (List.getElem_mem hi)
    omega
  intro idx c1 c2
  obtain ⟨w1, l1⟩ := mem_words.mp h1
  obtain ⟨w2, l2⟩ := mem_words.mp h2
  apply hne
  apply List.ext_getElem?
  intro i
  by_cases hi : i < ax.length
  · have hd1 := l1 (k1[i]'(by omega)) (List.getElem_mem _)
    have hd2 := l2 (k2[i]'(by omega)) (List.getElem_mem _)
    have g1 : k1[i]? = some (k1[i]'(by omega)) := List.getElem?_eq_getElem _
    have g2 : k2[i]? = some (k2[i]'(by omega)) := List.getElem?_eq_getElem _
    rcases hd1 with e1 | e1 <;> rcases hd2 with e2 | e2 <;> rw [e1] at g1 <;> rw [e2] at g2
    · rw [g1, g2]
    · exact (key h2 h1 hl2 hl1 hle1 idx c2 c1 i hi g2 g1).elim
    · exact (key h1 h2 hl1 hl2 hle2 idx c1 c2 i hi g1 g2).elim
    · rw [g1, g2]
  · rw [List.getElem?_eq_none (by omega), List.getElem?_eq_none (by omega)]

/-- The boxes lie in the block of shape `cur` as far as the transformed axes are concerned. -/
def InZone (ax cur : List ℕ) (bs : List (Box M)) : Prop :=
  ∀ b ∈ bs, ∀ idx, b.Covers idx → ∀ j ∈ ax, idx j < cur.getD j 0

/-! ### The loop over the subbands of a level -/

/-- The slices of one subband. -/
def subSlices (ax aSh : List ℕ) (ndim : ℕ) (dsh : List ℕ) (key : Key) : List Slice :=
  (List.range ndim).map (slicesOf ax aSh dsh
    (fun j => (List.replicate ndim Slice.full).getD j .full) key)

/-- The conditions on the arrays of one level. -/
structure LevelOk (ax cur : List ℕ) (S : List ℕ) (aSh : List ℕ) (dsh : List ℕ) : Prop where
  nodup : ax.Nodup
  bound : ∀ j ∈ ax, j < cur.length
  lenS : S.length = cur.length
  lenD : dsh.length = cur.length
  lenA : aSh.length = cur.length
  fit : ∀ j < cur.length, if j ∈ ax then cur.getD j 0 + dsh.getD j 0 ≤ S.getD j 0
    else dsh.getD j 0 = S.getD j 0
  agree : ∀ j ∈ ax, aSh.getD j 0 = cur.getD j 0
  le : ∀ j ∈ ax, dsh.getD j 0 ≤ cur.getD j 0

theorem LevelOk.slFor {ax cur S aSh dsh : List ℕ} (h : LevelOk ax cur S aSh dsh) {key : Key}
    (hk : key ∈ words ax.length) :
    SlFor S (subSlices ax aSh cur.length dsh key) (boxLo ax cur key) dsh := by
  obtain ⟨w1, w2⟩ := mem_words.mp hk
  exact slFor_slicesOf h.nodup h.lenS h.lenD w1 w2 h.fit h.agree

theorem packDict_ok {ax cur S aSh dsh : List ℕ} (h : LevelOk ax cur S aSh dsh) {axes : List ℤ}
    (hax : normAxes cur.length axes = ax.map fun n : ℕ => (n : ℤ))
    {base : (ℕ → ℕ) → M} {zs : List (Box M)} (hz : InZone ax cur zs)
    (d done : List (Key × Arr M)) (hkeys : ((done ++ d).map (·.1)).Nodup)
    (hd : ∀ p ∈ done ++ d, p.1 ∈ words ax.length ∧ p.1 ≠ List.replicate ax.length 'a' ∧
      p.2.shape = dsh) (A : Arr M) (hA : A.shape = S)
    (hf : Filled A base (zs ++ done.map fun p => ⟨boxLo ax cur p.1, p.2⟩))
    (acc : List (Key × List Slice)) :
    ∃ A', packDict cur.length axes aSh (d.map fun p => (p.1, some p.2)) A acc =
        .ok (A', acc ++ d.map fun p => (p.1, subSlices ax aSh cur.length dsh p.1)) ∧
      A'.shape = S ∧
      Filled A' base (zs ++ (done ++ d).map fun p => ⟨boxLo ax cur p.1, p.2⟩) := by
  induction d generalizing done A acc with
  | nil => exact ⟨A, by simp [packDict, Py_pure], hA, by simpa using hf⟩
  | cons p d ih =>
    obtain ⟨key, v⟩ := p
    obtain ⟨k1, k2, k3⟩ := hd (key, v) (by simp)
    simp only at k1 k2 k3
    obtain ⟨w1, w2⟩ := mem_words.mp k1
    have e1 : keySlices aSh v.shape key axes (List.replicate cur.length .full) =
        .ok (subSlices ax aSh cur.length dsh key) := by
      rw [k3]
      exact keySlices_ok (by simp) h.lenA h.lenD hax h.nodup h.bound w1 w2
    have hsl : SlFor A.shape (subSlices ax aSh cur.length dsh key)
        (⟨boxLo ax cur key, v⟩ : Box M).lo (⟨boxLo ax cur key, v⟩ : Box M).arr.shape := by
      rw [hA]
      simp only [k3]
      exact h.slFor k1
    have hdis : ∀ c ∈ zs ++ done.map fun p => (⟨boxLo ax cur p.1, p.2⟩ : Box M),
        c.Disjoint ⟨boxLo ax cur key, v⟩ := by
      intro c hc
      rcases List.mem_append.mp hc with hc | hc
      · intro idx c1 c2
        obtain ⟨j, hj, hle⟩ := Box.outside k1 k2 h.bound (by rw [k3, h.lenD]) c2
        have := hz c hc idx c1 j hj
        omega
      · obtain ⟨q, hq, rfl⟩ := List.mem_map.mp hc
        obtain ⟨q1, q2, q3⟩ := hd q (by simp [hq])
        refine Box.disjoint_keys h.nodup q1 k1 ?_ h.bound (by rw [q3, h.lenD]) (by rw [k3, h.lenD])
          (by rw [q3]; exact h.le) (by rw [k3]; exact h.le)
        intro e
        rw [List.map_append, List.nodup_append] at hkeys
        exact hkeys.2.2 q.1 (List.mem_map_of_mem hq) key (by simp) e
    obtain ⟨A1, s1, s2, s3⟩ := setSlices_filled hf hsl hdis
    obtain ⟨A2, t1, t2, t3⟩ := ih (done ++ [(key, v)]) (by simpa using hkeys)
      (by simpa using hd) A1 (s2.trans hA) (by simpa [List.append_assoc] using s3)
      (acc ++ [(key, subSlices ax aSh cur.length dsh key)])
    refine ⟨A2, ?_, t2, by simpa using t3⟩
    simp only [List.map_cons, packDict, e1, Py_bind_ok, s1, t1]
    simp

/-! ### The loop over the levels -/

/-- Sum of two shapes. -/
def addSh (ndim : ℕ) (a d : List ℕ) : List ℕ := (List.range ndim).map fun n => a.getD n 0 + d.getD n 0

/-- The slices of all details. -/
def sliceItems (ax : List ℕ) (ndim : ℕ) : List ℕ → List (List (Key × Arr M)) → List SliceItem
  | _, [] => []
  | aSh, d :: ds =>
      .dict (d.map fun p => (p.1, subSlices ax aSh ndim (levelShape d) p.1)) ::
        sliceItems ax ndim (addSh ndim aSh (levelShape d)) ds

theorem lookup_some_mem {α : Type} {c : List (Key × α)} {k : Key} (hk : k ∈ c.map (·.1)) :
    ∃ v, c.lookup k = some v ∧ (k, v) ∈ c := by
  induction c with
  | nil => simp at hk
  | cons p c ih =>
    obtain ⟨k', v⟩ := p
    rw [List.lookup_cons]
    by_cases h : k = k'
    · subst h
      simp
    · have : (k == k') = false := by simpa using h
      rw [this]
      simp only [List.map_cons, List.mem_cons, h, false_or] at hk
      obtain ⟨w, h1, h2⟩ := ih hk
      exact ⟨w, h1, by simp [h2]⟩

theorem allDetail_ok {n : ℕ} {d : List (Key × Arr M)} {dsh : List ℕ}
    (hd : ∀ p ∈ d, p.2.shape = dsh) (hk : List.replicate n 'd' ∈ d.map (·.1)) :
    ∃ v : Arr M, allDetail n (.dict (d.map fun p => (p.1, some p.2))) = .ok v ∧ v.shape = dsh := by
  have hk' : List.replicate n 'd' ∈ ((d.map fun p => (p.1, some p.2)) : CDict M).map (·.1) := by
    rw [List.map_map]; exact hk
  obtain ⟨v, h1, h2⟩ := lookup_some_mem hk'
  obtain ⟨p, hp, e⟩ := List.mem_map.mp h2
  simp only [Prod.mk.injEq] at e
  refine ⟨p.2, ?_, hd p hp⟩
  simp only [allDetail, lookupKey, h1, Py_bind_ok, ← e.2]
  rfl

theorem levelShape_of {d : List (Key × Arr M)} {n : ℕ} (hk : List.replicate n 'd' ∈ d.map (·.1)) :
    ∃ p ∈ d, p.2.shape = levelShape d := by
  cases d with
  | nil => simp at hk
  | cons p d => exact ⟨p, by simp, rfl⟩

/-- What is packed next to a block. -/
theorem Packable.levelOk {ax cur aSh : List ℕ} {d : List (Key × Arr M)}
    {ds : List (List (Key × Arr M))} (h : Packable ax cur (d :: ds)) (hn : ax.Nodup)
    (hb : ∀ j ∈ ax, j < cur.length) (hl : aSh.length = cur.length)
    (hag : ∀ j ∈ ax, aSh.getD j 0 = cur.getD j 0) :
    LevelOk ax cur (packedShape ax cur (d :: ds)) aSh (levelShape d) := by
  obtain ⟨h1, h2, h3, h4, h5, h6⟩ := h
  refine ⟨hn, hb, packedShape_length _ _ _, h4, hl, ?_, hag, ?_⟩
  · intro j hj
    have p := packedShape_getD (ax := ax) (cur := grow ax cur (levelShape d)) (ds := ds) (j := j)
      (by rw [grow_length]; exact hj)
    rw [grow_getD hj] at p
    rw [packedShape]
    have := h5 j hj
    split at this
    · rename_i hja
      rw [if_pos hja] at p ⊢
      exact p.1
    · rename_i hja
      rw [if_neg hja] at p ⊢
      rw [p.2 hja, this]
  · intro j hj
    have := h5 j (hb j hj)
    rwa [if_pos hj] at this

theorem InZone.mono {ax cur cur' : List ℕ} {bs : List (Box M)} (h : InZone ax cur bs)
    (hle : ∀ j ∈ ax, cur.getD j 0 ≤ cur'.getD j 0) : InZone ax cur' bs :=
  fun b hb idx hc j hj => (h b hb idx hc j hj).trans_le (hle j hj)

theorem InZone.level {ax cur : List ℕ} {d : List (Key × Arr M)}
    {zs : List (Box M)} (hz : InZone ax cur zs) (hb : ∀ j ∈ ax, j < cur.length)
    (hl : (levelShape d).length = cur.length) (hd : ∀ p ∈ d, p.2.shape = levelShape d) :
    InZone ax (grow ax cur (levelShape d)) (zs ++ d.map fun p => ⟨boxLo ax cur p.1, p.2⟩) := by
  intro b hbm idx hc j hj
  rw [grow_getD (hb j hj), if_pos hj]
  rcases List.mem_append.mp hbm with hbm | hbm
  · have := hz b hbm idx hc j hj
    omega
  · obtain ⟨p, hp, rfl⟩ := List.mem_map.mp hbm
    have h1 := (hc j (by simp only; rw [hd p hp, hl]; exact hb j hj)).2
    simp only [boxLo, hd p hp] at h1
    split at h1 <;> omega

theorem addSh_length (n : ℕ) (a d : List ℕ) : (addSh n a d).length = n := by simp [addSh]

theorem addSh_getD {n : ℕ} {a d : List ℕ} {j : ℕ} (hj : j < n) :
    (addSh n a d).getD j 0 = a.getD j 0 + d.getD j 0 := by
  rw [List.getD_eq_getElem (hn := by simpa [addSh] using hj)]
  simp [addSh]

theorem packLoop_ok {ax S : List ℕ} {axes : List ℤ} (hn : ax.Nodup)
    (ds : List (List (Key × Arr M))) (cur aSh : List ℕ)
    (hax : normAxes cur.length axes = ax.map fun n : ℕ => (n : ℤ))
    (hb : ∀ j ∈ ax, j < cur.length)
    (hp : Packable ax cur ds) (hS : S = packedShape ax cur ds) (hl : aSh.length = cur.length)
    (hag : ∀ j ∈ ax, aSh.getD j 0 = cur.getD j 0) {base : (ℕ → ℕ) → M} (zs : List (Box M))
    (hz : InZone ax cur zs) (A : Arr M) (hA : A.shape = S) (hf : Filled A base zs)
    (acc : List SliceItem) :
    ∃ A', packLoop cur.length axes (ds.map Item.ofDict) aSh A acc =
        .ok (A', acc ++ sliceItems ax cur.length aSh ds) ∧
      A'.shape = S ∧ Filled A' base (zs ++ detailBoxes ax cur ds) := by
  induction ds generalizing cur aSh zs A acc with
  | nil => exact ⟨A, by simp [packLoop, sliceItems, Py_pure], hA, by simpa [detailBoxes] using hf⟩
  | cons d ds ih =>
    have hlv := hp.levelOk hn hb hl hag
    obtain ⟨h1, h2, h3, h4, h5, h6⟩ := hp
    have hlen : axes.length = ax.length := by
      have := congrArg List.length hax
      simpa [normAxes] using this
    obtain ⟨v, e1, e2⟩ := allDetail_ok (n := ax.length) (fun p hp => (h2 p hp).2.2) h3
    rw [hS] at hA
    obtain ⟨A1, s1, s2, s3⟩ := packDict_ok hlv hax hz d [] (by simpa using h1) (by simpa using h2)
      A hA (by simpa using hf) []
    have e0 : ¬ ((d.map fun p => (p.1, some p.2)).any fun p : Key × Option (Arr M) => p.2.isNone) =
        true := by simp
    have e3 : addShapes cur.length aSh v.shape = .ok (addSh cur.length aSh (levelShape d)) := by
      unfold addShapes
      rw [e2, if_pos ⟨by omega, by omega⟩]
      rfl
    have hzone := hz.level hb h4 (fun p hp => (h2 p hp).2.2)
    obtain ⟨A2, t1, t2, t3⟩ := ih (grow ax cur (levelShape d))
      (addSh cur.length aSh (levelShape d)) (by rw [grow_length]; exact hax)
      (by rw [grow_length]; exact hb) h6 (by rw [hS, packedShape])
      (by rw [addSh_length, grow_length])
      (by
        intro j hj
        rw [addSh_getD (hb j hj), grow_getD (hb j hj), if_pos hj, hag j hj])
      (zs ++ d.map fun p => ⟨boxLo ax cur p.1, p.2⟩) hzone A1 (by rw [s2, hS])
      (by simpa using s3)
      (acc ++ [.dict (d.map fun p => (p.1, subSlices ax aSh cur.length (levelShape d) p.1))])
    rw [grow_length] at t1
    refine ⟨A2, ?_, t2, ?_⟩
    · simp only [List.map_cons, Item.ofDict, packLoop, if_neg e0, hlen, e1, Py_bind_ok, s1, e3,
        List.nil_append]
      rw [t1]
      simp [sliceItems]
    · simpa [detailBoxes, List.append_assoc] using t3

/-! ### The shape of the packed array -/

theorem addAt_ok {orig d : List ℕ} {n : ℕ} (ho : orig.length = n) (hd : d.length = n)
    (axes : List ℤ) (ax : List ℕ) (cur : List ℕ) (hc : cur.length = n)
    (hax : normAxes n axes = ax.map fun n : ℕ => (n : ℤ)) (hn : ax.Nodup) (hb : ∀ j ∈ ax, j < n) :
    ∃ r, addAt orig d axes cur = .ok r ∧ r.length = n ∧
      ∀ j < n, r.getD j 0 = if j ∈ ax then orig.getD j 0 + d.getD j 0 else cur.getD j 0 := by
  induction axes generalizing ax cur with
  | nil =>
    cases ax with
    | nil => exact ⟨cur, rfl, hc, fun j _ => by simp⟩
    | cons x ax => simp [normAxes] at hax
  | cons a axes ih =>
    cases ax with
    | nil => simp [normAxes] at hax
    | cons x ax =>
      simp only [normAxes, List.map_cons, List.cons.injEq] at hax
      have hx : x < n := hb x (by simp)
      obtain ⟨hn1, hn2⟩ := List.nodup_cons.mp hn
      have e1 : pyIndex d a = some (d.getD x 0) :=
        pyIndex_eq (by omega) (by rw [hd]; exact hax.1.symm)
      have e2 : pyIndex orig a = some (orig.getD x 0) :=
        pyIndex_eq (by omega) (by rw [ho]; exact hax.1.symm)
      have e3 : pySet cur a (orig.getD x 0 + d.getD x 0) =
          .ok (cur.set x (orig.getD x 0 + d.getD x 0)) :=
        pySet_eq (by omega) (by rw [hc]; exact hax.1.symm)
      obtain ⟨r, r1, r2, r3⟩ := ih ax (cur.set x (orig.getD x 0 + d.getD x 0)) (by simpa using hc)
        hax.2 hn2 (fun j hj => hb j (by simp [hj]))
      refine ⟨r, ?_, r2, ?_⟩
      · simp only [addAt, shapeAt, e1, e2, e3, Py_bind_ok, Py_pure, r1]
      · intro j hj
        rw [r3 j hj, getD_set (by omega)]
        by_cases hjx : j = x
        · subst hjx
          rw [if_neg hn1, if_pos rfl, if_pos (by simp)]
        · simp [hjx]

theorem countDict_ok (d : List (Key × Arr M)) (n : ℕ) :
    countDict (d.map fun p => (p.1, some p.2)) n =
      .ok (n + (d.map fun p => p.2.data.length).sum) := by
  induction d generalizing n with
  | nil => simp [countDict, Py_pure]
  | cons p d ih =>
    simp only [List.map_cons, countDict, List.sum_cons]
    rw [ih, Nat.add_assoc]

theorem arrShapeLoop_ok {ax : List ℕ} {axes : List ℤ} (hn : ax.Nodup)
    (ds : List (List (Key × Arr M))) (cur : List ℕ)
    (hax : normAxes cur.length axes = ax.map fun n : ℕ => (n : ℤ))
    (hb : ∀ j ∈ ax, j < cur.length) (hp : Packable ax cur ds) (n : ℕ) :
    arrShapeLoop axes (ds.map Item.ofDict) cur n =
      .ok (packedShape ax cur ds, n + (ds.map fun d => (d.map fun p => p.2.data.length).sum).sum) := by
  induction ds generalizing cur n with
  | nil => simp [arrShapeLoop, packedShape, Py_pure]
  | cons d ds ih =>
    obtain ⟨h1, h2, h3, h4, h5, h6⟩ := hp
    have hlen : axes.length = ax.length := by
      have := congrArg List.length hax
      simpa [normAxes] using this
    obtain ⟨v, e1, e2⟩ := allDetail_ok (n := ax.length) (fun p hp => (h2 p hp).2.2) h3
    obtain ⟨r, r1, r2, r3⟩ := addAt_ok (orig := cur) (d := v.shape) rfl (by rw [e2, h4]) axes ax cur
      rfl hax hn hb
    have hr : r = grow ax cur (levelShape d) := by
      apply List.ext_getElem
      · rw [r2, grow_length]
      intro j j1 j2
      have hj : j < cur.length := by omega
      have := r3 j hj
      rw [e2, ← grow_getD hj] at this
      rwa [List.getD_eq_getElem (hn := j1), List.getD_eq_getElem (hn := j2)] at this
    subst hr
    have := ih (grow ax cur (levelShape d)) (by rw [grow_length]; exact hax)
      (by rw [grow_length]; exact hb) h6 (n + (d.map fun p => p.2.data.length).sum)
    simp only [List.map_cons, Item.ofDict, arrShapeLoop, hlen, e1, r1, Py_bind_ok, countDict_ok]
    rw [this]
    simp [packedShape, Nat.add_assoc]

/-! ### Reading back -/

theorem unpackDict_ok {A : Arr M} {base : (ℕ → ℕ) → M} {bs : List (Box M)} (hf : Filled A base bs)
    {ax cur aSh dsh : List ℕ} (h : LevelOk ax cur A.shape aSh dsh) (d : List (Key × Arr M))
    (hd : ∀ p ∈ d, p.1 ∈ words ax.length ∧ p.2.shape = dsh)
    (hb : ∀ p ∈ d, (⟨boxLo ax cur p.1, p.2⟩ : Box M) ∈ bs) :
    unpackDict A (d.map fun p => (p.1, subSlices ax aSh cur.length dsh p.1)) =
      .ok (d.map fun p => (p.1, some p.2)) := by
  induction d with
  | nil => rfl
  | cons p d ih =>
    obtain ⟨p1, p2⟩ := hd p (by simp)
    have hsl : SlFor A.shape (subSlices ax aSh cur.length dsh p.1)
        (⟨boxLo ax cur p.1, p.2⟩ : Box M).lo (⟨boxLo ax cur p.1, p.2⟩ : Box M).arr.shape := by
      simp only [p2]
      exact h.slFor p1
    have := getSlices_filled hf (hb p (by simp)) hsl
    simp only [List.map_cons, unpackDict, this, Py_bind_ok, Py_pure]
    rw [ih (fun q hq => hd q (by simp [hq])) fun q hq => hb q (by simp [hq])]
    rfl

theorem unpackLoop_ok {A : Arr M} {base : (ℕ → ℕ) → M} {bs : List (Box M)} (hf : Filled A base bs)
    {ax : List ℕ} (hn : ax.Nodup)
    (ds : List (List (Key × Arr M))) (cur aSh : List ℕ) (hb : ∀ j ∈ ax, j < cur.length)
    (hp : Packable ax cur ds) (hS : A.shape = packedShape ax cur ds) (hl : aSh.length = cur.length)
    (hag : ∀ j ∈ ax, aSh.getD j 0 = cur.getD j 0) (hbs : ∀ b ∈ detailBoxes ax cur ds, b ∈ bs) :
    unpackLoop A .wavedecn (sliceItems ax cur.length aSh ds) = .ok (ds.map Item.ofDict) := by
  induction ds generalizing cur aSh with
  | nil => rfl
  | cons d ds ih =>
    have hlv := hp.levelOk hn hb hl hag
    obtain ⟨h1, h2, h3, h4, h5, h6⟩ := hp
    rw [← hS] at hlv
    have e1 := unpackDict_ok hf hlv d (fun p hp => ⟨(h2 p hp).1, (h2 p hp).2.2⟩) (by
      intro p hp
      apply hbs
      rw [detailBoxes]
      exact List.mem_append_left _ (List.mem_map_of_mem (f := fun p => (⟨boxLo ax cur p.1, p.2⟩ : Box M)) hp))
    have e2 := ih (grow ax cur (levelShape d)) (addSh cur.length aSh (levelShape d))
      (by rw [grow_length]; exact hb) h6 (by rw [hS, packedShape])
      (by rw [addSh_length, grow_length])
      (by
        intro j hj
        rw [addSh_getD (hb j hj), grow_getD (hb j hj), if_pos hj, hag j hj])
      (by
        intro b hb
        apply hbs
        rw [detailBoxes]
        exact List.mem_append_right _ hb)
    rw [grow_length] at e2
    simp only [sliceItems, unpackLoop, unpackItem, e1, e2, Py_bind_ok, Py_pure, List.map_cons]
    rfl

end Pywt
