import Verif.Proof.PackTop
import Mathlib.Data.Fintype.BigOperators
import Mathlib.Algebra.BigOperators.Fin

/-! `coeffs_to_array` as a whole; disjointness, coverage; the coefficients of `wavedecn`. -/

namespace Pywt

open Finset Spec

set_option linter.unusedSectionVars false

section
variable {M : Type} [AddCommGroup M]

/-! ### Disjoint boxes inside the packed array -/

theorem levelBoxes_disjoint {ax cur : List ℕ} {dsh : List ℕ} (hn : ax.Nodup)
    (hb : ∀ j ∈ ax, j < cur.length) (hl : dsh.length = cur.length)
    (hle : ∀ j ∈ ax, dsh.getD j 0 ≤ cur.getD j 0) (d : List (Key × Arr M))
    (hd : ∀ p ∈ d, p.1 ∈ words ax.length ∧ p.2.shape = dsh) (hk : (d.map (·.1)).Nodup) :
    (d.map fun p => (⟨boxLo ax cur p.1, p.2⟩ : Box M)).Pairwise Box.Disjoint := by
  rw [List.pairwise_map]
  rw [List.Nodup, List.pairwise_map] at hk
  refine hk.imp_of_mem ?_
  intro p q hp hq hne
  obtain ⟨p1, p2⟩ := hd p hp
  obtain ⟨q1, q2⟩ := hd q hq
  exact Box.disjoint_keys hn p1 q1 hne hb (by rw [p2, hl]) (by rw [q2, hl])
    (by rw [p2]; exact hle) (by rw [q2]; exact hle)

theorem detailBoxes_disjoint {ax : List ℕ} (hn : ax.Nodup) (ds : List (List (Key × Arr M)))
    (cur : List ℕ) (hb : ∀ j ∈ ax, j < cur.length) (hp : Packable ax cur ds) (zs : List (Box M))
    (hz : InZone ax cur zs) (hzs : zs.Pairwise Box.Disjoint) :
    (zs ++ detailBoxes ax cur ds).Pairwise Box.Disjoint := by
  induction ds generalizing cur zs with
  | nil => simpa [detailBoxes] using hzs
  | cons d ds ih =>
    obtain ⟨h1, h2, h3, h4, h5, h6⟩ := hp
    rw [detailBoxes, ← List.append_assoc]
    refine ih _ (by rw [grow_length]; exact hb) h6 _
      (hz.level hb h4 fun p hp => (h2 p hp).2.2) ?_
    rw [List.pairwise_append]
    refine ⟨hzs, levelBoxes_disjoint hn hb h4 ?_ d (fun p hp => ⟨(h2 p hp).1, (h2 p hp).2.2⟩) h1, ?_⟩
    · intro j hj
      have := h5 j (hb j hj)
      rwa [if_pos hj] at this
    · intro b hb' c hc idx c1 c2
      obtain ⟨p, hp, rfl⟩ := List.mem_map.mp hc
      obtain ⟨k1, k2, k3⟩ := h2 p hp
      obtain ⟨j, hj, hle⟩ := Box.outside k1 k2 hb (by rw [k3, h4]) c2
      have := hz b hb' idx c1 j hj
      omega

theorem detailBoxes_inside {ax : List ℕ} (hn : ax.Nodup) (ds : List (List (Key × Arr M)))
    (cur : List ℕ) (hb : ∀ j ∈ ax, j < cur.length) (hp : Packable ax cur ds) :
    ∀ b ∈ detailBoxes ax cur ds, b.arr.shape.length = cur.length ∧
      ∀ j < cur.length, b.lo j + b.arr.shape.getD j 0 ≤ (packedShape ax cur ds).getD j 0 := by
  induction ds generalizing cur with
  | nil => simp [detailBoxes]
  | cons d ds ih =>
    intro b hbm
    have hlv := hp.levelOk (aSh := cur) hn hb rfl fun _ _ => rfl
    obtain ⟨h1, h2, h3, h4, h5, h6⟩ := hp
    rw [detailBoxes, List.mem_append] at hbm
    rcases hbm with hbm | hbm
    · obtain ⟨p, hp, rfl⟩ := List.mem_map.mp hbm
      obtain ⟨k1, k2, k3⟩ := h2 p hp
      have hs := hlv.slFor k1
      refine ⟨by rw [k3, h4], fun j hj => ?_⟩
      have := hs.le (k := j) (by rw [hlv.lenS]; exact hj)
      simp only [k3]
      exact this
    · have := ih _ (by rw [grow_length]; exact hb) h6 b hbm
      rwa [grow_length] at this

theorem allBoxes_disjoint {ax : List ℕ} (hn : ax.Nodup) {a : Arr M} {ds : List (List (Key × Arr M))}
    (hb : ∀ j ∈ ax, j < a.shape.length) (hp : Packable ax a.shape ds) :
    (allBoxes ax a ds).Pairwise Box.Disjoint := by
  refine detailBoxes_disjoint hn ds a.shape hb hp [⟨fun _ => 0, a⟩] ?_ (by simp)
  intro b hbm idx hc j hj
  simp only [List.mem_singleton] at hbm
  subst hbm
  have := (hc j (hb j hj)).2
  simpa using this

theorem allBoxes_inside {ax : List ℕ} (hn : ax.Nodup) {a : Arr M} {ds : List (List (Key × Arr M))}
    (hb : ∀ j ∈ ax, j < a.shape.length) (hp : Packable ax a.shape ds) :
    ∀ b ∈ allBoxes ax a ds, b.arr.shape.length = a.shape.length ∧
      ∀ j < a.shape.length, b.lo j + b.arr.shape.getD j 0 ≤ (packedShape ax a.shape ds).getD j 0 := by
  intro b hbm
  rw [allBoxes, List.mem_cons] at hbm
  rcases hbm with rfl | hbm
  · refine ⟨rfl, fun j hj => ?_⟩
    have := (packedShape_getD (ax := ax) (ds := ds) hj).1
    simpa using this
  · exact detailBoxes_inside hn ds _ hb hp b hbm

/-! ### Counting -/

/-- The indices of a box, as a finite set. -/
def Box.cells (n : ℕ) (b : Box M) : Finset (Fin n → ℕ) :=
  Fintype.piFinset fun k => Finset.Ico (b.lo k) (b.lo k + b.arr.shape.getD k 0)

/-- A finite index as a function on `ℕ`. -/
def ofFin {n : ℕ} (f : Fin n → ℕ) (k : ℕ) : ℕ := if h : k < n then f ⟨k, h⟩ else 0

theorem Box.mem_cells {n : ℕ} {b : Box M} (hb : b.arr.shape.length = n) {f : Fin n → ℕ} :
    f ∈ b.cells n ↔ b.Covers (ofFin f) := by
  unfold Box.cells Box.Covers
  simp only [Fintype.mem_piFinset, Finset.mem_Ico, hb]
  constructor
  · intro h k hk
    simp only [ofFin, dif_pos hk]
    exact h ⟨k, hk⟩
  · intro h k
    have := h k k.2
    simpa only [ofFin, dif_pos k.2] using this

theorem prod_getD_fin {n : ℕ} (l : List ℕ) (h : l.length = n) :
    ∏ k : Fin n, l.getD k 0 = l.prod := by
  subst h
  rw [← List.prod_ofFn]
  congr 1
  apply List.ext_getElem
  · simp
  · intro i h1 h2
    simp only [List.getElem_ofFn]
    rw [List.getD_eq_getElem (hn := h2)]

theorem Box.card_cells {n : ℕ} {b : Box M} (hb : b.arr.shape.length = n) :
    (b.cells n).card = b.arr.data.length := by
  unfold Box.cells
  rw [Fintype.card_piFinset, b.arr.ok, ← prod_getD_fin _ hb]
  simp

theorem card_union_cells {n : ℕ} (bs : List (Box M)) (hb : ∀ b ∈ bs, b.arr.shape.length = n)
    (hd : bs.Pairwise Box.Disjoint) :
    ∃ U : Finset (Fin n → ℕ), (∀ f, f ∈ U ↔ ∃ b ∈ bs, b.Covers (ofFin f)) ∧
      U.card = (bs.map fun b => b.arr.data.length).sum := by
  classical
  induction bs with
  | nil => exact ⟨∅, by simp, by simp⟩
  | cons b bs ih =>
    obtain ⟨h1, h2⟩ := List.pairwise_cons.mp hd
    obtain ⟨U, u1, u2⟩ := ih (fun c hc => hb c (by simp [hc])) h2
    have hbl := hb b (by simp)
    refine ⟨b.cells n ∪ U, ?_, ?_⟩
    · intro f
      rw [Finset.mem_union, Box.mem_cells hbl, u1]
      simp
    · rw [Finset.card_union_of_disjoint, Box.card_cells hbl, u2]
      · simp
      · rw [Finset.disjoint_left]
        intro f hf hU
        rw [Box.mem_cells hbl] at hf
        obtain ⟨c, hc, hcov⟩ := (u1 f).mp hU
        exact h1 c hc _ hf hcov

theorem detailBoxes_count (ax : List ℕ) (ds : List (List (Key × Arr M))) (cur : List ℕ) :
    ((detailBoxes ax cur ds).map fun b => b.arr.data.length).sum =
      (ds.map fun d => (d.map fun p => p.2.data.length).sum).sum := by
  induction ds generalizing cur with
  | nil => rfl
  | cons d ds ih =>
    rw [detailBoxes, List.map_append, List.sum_append, ih, List.map_cons, List.sum_cons,
      List.map_map]
    rfl

/-- A packing without gaps covers every index. -/
theorem tight_covers {ax : List ℕ} (hn : ax.Nodup) {a : Arr M} {ds : List (List (Key × Arr M))}
    (hb : ∀ j ∈ ax, j < a.shape.length) (hp : Packable ax a.shape ds) (ht : TightPacking ax a ds)
    {idx : ℕ → ℕ} (hidx : InB (packedShape ax a.shape ds) idx) :
    ∃ b ∈ allBoxes ax a ds, b.Covers idx := by
  classical
  have hin := allBoxes_inside hn hb hp
  obtain ⟨U, u1, u2⟩ := card_union_cells (n := a.shape.length) (allBoxes ax a ds)
    (fun b hb => (hin b hb).1) (allBoxes_disjoint hn hb hp)
  have hlen := packedShape_length ax a.shape ds
  let V : Finset (Fin a.shape.length → ℕ) :=
    Fintype.piFinset fun k => Finset.range ((packedShape ax a.shape ds).getD k 0)
  have hsub : U ⊆ V := by
    intro f hf
    obtain ⟨b, hb', hc⟩ := (u1 f).mp hf
    rw [Fintype.mem_piFinset]
    intro k
    obtain ⟨i1, i2⟩ := hin b hb'
    have h1 := (hc k (by rw [i1]; exact k.2)).2
    have h2 := i2 k k.2
    simp only [ofFin, dif_pos k.2, Fin.eta] at h1
    rw [Finset.mem_range]
    omega
  have hV : V.card = (packedShape ax a.shape ds).prod := by
    rw [Fintype.card_piFinset, ← prod_getD_fin _ hlen]
    simp
  have hU : U.card = (packedShape ax a.shape ds).prod := by
    rw [u2, allBoxes, List.map_cons, List.sum_cons, detailBoxes_count]
    exact ht.symm
  have hUV : U = V := Finset.eq_of_subset_of_card_le hsub (by rw [hV, hU])
  have hm : (fun k : Fin a.shape.length => idx k) ∈ U := by
    rw [hUV, Fintype.mem_piFinset]
    intro k
    exact Finset.mem_range.mpr (hidx k (by rw [hlen]; exact k.2))
  obtain ⟨b, hb', hc⟩ := (u1 _).mp hm
  refine ⟨b, hb', (b.covers_congr fun k hk => ?_).mp hc⟩
  have : k < a.shape.length := by rw [← (hin b hb').1]; exact hk
  simp only [ofFin, dif_pos this]

/-! ### The whole function -/

theorem AxesAre.norm {ndim : ℕ} {axes : Option (List ℤ)} {ax : List ℕ} (h : AxesAre ndim axes ax) :
    normAxes ndim (axes.getD (rangeAxes ndim)) = ax.map fun n : ℕ => (n : ℤ) := by
  obtain ⟨h1, -, -⟩ := h
  cases axes with
  | none =>
    simp only at h1
    subst h1
    simp only [Option.getD_none, normAxes, rangeAxes, List.map_map]
    apply List.map_congr_left
    intro n _
    simp
  | some l => exact h1.symm

theorem firstKeyLen_ok {ax cur : List ℕ} {d : List (Key × Arr M)} {ds : List (List (Key × Arr M))}
    (h : Packable ax cur (d :: ds)) :
    firstKeyLen ((d :: ds).map Item.ofDict) = .ok ax.length := by
  obtain ⟨h1, h2, h3, -⟩ := h
  cases d with
  | nil => simp at h3
  | cons p d =>
    have := (mem_words.mp (h2 p (by simp)).1).1
    simp only [List.map_cons, Item.ofDict, firstKeyLen, this]
    rfl

theorem packAxes_ok {ndim : ℕ} {axes : Option (List ℤ)} {ax : List ℕ} (h : AxesAre ndim axes ax) :
    packAxes ndim ax.length axes = .ok (axes.getD (rangeAxes ndim)) := by
  have hlen := congrArg List.length h.norm
  simp only [normAxes, List.length_map] at hlen
  unfold packAxes
  have e1 : ¬ (axes.isNone = true ∧ ax.length < ndim) := by
    rintro ⟨e, e'⟩
    cases axes with
    | none =>
      have := h.1
      simp only at this
      rw [this, List.length_range] at e'
      omega
    | some l => simp at e
  simp only [if_neg e1, hlen, ne_eq, not_true_eq_false, if_false]
  rfl

theorem zero_slFor {S shape : List ℕ} (hl : shape.length = S.length)
    (h : ∀ j < S.length, shape.getD j 0 ≤ S.getD j 0) :
    SlFor S (shape.map fun s => (⟨0, some s⟩ : Slice)) (fun _ => 0) shape := by
  refine ⟨by simp [hl], hl, fun k hk => ?_⟩
  have hk' : k < shape.length := by omega
  have := h k hk
  have e : (shape.map fun s => (⟨0, some s⟩ : Slice)).getD k .full = ⟨0, some (shape.getD k 0)⟩ := by
    rw [List.getD_eq_getElem (hn := by simpa using hk'), List.getD_eq_getElem (hn := hk')]
    simp
  rw [e]
  simp only [Slice.lo, Slice.len, Option.getD_some]
  omega

theorem full_slFor (S : List ℕ) :
    SlFor S (List.replicate S.length Slice.full) (fun _ => 0) S := by
  refine ⟨by simp, rfl, fun k hk => ?_⟩
  have e : (List.replicate S.length Slice.full).getD k .full = Slice.full := by
    rw [List.getD_eq_getElem (hn := by simpa using hk)]
    simp
  rw [e]
  simp [Slice.lo, Slice.len, Slice.full]

/-- The slices returned by `coeffs_to_array`. -/
def allSlices (ax : List ℕ) (a : Arr M) (ds : List (List (Key × Arr M))) : List SliceItem :=
  match ds with
  | [] => [.tup (List.replicate a.ndim .full)]
  | d :: ds => .tup (a.shape.map fun s => ⟨0, some s⟩) ::
      sliceItems ax a.ndim a.shape (d :: ds)

theorem detailsToN_dict (d : List (Key × Arr M)) (ds : List (List (Key × Arr M))) :
    detailsToN ((d :: ds).map Item.ofDict) = .ok ((d :: ds).map Item.ofDict) := by
  simp only [List.map_cons, Item.ofDict, detailsToN]
  rfl

theorem packInit_ok {padding : Option M} {tight : Bool} {junk : ℕ → M} {S : List ℕ}
    (h : padding = none → tight = true) :
    ∃ A base, packInit padding tight junk S = .ok A ∧ A.shape = S ∧ Filled A base [] ∧
      ∀ p, padding = some p → ∀ idx, base idx = p := by
  cases padding with
  | none =>
    rw [h rfl]
    exact ⟨⟨S, (List.range S.prod).map junk, by simp⟩, Arr.get _, rfl, rfl,
      ⟨by simp, fun idx _ _ => rfl⟩, by simp⟩
  | some p =>
    refine ⟨⟨S, List.replicate S.prod p, by simp⟩, fun _ => p, rfl, rfl,
      ⟨by simp, fun idx hidx _ => ?_⟩, by simp⟩
    have := hidx.ravel_lt
    simp only [Arr.get]
    rw [List.getD_eq_getElem (hn := by simpa using this)]
    simp

theorem coeffsToArray_ok {a : Arr M} {ds : List (List (Key × Arr M))} {axes : Option (List ℤ)}
    {ax : List ℕ} (ha : AxesAre a.ndim axes ax) (hp : Packable ax a.shape ds)
    {padding : Option M} (ht : padding = none → TightPacking ax a ds) (junk : ℕ → M) :
    ∃ A base, coeffsToArray (.arr a :: ds.map Item.ofDict) padding axes junk =
        .ok (A, allSlices ax a ds) ∧ A.shape = packedShape ax a.shape ds ∧
      Filled A base (allBoxes ax a ds) ∧ ∀ p, padding = some p → ∀ idx, base idx = p := by
  have hn : ax.Nodup := ha.2.1
  have hb : ∀ j ∈ ax, j < a.shape.length := ha.2.2
  cases ds with
  | nil =>
    refine ⟨a, fun _ => padding.getD 0, ?_, rfl, ⟨?_, ?_⟩, ?_⟩
    · simp only [List.map_nil, coeffsToArray, headArr, detailsToN, Py_bind_ok, Py_pure, allSlices]
    · intro b hbm idx _ _
      simp only [allBoxes, detailBoxes, List.mem_singleton] at hbm
      subst hbm
      simp
    · intro idx hidx hc
      exact absurd (fun k hk => ⟨Nat.zero_le _, by simpa using hidx k hk⟩)
        (hc ⟨fun _ => 0, a⟩ (by simp [allBoxes]))
    · rintro p rfl idx
      rfl
  | cons d ds =>
    have e1 := firstKeyLen_ok hp
    have e2 := packAxes_ok ha
    have hax := ha.norm
    have e3 := arrShapeLoop_ok (axes := axes.getD (rangeAxes a.ndim)) hn (d :: ds) a.shape hax hb hp
      a.data.length
    obtain ⟨A0, base, f1, f2, f3, f4⟩ := packInit_ok (padding := padding)
      (tight := decide ((packedShape ax a.shape (d :: ds)).prod = a.data.length +
        ((d :: ds).map fun d => (d.map fun p => p.2.data.length).sum).sum))
      (junk := junk) (S := packedShape ax a.shape (d :: ds)) (fun h => decide_eq_true (ht h))
    have hsl : SlFor A0.shape (a.shape.map fun s => (⟨0, some s⟩ : Slice))
        (⟨fun _ => 0, a⟩ : Box M).lo (⟨fun _ => 0, a⟩ : Box M).arr.shape := by
      rw [f2]
      refine zero_slFor (packedShape_length _ _ _).symm fun j hj => ?_
      rw [packedShape_length] at hj
      exact (packedShape_getD hj).1
    obtain ⟨A1, g1, g2, g3⟩ := setSlices_filled f3 hsl (by simp)
    obtain ⟨A2, k1, k2, k3⟩ := packLoop_ok (S := packedShape ax a.shape (d :: ds))
      (axes := axes.getD (rangeAxes a.ndim)) hn (d :: ds) a.shape a.shape hax hb hp rfl rfl
      (fun _ _ => rfl) [⟨fun _ => 0, a⟩] (by
        intro b hbm idx hc j hj
        simp only [List.mem_singleton] at hbm
        subst hbm
        have := (hc j (hb j hj)).2
        simpa using this) A1 (by rw [g2, f2]) (by simpa using g3)
      [.tup (a.shape.map fun s => ⟨0, some s⟩)]
    refine ⟨A2, base, ?_, k2, k3, f4⟩
    have e0 := detailsToN_dict d ds
    simp only [List.map_cons] at e0 e1 e3 k1 f1 ⊢
    simp only [Arr.ndim] at e2 e3 k1
    simp only [coeffsToArray, headArr, Py_bind_ok, Py_pure, e0, e1, e2, e3, f1, g1, Arr.ndim]
    rw [k1]
    rfl

theorem arrayToCoeffs_ok {a : Arr M} {ds : List (List (Key × Arr M))} {axes : Option (List ℤ)}
    {ax : List ℕ} (ha : AxesAre a.ndim axes ax) (hp : Packable ax a.shape ds) {A : Arr M}
    {base : (ℕ → ℕ) → M} (hA : A.shape = packedShape ax a.shape ds)
    (hf : Filled A base (allBoxes ax a ds)) :
    arrayToCoeffs A (allSlices ax a ds) .wavedecn = .ok (.arr a :: ds.map Item.ofDict) := by
  have hn : ax.Nodup := ha.2.1
  have hb : ∀ j ∈ ax, j < a.shape.length := ha.2.2
  cases ds with
  | nil =>
    have hsl : SlFor A.shape (List.replicate a.ndim Slice.full)
        (⟨fun _ => 0, a⟩ : Box M).lo (⟨fun _ => 0, a⟩ : Box M).arr.shape := by
      rw [hA]
      exact full_slFor a.shape
    have := getSlices_filled hf (by simp [allBoxes]) hsl
    simp only at this
    simp only [allSlices, arrayToCoeffs, this, unpackLoop, Py_bind_ok, Py_pure, List.map_nil]
  | cons d ds =>
    have hsl : SlFor A.shape (a.shape.map fun s => (⟨0, some s⟩ : Slice))
        (⟨fun _ => 0, a⟩ : Box M).lo (⟨fun _ => 0, a⟩ : Box M).arr.shape := by
      rw [hA]
      refine zero_slFor (packedShape_length _ _ _).symm fun j hj => ?_
      rw [packedShape_length] at hj
      exact (packedShape_getD hj).1
    have e1 := getSlices_filled hf (by simp [allBoxes]) hsl
    have e2 := unpackLoop_ok hf hn (d :: ds) a.shape a.shape hb hp hA rfl (fun _ _ => rfl)
      (fun b hb => by simp [allBoxes, hb])
    simp only [Arr.ndim] at *
    simp only [allSlices, arrayToCoeffs, e1, Arr.ndim, e2, Py_bind_ok, Py_pure]

end

end Pywt
