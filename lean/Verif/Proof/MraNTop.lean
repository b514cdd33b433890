import Verif.Proof.MraN

/-!
# `mran`, `mra2` and `mra` along an axis
-/

namespace Pywt

open Finset Spec

set_option linter.unusedSectionVars false

variable {R M : Type} [Ring R] [AddCommGroup M] [Module R M]

theorem expand_many_self {α : Type} {p : PerAxis α} {n : ℕ} {l : List α} (h : p.expand n = .ok l) :
    l.length = n ∧ (PerAxis.many l).expand n = .ok l := by
  have hl : l.length = n := by
    unfold PerAxis.expand at h
    split at h
    · simp only [Except.ok.injEq] at h; rw [← h]; simp
    · simp only [Except.ok.injEq] at h; rw [← h]; simp
    · split at h
      · simp at h
      · rename_i hc
        simp only [Except.ok.injEq] at h
        rw [← h]
        push Not at hc
        exact hc
  refine ⟨hl, ?_⟩
  unfold PerAxis.expand
  split
  · rename_i h; simp at h
  · rename_i a h
    simp only [PerAxis.many.injEq] at h
    subst h
    simp only [List.length_cons, List.length_nil] at hl
    rw [← hl]
    rfl
  · rename_i h
    simp only [PerAxis.many.injEq] at h
    subst h
    rw [if_neg (by simp [hl])]

theorem Resolves.expanded {ndim : ℕ} {wavelet : PerAxis (Wavelet R)} {mode : PerAxis Mode}
    {axes : Option (List ℤ)} {st : List (Stage R)} (h : Resolves ndim wavelet mode axes st) :
    Resolves ndim (.many (st.map (·.2.1))) (.many (st.map (·.2.2))) (some (axes.getD (rangeAxes ndim))) st :=
  ⟨h.toSome.1, (expand_many_self h.2.1).2, (expand_many_self h.2.2).2⟩

theorem arrayAt_compsOf {ds : List (ADict M)} (hd : ∀ d ∈ ds, (d.map (·.1)).Nodup)
    (t : Option (ℕ × Key) → Arr M) {i : Option (ℕ × Key)} (hi : i ∈ coefPos ds) :
    arrayAt (t none) (compsOf ds t) i = some (t i) := by
  unfold coefPos at hi
  rw [List.mem_cons] at hi
  rcases hi with rfl | hi
  · rfl
  · obtain ⟨j, hj, hi⟩ := List.mem_flatMap.mp hi
    rw [List.mem_range] at hj
    obtain ⟨k, hk, rfl⟩ := List.mem_map.mp hi
    rw [List.getD_eq_getElem (hn := hj)] at hk
    obtain ⟨p, hp, rfl⟩ := List.mem_map.mp hk
    simp only [arrayAt, compsOf]
    rw [List.getD_eq_getElem (hn := by simpa using hj), List.getElem_map, List.getElem_range,
      List.getD_eq_getElem (hn := hj)]
    have := lookupKey_map (hd _ (List.getElem_mem hj)) (fun p => t (some (j, p.1))) hp
    unfold lookupKey at this
    split at this
    · simp at this
    · rename_i h
      simp only [Except.ok.injEq] at this
      rw [h, this]

theorem dictKeys_compsOf (ds : List (ADict M)) (t : Option (ℕ × Key) → Arr M) :
    dictKeys (compsOf ds t) = dictKeys ds := by
  unfold dictKeys compsOf
  apply List.ext_getElem (by simp)
  intro j h1 h2
  have hj : j < ds.length := by simpa using h2
  simp [hj, Function.comp_def]

theorem itemDicts_ofDict (ds : List (ADict M)) : itemDicts (ds.map Item.ofDict) = .ok ds := by
  induction ds with
  | nil => rfl
  | cons d ds ih =>
    simp only [List.map_cons, Item.ofDict, itemDicts]
    have ih' : itemDicts (ds.map fun c => Item.dict (c.map fun p => (p.1, some p.2))) = .ok ds := ih
    rw [show (List.map Item.ofDict ds) = (ds.map fun c => Item.dict (c.map fun p => (p.1, some p.2))) from rfl, ih']
    simp only [Py_bind_ok, dropNone_of_some]
    rfl

theorem detailsN_dictOk {st : List (Stage R)} (hne : st ≠ []) (x : Arr M) (j : ℕ) :
    DictOk (x.detailsN st j) st.length ((decShape st)^[j + 1] x.shape) ∧ x.detailsN st j ≠ [] := by
  refine ⟨⟨?_, ?_⟩, ?_⟩
  · rw [detailsN_keys]
    exact (words_nodup _).filter _
  · intro p hp
    obtain ⟨h1, -, h3⟩ := mem_detailsN hp
    refine ⟨h1, ?_⟩
    rw [h3, shape_subband (mem_words.mp h1).1, Arr.shape_approxN, ← Function.iterate_succ_apply' (decShape st)]
  · obtain ⟨p, l, h⟩ := detailsN_ne_nil hne j x
    rw [h]; simp

/-- The first dict has the shape of the approximation. -/
theorem head_shape {st : List (Stage R)} {S : List ℕ} {f : ℕ → ADict M} {n : ℕ}
    (hf : ∀ j < n, DictOk (f j) st.length ((decShape st)^[j + 1] S) ∧ f j ≠ []) {i : Option (ℕ × Key)}
    (A : Arr M) (hA : A.shape = (decShape st)^[n] S) :
    ∀ d ∈ (onlyD ((List.range n).map f).reverse i).head?, detailShape d A.shape = A.shape := by
  intro d hd
  cases n with
  | zero => simp [onlyD] at hd
  | succ n =>
    rw [List.range_succ, List.map_append, List.reverse_append] at hd
    obtain ⟨h1, h2⟩ := hf n (by omega)
    simp only [List.map_cons, List.map_nil, List.reverse_cons, List.reverse_nil, List.nil_append,
      List.cons_append, onlyD, List.mapIdx_cons, List.head?_cons, Option.mem_def, Option.some.injEq] at hd
    subst hd
    cases hfn : f n with
    | nil => exact absurd hfn h2
    | cons p l =>
      have := (h1.2 p (by rw [hfn]; simp)).2
      simp only [List.map_cons, detailShape]
      rw [hA]
      split
      · exact this
      · exact this

theorem head_shape0 {st : List (Stage R)} {S : List ℕ} {f : ℕ → ADict M} {n : ℕ}
    (hf : ∀ j < n, DictOk (f j) st.length ((decShape st)^[j + 1] S) ∧ f j ≠ [])
    (A : Arr M) (hA : A.shape = (decShape st)^[n] S) :
    ∀ d ∈ (((List.range n).map f).reverse).head?, detailShape d A.shape = A.shape := by
  intro d hd
  cases n with
  | zero => simp at hd
  | succ n =>
    rw [List.range_succ, List.map_append, List.reverse_append] at hd
    obtain ⟨h1, h2⟩ := hf n (by omega)
    simp only [List.map_cons, List.map_nil, List.reverse_cons, List.reverse_nil, List.nil_append,
      List.cons_append, List.head?_cons, Option.mem_def, Option.some.injEq] at hd
    subst hd
    cases hfn : f n with
    | nil => exact absurd hfn h2
    | cons p l =>
      have := (h1.2 p (by rw [hfn]; simp)).2
      simp only [detailShape]
      rw [hA, this]

/-- `mran` with `transform='dwtn'`. -/
theorem mranDwtn_ok {x : Arr M} {wavelet : PerAxis (Wavelet R)}
    {mode : PerAxis Mode} {axes : Option (List ℤ)} {st : List (Stage R)} (hne : st ≠ [])
    (hr : Resolves x.ndim wavelet mode axes st) (hb : ∀ s ∈ st, s.1 < x.ndim ∧ s.2.1.Ok)
    (hn : (st.map (·.1)).Nodup)
    (hpr : ∀ s ∈ st, PR s.2.1.dec_lo s.2.1.dec_hi s.2.1.rec_lo s.2.1.rec_hi)
    {level : Option ℤ} {cs : List (Item M)} (h : wavedecn x wavelet mode level axes = .ok cs) :
    ∃ A ds c0 cds, cs = .arr A :: ds.map Item.ofDict ∧ mranDwtn x wavelet level axes mode = .ok (c0, cds) ∧
      dictKeys cds = dictKeys ds ∧
      (∀ i ∈ coefPos ds, ∃ c y, arrayAt c0 cds i = some c ∧ c.shape = x.shape ∧
        waverecn (.arr (onlyA A i) :: (onlyD ds i).map Item.ofDict) wavelet mode axes = .ok (.arr y) ∧
        y.Extends c) ∧
      imra (allArrays c0 cds) = .ok x := by
  have hd : 1 ≤ x.ndim := by
    cases st with
    | nil => exact absurd rfl hne
    | cons s st => have := (hb s (by simp)).1; omega
  have hrx := hr.expanded
  obtain ⟨L, hL, hall⟩ := wavedecn_eq hd hne hr hb hn
  obtain ⟨L', hL', hall'⟩ := wavedecn_eq hd hne hrx hb hn
  have hLL : L' = L := by
    apply le_antisymm
    · rw [hL, ← hL']
    · rw [hL', ← hL]
  rw [hLL] at hall'
  have hsame : wavedecn x (.many (st.map (·.2.1))) (.many (st.map (·.2.2))) level
      (some (axes.getD (rangeAxes x.ndim))) = .ok cs := by
    rw [hall', ← hall, h]
  rw [hall] at h
  split at h
  · simp at h
  split at h
  · rename_i hlv
    simp only [Except.ok.injEq] at h
    set n := (level.map Int.toNat).getD L with hn0
    set ds : List (ADict M) := ((List.range n).map fun j => x.detailsN st j).reverse with hds
    have hcs : cs = .arr (x.approxN st n) :: ds.map Item.ofDict := by
      rw [← h, hds, List.map_reverse, List.map_map]
      rfl
    have hdok := fun j (_ : j < n) => detailsN_dictOk hne x j
    have hA : (x.approxN st n).shape = (decShape st)^[n] x.shape := Arr.shape_approxN st n x
    have hfit : RecnFits st ds (x.approxN st n).shape :=
      recnFits_levels hn hdok hlv _ (by rw [hA]; exact Near.refl _)
    have hkeys : ∀ d ∈ ds, (d.map (·.1)).Nodup := by
      intro d hd'
      rw [hds, List.mem_reverse, List.mem_map] at hd'
      obtain ⟨j, -, rfl⟩ := hd'
      exact (detailsN_dictOk hne x j).1.1
    -- the values of the inverse
    have hval : ∀ (wv : PerAxis (Wavelet R)) (md : PerAxis Mode) (ax : Option (List ℤ)),
        Resolves x.ndim wv md ax st → ∀ i,
        waverecn (.arr (onlyA (x.approxN st n) i) :: (onlyD ds i).map Item.ofDict) wv md ax =
          .ok (.arr (waverecnCascade st (onlyD ds i) (onlyA (x.approxN st n) i))) := by
      intro wv md ax hres i
      apply waverecn_values
      · have : (onlyA (x.approxN st n) i).ndim = x.ndim := by
          unfold Arr.ndim
          rw [onlyA_shape]
          exact Arr.approxN_ndim st n x
        rw [this]; exact hres
      · rw [onlyA_shape]
        exact hfit.of_skel (skel_onlyD ds i).symm
      · exact head_shape hdok _ (by rw [onlyA_shape, hA])
    obtain ⟨y, e1, -, -, e4⟩ := waverecn_cascade hr hne hn hpr hlv
    have hfull : waverecnCascade st ds (x.approxN st n) = y := by
      have h2 := waverecn_values (A := x.approxN st n) (ds := ds) (wavelet := wavelet) (mode := mode) (axes := axes)
        (st := st) (by rw [Arr.approxN_ndim]; exact hr) hfit (head_shape0 hdok _ hA)
      rw [← hcs, ← h, e1] at h2
      simpa using h2.symm
    obtain ⟨t, t1, t2⟩ := mra_only (R := R) (recM := fun a ds => waverecnCascade st ds a)
      (recP := fun a ds => waverecnCascade st ds a) (fun φ a ds => waverecnCascade_map φ st ds a) hkeys
      (x := x) (a := x.approxN st n) (by rw [hfull]; exact e4)
    refine ⟨x.approxN st n, ds, t none, compsOf ds t, hcs, ?_, dictKeys_compsOf _ _, ?_, ?_⟩
    · have hp := prepAxes_ok (shape := x.shape) hd hr (fun s hs => (hb s hs).1) hn
      have hlen := hr.length
      have hw : wavelet.expand (axes.getD (rangeAxes x.shape.length)).length = .ok (st.map (·.2.1)) := by
        have h2 := hr.2.1
        rw [← hlen] at h2
        exact h2
      have hm : mode.expand (axes.getD (rangeAxes x.shape.length)).length = .ok (st.map (·.2.2)) := by
        have h2 := hr.2.2
        rw [← hlen] at h2
        exact h2
      have hs' : wavedecn x (.many (st.map (·.2.1))) (.many (st.map (·.2.2))) level
          (some (axes.getD (rangeAxes x.shape.length))) = .ok cs := hsame
      simp only [mranDwtn, hp, Py_bind_ok, hw, hm, hs', hcs, itemDicts_ofDict]
      apply mranCore_ok hkeys
      intro i _
      refine ⟨_, ?_, (t1 i).1⟩
      simp only [mranWaverecn]
      have := hval _ _ _ hrx i
      unfold Arr.ndim at this
      rw [this]
      rfl
    · intro i hi
      exact ⟨t i, _, arrayAt_compsOf hkeys t hi, (t1 i).2.1, hval _ _ _ hr i, (t1 i).2.2⟩
    · unfold allArrays
      rw [compsOf_flat]
      exact t2
  · simp at h

end Pywt
