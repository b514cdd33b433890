import Verif.Proof.PackMain

/-! `coeffs_to_array` for the other formats, for edited arrays, and for the results of `wavedecn`. -/

namespace Pywt

open Finset Spec

set_option linter.unusedSectionVars false

section
variable {M : Type} [AddCommGroup M]

/-! ### Other formats -/

theorem wavedecToN_ok (ds : List (Arr M)) (h : ∀ d ∈ ds, d.ndim = 1) :
    wavedecToN (ds.map Item.arr) = .ok ((single ds).map Item.ofDict) := by
  induction ds with
  | nil => rfl
  | cons d ds ih =>
    have e := ih fun x hx => h x (by simp [hx])
    have hd := h d (by simp)
    simp only [List.map_cons, wavedecToN, hd, ne_eq, not_true_eq_false, if_false, e, Py_bind_ok,
      Py_pure]
    rfl

theorem wavedec2ToN_ok (ds : List (Arr M × Arr M × Arr M)) :
    wavedec2ToN (ds.map Item.ofTriple) = .ok ((triples ds).map Item.ofDict) := by
  induction ds with
  | nil => rfl
  | cons d ds ih =>
    simp only [List.map_cons, Item.ofTriple, wavedec2ToN]
    rw [ih]
    rfl

theorem coeffsToArray_single {a : Arr M} (ds : List (Arr M)) (h : ∀ d ∈ ds, d.ndim = 1)
    (padding : Option M) (axes : Option (List ℤ)) (junk : ℕ → M) :
    coeffsToArray (.arr a :: ds.map Item.arr) padding axes junk =
      coeffsToArray (.arr a :: (single ds).map Item.ofDict) padding axes junk := by
  cases ds with
  | nil => rfl
  | cons d ds =>
    have e1 : detailsToN ((d :: ds).map Item.arr) = .ok ((single (d :: ds)).map Item.ofDict) :=
      wavedecToN_ok (d :: ds) h
    have e2 : detailsToN ((single (d :: ds)).map Item.ofDict) =
        .ok ((single (d :: ds)).map Item.ofDict) := rfl
    unfold coeffsToArray
    simp only [headArr, Py_bind_ok, Py_pure, e1, e2]

theorem coeffsToArray_triples {a : Arr M} (ds : List (Arr M × Arr M × Arr M))
    (padding : Option M) (axes : Option (List ℤ)) (junk : ℕ → M) :
    coeffsToArray (.arr a :: ds.map Item.ofTriple) padding axes junk =
      coeffsToArray (.arr a :: (triples ds).map Item.ofDict) padding axes junk := by
  cases ds with
  | nil => rfl
  | cons d ds =>
    have e1 : detailsToN ((d :: ds).map Item.ofTriple) = .ok ((triples (d :: ds)).map Item.ofDict) :=
      wavedec2ToN_ok (d :: ds)
    have e2 : detailsToN ((triples (d :: ds)).map Item.ofDict) =
        .ok ((triples (d :: ds)).map Item.ofDict) := rfl
    unfold coeffsToArray
    simp only [headArr, Py_bind_ok, Py_pure, e1, e2]

theorem unpackDict_lookup {A : Arr M} {d : List (Key × List Slice)} {c : CDict M}
    (h : unpackDict A d = .ok c) {k : Key} {v : Arr M} (hk : c.lookup k = some (some v)) :
    ∃ sl, lookupKey d k = .ok sl ∧ A.getSlices sl = .ok v := by
  induction d generalizing c with
  | nil =>
    simp only [unpackDict, Py_pure, Except.ok.injEq] at h
    subst h
    simp at hk
  | cons p d ih =>
    obtain ⟨k', sl⟩ := p
    simp only [unpackDict] at h
    cases hg : A.getSlices sl with
    | error e => rw [hg] at h; simp [Py_bind_error] at h
    | ok w =>
      cases hu : unpackDict A d with
      | error e => rw [hg, hu] at h; simp [Py_bind_ok, Py_bind_error] at h
      | ok r =>
        rw [hg, hu] at h
        simp only [Py_bind_ok, Py_pure, Except.ok.injEq] at h
        subst h
        rw [List.lookup_cons] at hk
        by_cases hkk : k = k'
        · subst hkk
          simp only [beq_self_eq_true, Option.some.injEq] at hk
          subst hk
          exact ⟨sl, by simp [lookupKey], hg⟩
        · have hb : (k == k') = false := by simpa using hkk
          rw [hb] at hk
          obtain ⟨s, h1, h2⟩ := ih hu hk
          refine ⟨s, ?_, h2⟩
          simpa [lookupKey, List.lookup_cons, hb] using h1

theorem unpackLoop_inv {A : Arr M} {s : SliceItem} {ss : List SliceItem} {c : CDict M}
    {cs : List (Item M)}
    (h : unpackLoop A .wavedecn (s :: ss) = .ok (.dict c :: cs)) :
    ∃ d, s = .dict d ∧ unpackDict A d = .ok c ∧ unpackLoop A .wavedecn ss = .ok cs := by
  simp only [unpackLoop] at h
  cases s with
  | tup l => simp [unpackItem, Py_bind_error, Py_throw] at h
  | dict d =>
    refine ⟨d, rfl, ?_⟩
    simp only [unpackItem] at h
    cases hu : unpackDict A d with
    | error e => rw [hu] at h; simp [Py_bind_error] at h
    | ok r =>
      cases hl : unpackLoop A .wavedecn ss with
      | error e => rw [hu, hl] at h; simp [Py_bind_error, Py_bind_ok, Py_pure] at h
      | ok r' =>
        rw [hu, hl] at h
        simp only [Py_bind_ok, Py_pure, Except.ok.injEq, List.cons.injEq, Item.dict.injEq] at h
        rw [h.1, h.2]
        exact ⟨rfl, rfl⟩

theorem unpackLoop_single {A : Arr M} (ds : List (Arr M)) (ss : List SliceItem)
    (h : unpackLoop A .wavedecn ss = .ok ((single ds).map Item.ofDict)) :
    unpackLoop A .wavedec ss = .ok (ds.map Item.arr) := by
  induction ds generalizing ss with
  | nil =>
    cases ss with
    | nil => rfl
    | cons s ss =>
      simp only [unpackLoop, single, List.map_nil] at h
      cases hu : unpackItem A .wavedecn s with
      | error e => rw [hu] at h; simp [Py_bind_error] at h
      | ok r =>
        cases hl : unpackLoop A .wavedecn ss with
        | error e => rw [hu, hl] at h; simp [Py_bind_error, Py_bind_ok] at h
        | ok r' => rw [hu, hl] at h; simp [Py_bind_ok, Py_pure] at h
  | cons d ds ih =>
    cases ss with
    | nil => simp [unpackLoop, single, Py_pure] at h
    | cons s ss =>
      obtain ⟨sd, rfl, h1, h2⟩ := unpackLoop_inv (c := [(['d'], some d)]) h
      obtain ⟨sl, l1, l2⟩ := unpackDict_lookup h1 (k := ['d']) (v := d) (by simp)
      simp only [unpackLoop, unpackItem, l1, l2, ih ss h2, Py_bind_ok, Py_pure, List.map_cons]

theorem unpackLoop_triples {A : Arr M} (ds : List (Arr M × Arr M × Arr M)) (ss : List SliceItem)
    (h : unpackLoop A .wavedecn ss = .ok ((triples ds).map Item.ofDict)) :
    unpackLoop A .wavedec2 ss = .ok (ds.map Item.ofTriple) := by
  induction ds generalizing ss with
  | nil =>
    cases ss with
    | nil => rfl
    | cons s ss =>
      simp only [unpackLoop, triples, List.map_nil] at h
      cases hu : unpackItem A .wavedecn s with
      | error e => rw [hu] at h; simp [Py_bind_error] at h
      | ok r =>
        cases hl : unpackLoop A .wavedecn ss with
        | error e => rw [hu, hl] at h; simp [Py_bind_error, Py_bind_ok] at h
        | ok r' => rw [hu, hl] at h; simp [Py_bind_ok, Py_pure] at h
  | cons t ds ih =>
    cases ss with
    | nil => simp [unpackLoop, triples, Py_pure] at h
    | cons s ss =>
      obtain ⟨sd, rfl, h1, h2⟩ := unpackLoop_inv
        (c := [(['a', 'd'], some t.2.1), (['d', 'a'], some t.1), (['d', 'd'], some t.2.2)]) h
      obtain ⟨s1, l1, l2⟩ := unpackDict_lookup h1 (k := ['d', 'a']) (v := t.1) rfl
      obtain ⟨s2, m1, m2⟩ := unpackDict_lookup h1 (k := ['a', 'd']) (v := t.2.1) rfl
      obtain ⟨s3, n1, n2⟩ := unpackDict_lookup h1 (k := ['d', 'd']) (v := t.2.2) rfl
      simp only [unpackLoop, unpackItem, l1, l2, m1, m2, n1, n2, ih ss h2, Py_bind_ok, Py_pure,
        List.map_cons, Item.ofTriple]

theorem arrayToCoeffs_conv {A a : Arr M} {ss : List SliceItem} {f g : OutFormat}
    {cs cs' : List (Item M)} (hc : ∀ ss, unpackLoop A f ss = .ok cs → unpackLoop A g ss = .ok cs')
    (h : arrayToCoeffs A ss f = .ok (.arr a :: cs)) :
    arrayToCoeffs A ss g = .ok (.arr a :: cs') := by
  cases ss with
  | nil => simp [arrayToCoeffs, Py_throw] at h
  | cons s ss =>
    cases s with
    | dict d => simp [arrayToCoeffs, Py_throw] at h
    | tup l =>
      simp only [arrayToCoeffs] at h ⊢
      cases hg : A.getSlices l with
      | error e => rw [hg] at h; simp [Py_bind_error] at h
      | ok w =>
        cases hu : unpackLoop A f ss with
        | error e => rw [hg, hu] at h; simp [Py_bind_error, Py_bind_ok] at h
        | ok r =>
          rw [hg, hu] at h
          simp only [Py_bind_ok, Py_pure, Except.ok.injEq, List.cons.injEq, Item.arr.injEq] at h
          obtain ⟨rfl, rfl⟩ := h
          simp only [hc ss hu, Py_bind_ok, Py_pure]

/-! ### Edited arrays -/

theorem levelShape_reread (B : Arr M) (ax cur : List ℕ) (d : List (Key × Arr M)) :
    levelShape (d.map fun p => (p.1, B.box (boxLo ax cur p.1) p.2.shape)) = levelShape d := by
  cases d <;> rfl

theorem packedShape_reread (B : Arr M) (ax : List ℕ) (ds : List (List (Key × Arr M)))
    (cur : List ℕ) : packedShape ax cur (rereadDetails B ax cur ds) = packedShape ax cur ds := by
  induction ds generalizing cur with
  | nil => rfl
  | cons d ds ih => rw [rereadDetails, packedShape, packedShape, levelShape_reread, ih]

theorem Packable.reread (B : Arr M) {ax : List ℕ} {ds : List (List (Key × Arr M))} {cur : List ℕ}
    (h : Packable ax cur ds) : Packable ax cur (rereadDetails B ax cur ds) := by
  induction ds generalizing cur with
  | nil => trivial
  | cons d ds ih =>
    obtain ⟨h1, h2, h3, h4, h5, h6⟩ := h
    rw [rereadDetails, Packable, levelShape_reread]
    refine ⟨?_, ?_, ?_, h4, h5, ih h6⟩
    · rw [List.map_map]; exact h1
    · intro p hp
      obtain ⟨q, hq, rfl⟩ := List.mem_map.mp hp
      exact h2 q hq
    · rw [List.map_map]; exact h3

theorem sliceItems_reread (B : Arr M) (ax : List ℕ) (n : ℕ) (ds : List (List (Key × Arr M)))
    (cur aSh : List ℕ) : sliceItems ax n aSh (rereadDetails B ax cur ds) = sliceItems ax n aSh ds := by
  induction ds generalizing cur aSh with
  | nil => rfl
  | cons d ds ih =>
    rw [rereadDetails, sliceItems, sliceItems, levelShape_reread, ih, List.map_map]
    rfl

theorem detailBoxes_reread (B : Arr M) (ax : List ℕ) (ds : List (List (Key × Arr M)))
    (cur : List ℕ) : detailBoxes ax cur (rereadDetails B ax cur ds) =
      (detailBoxes ax cur ds).map fun b => ⟨b.lo, B.box b.lo b.arr.shape⟩ := by
  induction ds generalizing cur with
  | nil => rfl
  | cons d ds ih =>
    rw [rereadDetails, detailBoxes, detailBoxes, levelShape_reread, ih, List.map_append,
      List.map_map, List.map_map]
    rfl

theorem allSlices_reread (B : Arr M) (ax : List ℕ) (a : Arr M) (ds : List (List (Key × Arr M))) :
    allSlices ax (B.box (fun _ => 0) a.shape) (rereadDetails B ax a.shape ds) =
      allSlices ax a ds := by
  cases ds with
  | nil => rfl
  | cons d ds =>
    have := sliceItems_reread B ax a.ndim (d :: ds) a.shape a.shape
    simp only [rereadDetails] at this ⊢
    simp only [allSlices]
    rw [show (B.box (fun _ => 0) a.shape).shape = a.shape from rfl]
    rw [show (B.box (fun _ => 0) a.shape).ndim = a.ndim from rfl, this]

theorem allBoxes_reread (B : Arr M) (ax : List ℕ) (a : Arr M) (ds : List (List (Key × Arr M))) :
    allBoxes ax (B.box (fun _ => 0) a.shape) (rereadDetails B ax a.shape ds) =
      (allBoxes ax a ds).map fun b => ⟨b.lo, B.box b.lo b.arr.shape⟩ := by
  rw [allBoxes, allBoxes, List.map_cons, ← detailBoxes_reread]
  rfl

theorem Arr.box_get {B : Arr M} {lo : ℕ → ℕ} {shape : List ℕ} (hl : shape.length = B.shape.length)
    {idx : ℕ → ℕ} (h : InB shape idx) : (B.box lo shape).get idx = B.get fun k => lo k + idx k := by
  unfold Arr.box
  refine Arr.get_ofFn ?_ h
  intro f g hfg
  exact Arr.get_congr _ fun k hk => by rw [hfg k (by omega)]

theorem filled_reread {B : Arr M} {bs : List (Box M)}
    (hl : ∀ b ∈ bs, b.arr.shape.length = B.shape.length) :
    Filled B B.get (bs.map fun b => ⟨b.lo, B.box b.lo b.arr.shape⟩) := by
  refine ⟨?_, fun _ _ _ => rfl⟩
  intro b hb idx hidx hc
  obtain ⟨c, hcm, rfl⟩ := List.mem_map.mp hb
  have hlen := hl c hcm
  simp only at hc ⊢
  have hc' : ∀ k < c.arr.shape.length, c.lo k ≤ idx k ∧ idx k < c.lo k + c.arr.shape.getD k 0 := hc
  rw [Arr.box_get hlen]
  · exact Arr.get_congr _ fun k hk => by
      have := (hc' k (by omega)).1
      omega
  · intro k hk
    have := hc' k hk
    simp only
    omega

theorem tight_reread {B : Arr M} {ax : List ℕ} {a : Arr M} {ds : List (List (Key × Arr M))}
    (h : TightPacking ax a ds) :
    TightPacking ax (B.box (fun _ => 0) a.shape) (rereadDetails B ax a.shape ds) := by
  unfold TightPacking at *
  rw [show (B.box (fun _ => 0) a.shape).shape = a.shape from rfl, packedShape_reread, h, Arr.ok,
    Arr.ok, ← detailBoxes_count ax _ a.shape, ← detailBoxes_count ax _ a.shape, detailBoxes_reread,
    List.map_map]
  congr 2
  apply List.map_congr_left
  intro b _
  simp only [Function.comp_apply, Arr.ok]
  rfl

end

/-! ### The coefficients of `wavedecn` -/

section
variable {R M : Type} [Ring R] [AddCommGroup M] [Module R M]

theorem levelShape_detailsN {st : List (Stage R)} (hne : st ≠ []) (j : ℕ) (x : Arr M) :
    (∀ p ∈ x.detailsN st j, p.1 ∈ words st.length ∧ p.1 ≠ List.replicate st.length 'a' ∧
      p.2.shape = (decShape st)^[j + 1] x.shape) ∧
    List.replicate st.length 'd' ∈ (x.detailsN st j).map (·.1) ∧
    levelShape (x.detailsN st j) = (decShape st)^[j + 1] x.shape := by
  have h1 : ∀ p ∈ x.detailsN st j, p.1 ∈ words st.length ∧ p.1 ≠ List.replicate st.length 'a' ∧
      p.2.shape = (decShape st)^[j + 1] x.shape := by
    intro p hp
    unfold Arr.detailsN at hp
    obtain ⟨k, hk, rfl⟩ := List.mem_map.mp hp
    rw [List.mem_filter] at hk
    refine ⟨hk.1, by simpa using hk.2, ?_⟩
    simp only
    rw [shape_subband (mem_words.mp hk.1).1, Arr.shape_approxN, Function.iterate_succ_apply']
  have h2 : List.replicate st.length 'd' ∈ (x.detailsN st j).map (·.1) := by
    unfold Arr.detailsN
    rw [List.map_map]
    refine List.mem_map.mpr ⟨List.replicate st.length 'd', ?_, rfl⟩
    rw [List.mem_filter]
    refine ⟨mem_words.mpr ⟨by simp, fun c hc => .inr (List.eq_of_mem_replicate hc)⟩, ?_⟩
    cases st with
    | nil => exact absurd rfl hne
    | cons s st => simp [List.replicate_succ]
  refine ⟨h1, h2, ?_⟩
  obtain ⟨p, hp, e⟩ := levelShape_of h2
  rw [← e]
  exact (h1 p hp).2.2

theorem le_two_mul_coeffLen {mode : Mode} {N F : ℕ} (hF : 2 ≤ F) : N ≤ 2 * coeffLen mode N F := by
  unfold coeffLen
  split <;> omega

theorem packable_cascade_aux {st : List (Stage R)} (hne : st ≠ []) {x : Arr M}
    (hn : (st.map (·.1)).Nodup) (hb : ∀ s ∈ st, s.1 < x.ndim ∧ s.2.1.Ok) (n : ℕ) (cur : List ℕ)
    (hl : cur.length = x.ndim)
    (h1 : ∀ j < x.ndim, if j ∈ st.map (·.1) then ((decShape st)^[n] x.shape).getD j 0 ≤ cur.getD j 0
      else ((decShape st)^[n] x.shape).getD j 0 = cur.getD j 0) :
    Packable (st.map (·.1)) cur ((List.range n).map fun j => x.detailsN st j).reverse := by
  have hlen : ∀ k, ((decShape st)^[k] x.shape).length = x.shape.length := by
    intro k
    induction k with
    | zero => rfl
    | succ k ih => rw [Function.iterate_succ_apply', decShape_length, ih]
  induction n generalizing cur with
  | zero => trivial
  | succ n ih =>
    rw [List.range_succ, List.map_append, List.reverse_append]
    simp only [List.map_cons, List.map_nil, List.reverse_cons, List.reverse_nil, List.nil_append,
      List.cons_append]
    obtain ⟨a1, a2, a3⟩ := levelShape_detailsN hne n x
    refine ⟨?_, ?_, ?_, ?_, ?_, ?_⟩
    · unfold Arr.detailsN
      rw [List.map_map]
      have : ((fun p : Key × Arr M => p.1) ∘ fun k => (k, (x.approxN st n).subband st k)) = id := rfl
      rw [this, List.map_id]
      exact (words_nodup _).filter _
    · rw [List.length_map, a3]; exact a1
    · rw [List.length_map]; exact a2
    · rw [a3, hlen, hl]; rfl
    · intro j hj
      rw [a3]
      exact h1 j (by omega)
    · rw [a3]
      refine ih _ (by rw [grow_length, hl]) ?_
      intro j hj
      rw [grow_getD (by omega)]
      have hj1 := h1 j hj
      have hstep := decShape_getD (st := st) (shape := (decShape st)^[n] x.shape) hn
        (fun s hs => by rw [hlen]; exact (hb s hs).1)
      rw [Function.iterate_succ_apply'] at hj1 ⊢
      split at hj1
      · rename_i hja
        rw [if_pos hja, if_pos hja]
        obtain ⟨s, hs, rfl⟩ := List.mem_map.mp hja
        have e := hstep.2 s hs
        have := le_two_mul_coeffLen (mode := s.2.2) (N := ((decShape st)^[n] x.shape).getD s.1 0)
          (F := s.2.1.dec_len) (by have := (hb s hs).2; unfold Wavelet.Ok at this; unfold Wavelet.dec_len; omega)
        omega
      · rename_i hja
        rw [if_neg hja, if_neg hja]
        rw [← hj1]
        exact (hstep.1 j hja).symm

/-! ### When the packing is tight -/

theorem grow_self_prod {ax c : List ℕ} (hn : ax.Nodup) (hb : ∀ j ∈ ax, j < c.length) :
    (grow ax c c).prod = 2 ^ ax.length * c.prod := by
  rw [← prod_getD_fin (grow ax c c) (grow_length ax c c), ← prod_getD_fin c rfl,
    ← Finset.prod_range (fun k => (grow ax c c).getD k 0),
    ← Finset.prod_range (fun k => c.getD k 0)]
  have h1 : ∀ k ∈ range c.length, (grow ax c c).getD k 0 =
      (if k ∈ ax then 2 else 1) * c.getD k 0 := by
    intro k hk
    rw [grow_getD (Finset.mem_range.mp hk)]
    split <;> omega
  rw [Finset.prod_congr rfl h1, Finset.prod_mul_distrib]
  congr 1
  rw [Finset.prod_ite, Finset.prod_const, Finset.prod_const_one, mul_one]
  congr 1
  rw [← List.toFinset_card_of_nodup hn]
  congr 1
  ext k
  simp only [Finset.mem_filter, Finset.mem_range, List.mem_toFinset]
  exact ⟨fun h => h.2, fun h => ⟨hb k h, h⟩⟩

theorem filter_words_length (n : ℕ) :
    ((words n).filter fun k => k ≠ List.replicate n 'a').length + 1 = 2 ^ n := by
  have h1 := List.countP_eq_length_filter (p := fun k : Key => decide (k ≠ List.replicate n 'a'))
    (l := words n)
  have h2 := List.length_eq_countP_add_countP (l := words n)
    (fun k : Key => decide (k ≠ List.replicate n 'a'))
  have h3 : List.countP (fun a : Key => decide ¬(decide (a ≠ List.replicate n 'a') = true)) (words n) =
      List.count (List.replicate n 'a') (words n) := by
    rw [List.count]
    apply List.countP_congr
    intro k _
    simp
  rw [h3, List.count_eq_one_of_mem (words_nodup n) (replicate_a_mem n), words_length] at h2
  rw [← h1]
  omega

theorem tight_cascade_aux {st : List (Stage R)} (hne : st ≠ []) {x : Arr M}
    (hn : (st.map (·.1)).Nodup) (hb : ∀ s ∈ st, s.1 < x.ndim)
    (hper : ∀ s ∈ st, s.2.2 = .periodization) (n : ℕ)
    (hdiv : ∀ s ∈ st, 2 ^ n ∣ x.shape.getD s.1 0) :
    packedShape (st.map (·.1)) ((decShape st)^[n] x.shape)
        ((List.range n).map fun j => x.detailsN st j).reverse = x.shape ∧
      (∀ s ∈ st, ((decShape st)^[n] x.shape).getD s.1 0 * 2 ^ n = x.shape.getD s.1 0) ∧
      x.shape.prod = ((decShape st)^[n] x.shape).prod +
        ((((List.range n).map fun j => x.detailsN st j).reverse).map
          fun d => (d.map fun p => p.2.data.length).sum).sum := by
  have hlen : ∀ k, ((decShape st)^[k] x.shape).length = x.shape.length := by
    intro k
    induction k with
    | zero => rfl
    | succ k ih => rw [Function.iterate_succ_apply', decShape_length, ih]
  induction n with
  | zero => exact ⟨rfl, fun s _ => by simp, by simp⟩
  | succ n ih =>
    obtain ⟨i1, i2, i3⟩ := ih fun s hs => (pow_dvd_pow 2 (Nat.le_succ n)).trans (hdiv s hs)
    obtain ⟨a1, a2, a3⟩ := levelShape_detailsN hne n x
    have hstep := decShape_getD (st := st) (shape := (decShape st)^[n] x.shape) hn
      (fun s hs => by rw [hlen]; exact hb s hs)
    have hhalf : ∀ s ∈ st, 2 * ((decShape st)^[n + 1] x.shape).getD s.1 0 =
        ((decShape st)^[n] x.shape).getD s.1 0 := by
      intro s hs
      have e := hstep.2 s hs
      rw [hper s hs, coeffLen, if_pos rfl] at e
      rw [Function.iterate_succ_apply', e]
      have hd := hdiv s hs
      rw [← i2 s hs, pow_succ, mul_comm (2 ^ n) 2] at hd
      have : 2 ∣ ((decShape st)^[n] x.shape).getD s.1 0 :=
        Nat.dvd_of_mul_dvd_mul_right (by positivity) hd
      omega
    have hgrow : grow (st.map (·.1)) ((decShape st)^[n + 1] x.shape)
        ((decShape st)^[n + 1] x.shape) = (decShape st)^[n] x.shape := by
      apply List.ext_getElem
      · rw [grow_length, hlen, hlen]
      intro j h1 h2
      rw [grow_length] at h1
      rw [← List.getD_eq_getElem (d := 0) (hn := by rw [grow_length]; exact h1),
        ← List.getD_eq_getElem (d := 0) (hn := h2), grow_getD h1]
      split
      · rename_i hj
        obtain ⟨s, hs, rfl⟩ := List.mem_map.mp hj
        rw [← hhalf s hs]
        omega
      · rename_i hj
        rw [Function.iterate_succ_apply', hstep.1 j hj]
    have hrev : ((List.range (n + 1)).map fun j => x.detailsN st j).reverse =
        x.detailsN st n :: ((List.range n).map fun j => x.detailsN st j).reverse := by
      rw [List.range_succ, List.map_append, List.reverse_append]
      rfl
    rw [hrev, packedShape, a3, hgrow]
    refine ⟨i1, ?_, ?_⟩
    · intro s hs
      rw [← i2 s hs, ← hhalf s hs]
      ring
    · rw [i3, List.map_cons, List.sum_cons, ← Nat.add_assoc]
      congr 1
      have hsum : ((x.detailsN st n).map fun p => p.2.data.length).sum =
          (x.detailsN st n).length * ((decShape st)^[n + 1] x.shape).prod := by
        have : ∀ p ∈ x.detailsN st n, p.2.data.length = ((decShape st)^[n + 1] x.shape).prod :=
          fun p hp => by rw [p.2.ok, (a1 p hp).2.2]
        rw [List.map_congr_left this, List.map_const', List.sum_replicate, smul_eq_mul]
      have hcount : (x.detailsN st n).length + 1 = 2 ^ st.length := by
        unfold Arr.detailsN
        rw [List.length_map]
        exact filter_words_length _
      have hp := grow_self_prod (ax := st.map (·.1)) (c := (decShape st)^[n + 1] x.shape) hn
        (fun j hj => by
          obtain ⟨s, hs, rfl⟩ := List.mem_map.mp hj
          rw [hlen]; exact hb s hs)
      rw [hgrow, List.length_map, ← hcount] at hp
      rw [hsum, hp]
      ring

/-! ### 1-D -/

theorem packable_cascade1_aux {w : Wavelet R} (hw : w.Ok) {mode : Mode} {x : List M} (n cur : ℕ)
    (h : approxLen mode w.dec_len x.length n ≤ cur) :
    Packable [0] [cur] (single (((List.range n).map fun j =>
      Arr.ofList (detail mode w.dec_lo w.dec_hi j x)).reverse)) := by
  have h3 : w.dec_hi.length = w.dec_lo.length := hw.2.2.1
  have hlen : ∀ j, (detail mode w.dec_lo w.dec_hi j x).length =
      approxLen mode w.dec_len x.length (j + 1) := by
    intro j
    have : (approx mode w.dec_lo j x).length = approxLen mode w.dec_len x.length j :=
      approx_length _ _ _ _
    unfold detail
    rw [analysis_length, this, h3, approxLen, approxLen, Function.iterate_succ_apply']
    rfl
  induction n generalizing cur with
  | zero => trivial
  | succ n ih =>
    rw [List.range_succ, List.map_append, List.reverse_append]
    simp only [List.map_cons, List.map_nil, List.reverse_cons, List.reverse_nil, List.nil_append,
      List.cons_append, single, Packable, levelShape]
    have hs : (Arr.ofList (detail mode w.dec_lo w.dec_hi n x)).shape =
        [approxLen mode w.dec_len x.length (n + 1)] := by
      simp only [Arr.ofList, hlen]
    refine ⟨by simp, ?_, by simp, ?_, ?_, ?_⟩
    · intro p hp
      simp only [List.mem_singleton] at hp
      subst hp
      exact ⟨by simp [words], by simp, rfl⟩
    · rw [hs]; rfl
    · intro j hj
      have : j = 0 := by simpa using hj
      subst this
      rw [hs]
      simpa using h
    · rw [hs]
      have hg : grow [0] [cur] [approxLen mode w.dec_len x.length (n + 1)] =
          [cur + approxLen mode w.dec_len x.length (n + 1)] := by simp [grow]
      rw [hg]
      refine ih _ ?_
      have h2 := le_two_mul_coeffLen (mode := mode) (N := approxLen mode w.dec_len x.length n)
        (F := w.dec_len) hw.1
      have e : approxLen mode w.dec_len x.length (n + 1) =
          coeffLen mode (approxLen mode w.dec_len x.length n) w.dec_len := by
        rw [approxLen, Function.iterate_succ_apply']
        rfl
      omega

theorem resolves_axesAre {ndim : ℕ} {wavelet : PerAxis (Wavelet R)} {mode : PerAxis Mode}
    {axes : Option (List ℤ)} {st : List (Stage R)} (hr : Resolves ndim wavelet mode axes st)
    (hb : ∀ s ∈ st, s.1 < ndim) (hn : (st.map (·.1)).Nodup) :
    AxesAre ndim axes (st.map (·.1)) := by
  refine ⟨?_, hn, ?_⟩
  · cases axes with
    | none => exact hr.1
    | some l =>
      have := hr.1
      simp only at this ⊢
      rw [← this, List.map_map]
      rfl
  · intro j hj
    obtain ⟨s, hs, rfl⟩ := List.mem_map.mp hj
    exact hb s hs

/-- The coefficients of `n` levels can be packed. -/
theorem packable_cascade {x : Arr M} {st : List (Stage R)} (hne : st ≠ [])
    (hb : ∀ s ∈ st, s.1 < x.ndim ∧ s.2.1.Ok) (hn : (st.map (·.1)).Nodup) (n : ℕ) :
    x.cascadeN st n = .arr (x.approxN st n) ::
        (((List.range n).map fun j => x.detailsN st j).reverse).map Item.ofDict ∧
      (x.approxN st n).ndim = x.ndim ∧
      Packable (st.map (·.1)) (x.approxN st n).shape
        ((List.range n).map fun j => x.detailsN st j).reverse := by
  have hlen : ∀ k, ((decShape st)^[k] x.shape).length = x.shape.length := by
    intro k
    induction k with
    | zero => rfl
    | succ k ih => rw [Function.iterate_succ_apply', decShape_length, ih]
  refine ⟨?_, ?_, ?_⟩
  · unfold Arr.cascadeN
    rw [List.map_reverse, List.map_map]
    rfl
  · unfold Arr.ndim
    rw [Arr.shape_approxN, hlen]
  · rw [Arr.shape_approxN]
    refine packable_cascade_aux hne hn hb n _ (hlen n) fun j _ => ?_
    split
    · exact le_rfl
    · rfl

end

end Pywt
