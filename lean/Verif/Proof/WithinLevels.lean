import Verif.Proof.WithinN
import Verif.Proof.WaverecN

/-!
# Inverting several levels of the n-D transform with filters that reconstruct up to an error, in exact arithmetic
-/

set_option linter.unusedSectionVars false
set_option autoImplicit false

namespace Pywt

open Finset Spec

theorem stagesErr_append {ε B : ℝ} (l m : List (Wavelet ℝ × Mode)) : ∀ t : ℝ,
    stagesErr ε B (l ++ m) t = stagesErr ε B m (stagesErr ε B l t) := by
  induction l with
  | nil => intro t; rfl
  | cons s l ih => intro t; exact ih _

theorem stagesErr_nonneg {ε B : ℝ} (hε : 0 ≤ ε) (hB : 0 ≤ B) (l : List (Wavelet ℝ × Mode)) : ∀ {t : ℝ}, 0 ≤ t →
    0 ≤ stagesErr ε B l t := by
  induction l with
  | nil => intro t ht; exact ht
  | cons s l ih => intro t ht; exact ih (stages_err_nonneg ht hε hB)

/-- `idwtn` of a dict that holds nearly all subbands of `x`, in whatever order. -/
theorem idwtn_bands_within {ε B : ℝ} (hε : 0 ≤ ε) (hB0 : 0 ≤ B) {x : Arr ℝ} {wavelet : PerAxis (Wavelet ℝ)}
    {mode : PerAxis Mode} {axes : Option (List ℤ)} {st : List (Stage ℝ)}
    (hr : Resolves x.ndim wavelet mode axes st) (hinv : StagesNear ε st x.shape)
    (hB : ∀ st', st' <+: st → ∀ k ∈ words st'.length, ∀ v ∈ (x.subband st' k).data, |v| ≤ B) {t : ℝ} (ht : 0 ≤ t)
    {f : Key → Arr ℝ}
    (hf : ∀ k ∈ words st.length, (f k).shape = decShape st x.shape ∧ ArrWithin t (f k) (x.subband st k)) {c : CDict ℝ}
    (h1 : ∀ p ∈ c, p.1 ∈ words st.length ∧ p.2 = some (f p.1))
    (h2 : ∀ k ∈ words st.length, k ∈ c.map (·.1)) :
    ∃ y, idwtn c wavelet mode axes = .ok (some y) ∧ y.shape.length = x.shape.length ∧
      (∀ s ∈ st, y.shape.getD s.1 0 = x.shape.getD s.1 0 + x.shape.getD s.1 0 % 2) ∧
      (∀ j, j ∉ st.map (·.1) → y.shape.getD j 0 = x.shape.getD j 0) ∧
      ArrWithin (stagesErr ε B (st.map (·.2)).reverse t) y x := by
  have hdl := decShape_length st x.shape
  have hg := decShape_getD hinv.1 fun s hs => (hinv.2 s hs).1
  have hdrop := dropNone_map_some fun p hp => ⟨_, (h1 p hp).2⟩
  obtain ⟨c', y, e1, e2, e3, e4, e5, e6⟩ := idwtnLoop_within hε hB0 hinv hB ht (S := decShape st x.shape) hdl
    hg.2 (c := c) (by
      intro k hk
      refine ⟨f k, ?_, (hf k hk).1, (hf k hk).2⟩
      unfold CDict.get
      rw [lookup_of_forall (f := fun k => some (f k)) (fun p hp => (h1 p hp).2) (h2 k hk)]
      rfl)
  refine ⟨y, ?_, e3, e4, ?_, e6⟩
  · rw [idwtn_some (st := st) (S := decShape st x.shape)]
    · rw [hdrop, hdl, e1]
      simp only [Py_bind_ok, lookupKey, e2]
    · intro p hp
      have := h1 _ (mem_dropNone.mp hp)
      simp only [Option.some.injEq] at this
      exact ⟨this.1, by rw [this.2]; exact (hf _ this.1).1⟩
    · obtain ⟨k0, l, hw⟩ := words_ne_nil st.length
      obtain ⟨p, hp, hpk⟩ := List.mem_map.mp (h2 k0 (by rw [hw]; simp))
      intro hcon
      have : (p.1, f p.1) ∈ dropNone c := by
        rw [mem_dropNone]
        have := (h1 p hp).2
        rw [← this]
        exact hp
      rw [hcon] at this
      simp at this
    · rw [hdl]; exact hr
  · intro j hj
    rw [e5 j hj, hg.1 j hj]

theorem idwtn_details_within {ε B : ℝ} (hε : 0 ≤ ε) (hB0 : 0 ≤ B) {x : Arr ℝ} {wavelet : PerAxis (Wavelet ℝ)}
    {mode : PerAxis Mode} {axes : List ℤ} {st : List (Stage ℝ)} (hr : Resolves x.ndim wavelet mode (some axes) st)
    {n : ℕ} (hinv : StagesNear ε st (x.approxN st n).shape)
    (hB : ∀ st', st' <+: st → ∀ k ∈ words st'.length, ∀ v ∈ ((x.approxN st n).subband st' k).data, |v| ≤ B) {t : ℝ}
    (ht : 0 ≤ t) {b : Arr ℝ} (hb : b.shape = (x.approxN st (n + 1)).shape) (hbt : ArrWithin t b (x.approxN st (n + 1))) :
    ∃ y, idwtn (dictSet ((x.detailsN st n).map fun p => (p.1, some p.2)) (aKey axes.length)
        (some b)) wavelet mode (some axes) = .ok (some y) ∧
      y.shape.length = (x.approxN st n).shape.length ∧
      (∀ s ∈ st, y.shape.getD s.1 0 =
        (x.approxN st n).shape.getD s.1 0 + (x.approxN st n).shape.getD s.1 0 % 2) ∧
      (∀ j, j ∉ st.map (·.1) → y.shape.getD j 0 = (x.approxN st n).shape.getD j 0) ∧
      ArrWithin (stagesErr ε B (st.map (·.2)).reverse t) y (x.approxN st n) := by
  have hlen : axes.length = st.length := hr.length
  have hkeys : ((x.detailsN st n).map fun p => (p.1, some p.2)).map (·.1) =
      (words st.length).filter fun k => k ≠ List.replicate st.length 'a' := by
    rw [List.map_map]
    exact detailsN_keys st n x
  rw [dictSet_not_mem (by rw [hkeys, hlen]; simp [aKey])]
  refine idwtn_bands_within hε hB0 (by rw [Arr.approxN_ndim]; exact hr) hinv hB ht
    (f := fun k => if k = List.replicate st.length 'a' then b else (x.approxN st n).subband st k) ?_ ?_ ?_
  · intro k hk
    by_cases h : k = List.replicate st.length 'a'
    · rw [if_pos h]
      subst h
      rw [hb, ← Arr.approxN_succ]
      refine ⟨?_, hbt⟩
      rw [Arr.approxN_succ, shape_subband (by simp)]
    · rw [if_neg h]
      exact ⟨shape_subband (mem_words.mp hk).1 _, arrWithin_refl ht _⟩
  · intro p hp
    rcases List.mem_append.mp hp with hp | hp
    · obtain ⟨q, hq, rfl⟩ := List.mem_map.mp hp
      obtain ⟨h1, h2, h3⟩ := mem_detailsN hq
      refine ⟨h1, ?_⟩
      simp only
      rw [if_neg h2, h3]
    · simp only [List.mem_singleton] at hp
      subst hp
      simp only [aKey, hlen, if_true]
      exact ⟨replicate_a_mem _, trivial⟩
  · intro k hk
    rw [List.map_append, List.mem_append, hkeys]
    by_cases h : k = List.replicate st.length 'a'
    · right; simp [aKey, hlen, h]
    · left; rw [List.mem_filter]; exact ⟨hk, by simpa using h⟩

theorem matchIf_within {x a : Arr ℝ} {st : List (Stage ℝ)} (hne : st ≠ []) {n : ℕ} {first : Bool} {t : ℝ}
    (ha : ArrWithin t a (x.approxN st (n + 1))) (hnear : Near a.shape (x.approxN st (n + 1)).shape)
    (hf : first = true → a.shape = (x.approxN st (n + 1)).shape) :
    ∃ b, matchIf first (some a) (x.detailsN st n) = .ok (some b) ∧ b.shape = (x.approxN st (n + 1)).shape ∧
      ArrWithin t b (x.approxN st (n + 1)) := by
  cases first with
  | true => exact ⟨a, rfl, hf rfl, ha⟩
  | false =>
    obtain ⟨p, l, hd⟩ := detailsN_ne_nil hne n x
    have hp : p ∈ x.detailsN st n := by rw [hd]; simp
    obtain ⟨h1, -, h3⟩ := mem_detailsN hp
    have hsh : p.2.shape = (x.approxN st (n + 1)).shape := by
      rw [h3, Arr.approxN_succ, shape_subband (mem_words.mp h1).1, shape_subband (by simp)]
    obtain ⟨k, v⟩ := p
    simp only at hsh
    refine ⟨a.crop (x.approxN st (n + 1)).shape, ?_, rfl, ?_⟩
    · rw [hd]
      simp only [matchIf, matchCoeffDims, Bool.false_eq_true, if_false]
      rw [hsh, if_pos (sizesMatch_of_near hnear)]
      rfl
    · refine ⟨rfl, fun _ _ => le_rfl, fun idx hidx => ?_⟩
      rw [Arr.crop_get ha.1.symm hidx]
      exact ha.2.2 idx hidx

theorem stagesNear_of_ok {ε : ℝ} {st : List (Stage ℝ)} {shape : List ℕ} (h : StagesOk st shape)
    (hn : (st.map (·.1)).Nodup)
    (hpr : ∀ s ∈ st, PRWithin ε s.2.1.dec_lo s.2.1.dec_hi s.2.1.rec_lo s.2.1.rec_hi) :
    StagesNear ε st shape := by
  refine ⟨hn, ?_⟩
  induction st generalizing shape with
  | nil => intro s hs; simp at hs
  | cons t st ih =>
    simp only [List.map_cons, List.nodup_cons] at hn
    obtain ⟨a1, a2, a3, a4⟩ := h
    intro s hs
    rcases List.mem_cons.mp hs with rfl | hs
    · exact ⟨a1, a2, hpr _ (by simp), a3⟩
    · obtain ⟨b1, b2, b3, b4⟩ := ih a4 hn.2 (fun s hs => hpr s (by simp [hs])) s hs
      refine ⟨by simpa using b1, b2, b3, ?_⟩
      rw [getD_set a1, if_neg] at b4
      · exact b4
      · intro h
        exact hn.1 (h ▸ List.mem_map_of_mem hs)

theorem waverecnLoop_within {ε B : ℝ} (hε : 0 ≤ ε) (hB0 : 0 ≤ B) {x : Arr ℝ} {wavelet : PerAxis (Wavelet ℝ)}
    {mode : PerAxis Mode} {axes : List ℤ} {st : List (Stage ℝ)} (hr : Resolves x.ndim wavelet mode (some axes) st)
    (hne : st ≠ []) (hn : (st.map (·.1)).Nodup)
    (hpr : ∀ s ∈ st, PRWithin ε s.2.1.dec_lo s.2.1.dec_hi s.2.1.rec_lo s.2.1.rec_hi) (n : ℕ)
    (hB : ∀ j < n, ∀ st', st' <+: st → ∀ k ∈ words st'.length, ∀ v ∈ ((x.approxN st j).subband st' k).data, |v| ≤ B) :
    ∀ (a : Arr ℝ) (first : Bool) (t : ℝ), 0 ≤ t → LevelsOkN st x.shape n → ArrWithin t a (x.approxN st n) →
      Near a.shape (x.approxN st n).shape → (first = true → a.shape = (x.approxN st n).shape) →
      ∃ y, waverecnLoop wavelet mode axes first (some a)
          (((List.range n).map fun j => x.detailsN st j).reverse) = .ok (some y) ∧
        (n = 0 → y = a) ∧
        (1 ≤ n → y.shape.length = x.shape.length ∧
          (∀ s ∈ st, y.shape.getD s.1 0 = x.shape.getD s.1 0 + x.shape.getD s.1 0 % 2) ∧
          (∀ j, j ∉ st.map (·.1) → y.shape.getD j 0 = x.shape.getD j 0)) ∧
        ArrWithin (stagesErr ε B (levels n (st.map (·.2)).reverse) t) y x := by
  induction n with
  | zero =>
    intro a first t _ _ ha _ _
    exact ⟨a, rfl, fun _ => rfl, fun h => absurd h (by omega), ha⟩
  | succ n ih =>
    intro a first t ht hlv ha hnear hf
    have hst : StagesOk st (x.approxN st n).shape := by
      rw [Arr.shape_approxN]; exact hlv n (by omega)
    obtain ⟨b, m1, m2, m3⟩ := matchIf_within hne ha hnear hf
    obtain ⟨y, e1, e2, e3, e4, e5⟩ := idwtn_details_within hε hB0 hr (n := n) (stagesNear_of_ok hst hn hpr)
      (hB n (by omega)) ht m2 m3
    obtain ⟨z, z1, z2, z3, z4⟩ := ih (fun j hj => hB j (by omega)) y false _ (stagesErr_nonneg hε hB0 _ ht)
      (fun j hj => hlv j (by omega)) e5 (near_of_parity e2 e3 e4) (by simp)
    refine ⟨z, ?_, by omega, ?_, ?_⟩
    · rw [List.range_succ, List.map_append, List.reverse_append]
      have e0 : ¬ ((some a).isNone = true ∧ (x.detailsN st n).isEmpty = true) := by simp
      simp only [List.map_cons, List.map_nil, List.reverse_cons, List.reverse_nil, List.nil_append,
        List.cons_append, waverecnLoop, if_neg e0, m1, Py_bind_ok, e1]
      exact z1
    · intro _
      cases n with
      | zero =>
        rw [z2 rfl]
        exact ⟨e2, e3, e4⟩
      | succ n => exact z3 (by omega)
    · have : levels (n + 1) (st.map (·.2)).reverse = (st.map (·.2)).reverse ++ levels n (st.map (·.2)).reverse := by
        simp [levels, List.replicate_succ]
      rw [this, stagesErr_append]
      exact z4

theorem waverecn_within {ε B : ℝ} (hε : 0 ≤ ε) (hB0 : 0 ≤ B) {x : Arr ℝ} {wavelet : PerAxis (Wavelet ℝ)}
    {mode : PerAxis Mode} {axes : Option (List ℤ)} {st : List (Stage ℝ)} (hr : Resolves x.ndim wavelet mode axes st)
    (hne : st ≠ []) (hn : (st.map (·.1)).Nodup)
    (hpr : ∀ s ∈ st, PRWithin ε s.2.1.dec_lo s.2.1.dec_hi s.2.1.rec_lo s.2.1.rec_hi) {n : ℕ} (h1n : 1 ≤ n)
    (hB : ∀ j < n, ∀ st', st' <+: st → ∀ k ∈ words st'.length, ∀ v ∈ ((x.approxN st j).subband st' k).data, |v| ≤ B)
    (hlv : LevelsOkN st x.shape n) :
    ∃ y, waverecn (x.cascadeN st n) wavelet mode axes = .ok (.arr y) ∧
      y.shape.length = x.shape.length ∧
      (∀ s ∈ st, y.shape.getD s.1 0 = x.shape.getD s.1 0 + x.shape.getD s.1 0 % 2) ∧
      (∀ j, j ∉ st.map (·.1) → y.shape.getD j 0 = x.shape.getD j 0) ∧
      ArrWithin (stagesErr ε B (levels n (st.map (·.2)).reverse) 0) y x := by
  cases n with
  | zero => omega
  | succ n =>
    obtain ⟨y, e1, -, e3, e4⟩ := waverecnLoop_within hε hB0 hr.toSome hne hn hpr (n + 1) hB
      (x.approxN st (n + 1)) true 0 le_rfl hlv (arrWithin_refl le_rfl _) (Near.refl _) fun _ => rfl
    obtain ⟨g1, g2, g3⟩ := e3 h1n
    refine ⟨y, ?_, g1, g2, g3, e4⟩
    set ds := ((List.range (n + 1)).map fun j => x.detailsN st j).reverse with hds
    have hitems : ((List.range (n + 1)).map fun j => Item.ofDict (x.detailsN st j)).reverse =
        ds.map Item.ofDict := by
      rw [hds, List.map_reverse, List.map_map]
      rfl
    have hmem : ∀ d ∈ ds, ∃ j, d = x.detailsN st j := by
      intro d hd
      rw [hds, List.mem_reverse, List.mem_map] at hd
      obtain ⟨j, -, rfl⟩ := hd
      exact ⟨j, rfl⟩
    have hfix : fixAll (ds.map Item.ofDict) = .ok ds := by
      apply fixAll_ok (n := st.length)
      intro d hd p hp
      obtain ⟨j, rfl⟩ := hmem d hd
      exact (mem_detailsN hp).1
    have e0 : ¬ ¬ ((ds.map Item.ofDict).all Item.isDict) = true := by
      rw [not_not, List.all_map, List.all_eq_true]
      intro d _
      rfl
    have e2 : ¬ ds.isEmpty = true := by
      rw [hds]; simp
    have e5 : ¬ ((some (x.approxN st (n + 1))).isNone = true ∧ ds.all List.isEmpty = true) := by simp
    have hnd : coeffNdims (some (x.approxN st (n + 1))) ds = (x.approxN st (n + 1)).ndim ::
        ds.flatMap fun d => d.map fun p => p.2.ndim := rfl
    have e6 : ¬ (ds.flatMap fun d => d.map fun p => p.2.ndim).any
        (· ≠ (x.approxN st (n + 1)).ndim) = true := by
      rw [Bool.not_eq_true, List.any_eq_false]
      intro m hm
      obtain ⟨d, hd, hm⟩ := List.mem_flatMap.mp hm
      obtain ⟨p, hp, rfl⟩ := List.mem_map.mp hm
      obtain ⟨j, rfl⟩ := hmem d hd
      have h := mem_detailsN hp
      have : p.2.ndim = x.ndim := by
        rw [h.2.2]
        unfold Arr.ndim
        rw [shape_subband (mem_words.mp h.1).1, decShape_length]
        exact Arr.approxN_ndim st j x
      rw [Arr.approxN_ndim, this]
      simp
    have e7 : ¬ ¬ (axes.getD (rangeAxes (x.approxN st (n + 1)).ndim)).Nodup := by
      rw [not_not, Arr.approxN_ndim]
      apply normAxes_nodup (ndim := x.ndim)
      rw [hr.axes_eq]
      have : (st.map fun s : Stage ℝ => (s.1 : ℤ)) = (st.map (·.1)).map fun n : ℕ => (n : ℤ) := by
        rw [List.map_map]; rfl
      rw [this]
      exact hn.map fun a b h => by simpa using h
    simp only [Arr.cascadeN, hitems, waverecn, if_neg e0, hfix, Py_bind_ok, if_neg e2,
      Item.toOption, Py_pure, if_neg e5, hnd, if_neg e6, if_neg e7]
    rw [Arr.approxN_ndim, e1]
    rfl

end Pywt
