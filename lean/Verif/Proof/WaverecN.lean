import Verif.Proof.MultilevelN
import Verif.Spec.RecN

/-! `waverecn` and `waverec2` invert the cascade. -/

namespace Pywt

open Finset Spec

set_option linter.unusedSectionVars false

variable {R M : Type} [Ring R] [AddCommGroup M] [Module R M]

theorem dropNone_map_some {c : CDict M} (h : ∀ p ∈ c, ∃ y, p.2 = some y) :
    ((dropNone c).map fun p => (p.1, some p.2)) = c := by
  induction c with
  | nil => rfl
  | cons p c ih =>
    obtain ⟨y, hy⟩ := h p (by simp)
    obtain ⟨k, v⟩ := p
    simp only at hy
    subst hy
    have := ih fun p hp => h p (by simp [hp])
    unfold dropNone at this ⊢
    simp only [List.filterMap_cons, Option.map_some, List.map_cons]
    rw [this]

theorem dropNone_of_some (d : List (Key × Arr M)) :
    dropNone (d.map fun p => (p.1, some p.2)) = d := by
  unfold dropNone
  rw [List.filterMap_map]
  induction d with
  | nil => rfl
  | cons p d ih => simp

theorem lookup_of_forall {α : Type} {c : List (Key × α)} {f : Key → α} (h : ∀ p ∈ c, p.2 = f p.1)
    {k : Key} (hk : k ∈ c.map (·.1)) : c.lookup k = some (f k) := by
  induction c with
  | nil => simp at hk
  | cons p c ih =>
    obtain ⟨k', v⟩ := p
    rw [List.lookup_cons]
    by_cases hkk : k = k'
    · subst hkk
      simp only [beq_self_eq_true]
      exact congrArg some (h (k, v) (by simp))
    · rw [beq_false_of_ne hkk]
      exact ih (fun p hp => h p (by simp [hp])) (by simpa [hkk] using hk)

/-- `idwtn` of a dict that holds all subbands of `x`, in whatever order. -/
theorem idwtn_bands {x : Arr M} {wavelet : PerAxis (Wavelet R)} {mode : PerAxis Mode}
    {axes : Option (List ℤ)} {st : List (Stage R)}
    (hr : Resolves x.ndim wavelet mode axes st) (hinv : StagesInv st x.shape) {c : CDict M}
    (h1 : ∀ p ∈ c, p.1 ∈ words st.length ∧ p.2 = some (x.subband st p.1))
    (h2 : ∀ k ∈ words st.length, k ∈ c.map (·.1)) :
    ∃ y, idwtn c wavelet mode axes = .ok (some y) ∧ y.shape.length = x.shape.length ∧
      (∀ s ∈ st, y.shape.getD s.1 0 = x.shape.getD s.1 0 + x.shape.getD s.1 0 % 2) ∧
      (∀ j, j ∉ st.map (·.1) → y.shape.getD j 0 = x.shape.getD j 0) ∧ y.Extends x := by
  have hdl := decShape_length st x.shape
  have hg := decShape_getD hinv.1 fun s hs => (hinv.2 s hs).1
  have hdrop := dropNone_map_some fun p hp => ⟨_, (h1 p hp).2⟩
  obtain ⟨c', y, e1, e2, e3, e4, e5, e6⟩ := idwtnLoop_ok hinv (S := decShape st x.shape) hdl
    hg.2 (c := c) (by
      intro k hk
      refine ⟨x.subband st k, ?_, shape_subband (mem_words.mp hk).1 x, Arr.Extends.refl _⟩
      unfold CDict.get
      rw [lookup_of_forall (f := fun k => some (x.subband st k)) (fun p hp => (h1 p hp).2) (h2 k hk)]
      rfl)
  refine ⟨y, ?_, e3, e4, ?_, e6⟩
  · rw [idwtn_some (st := st) (S := decShape st x.shape)]
    · rw [hdrop, hdl, e1]
      simp only [Py_bind_ok, lookupKey, e2]
    · intro p hp
      have := h1 _ (mem_dropNone.mp hp)
      simp only [Option.some.injEq] at this
      exact ⟨this.1, by rw [this.2]; exact shape_subband (mem_words.mp this.1).1 x⟩
    · obtain ⟨k0, l, hw⟩ := words_ne_nil st.length
      obtain ⟨p, hp, hpk⟩ := List.mem_map.mp (h2 k0 (by rw [hw]; simp))
      intro hcon
      have : (p.1, x.subband st p.1) ∈ dropNone c := by
        rw [mem_dropNone]
        have := (h1 p hp).2
        rw [← this]
        exact hp
      rw [hcon] at this
      simp at this
    · rw [hdl]; exact hr
  · intro j hj
    rw [e5 j hj, hg.1 j hj]

/-! ### Cropping -/

theorem Arr.crop_get {a : Arr M} {shape : List ℕ} (hs : shape.length = a.shape.length) {idx : ℕ → ℕ}
    (h : InB shape idx) : (a.crop shape).get idx = a.get idx := by
  unfold crop
  exact Arr.get_ofFn (fun f g hfg => a.get_congr fun k hk => hfg k (by omega)) h

theorem Arr.Extends.crop {a b : Arr M} (h : a.Extends b) : a.crop b.shape = b := by
  refine Arr.ext_get (by unfold Arr.crop; rw [Arr.shape_ofFn]) ?_
  intro idx hidx
  have hidx : InB b.shape idx := hidx
  rw [Arr.crop_get h.1.symm hidx, h.2.2 idx hidx]

theorem Near.refl (a : List ℕ) : Near a a := ⟨rfl, fun _ _ => .inl rfl⟩

theorem Near.tail {x y : ℕ} {a b : List ℕ} (h : Near (x :: a) (y :: b)) : Near a b :=
  ⟨by simpa using h.1, fun j hj => h.2 (j + 1) (by simpa using hj)⟩

theorem sizesMatch_of_near {a b : List ℕ} (h : Near a b) : sizesMatch a b = true := by
  unfold sizesMatch
  rw [Bool.and_eq_true]
  refine ⟨by simpa using h.1, ?_⟩
  induction a generalizing b with
  | nil => rfl
  | cons x a ih => cases b with
    | nil => rfl
    | cons y b =>
      simp only [List.zip_cons_cons, List.all_cons, Bool.and_eq_true, Bool.or_eq_true,
        decide_eq_true_eq]
      exact ⟨h.2 0 (by simp), ih h.tail⟩

theorem trimShape_of_near {a b : List ℕ} (h : Near a b) : trimShape a b = b := by
  induction a generalizing b with
  | nil => cases b with
    | nil => rfl
    | cons y b => have := h.1; simp at this
  | cons x a ih => cases b with
    | nil => have := h.1; simp at this
    | cons y b =>
      simp only [trimShape, ih h.tail]
      have := h.2 0 (by simp)
      simp only [List.getD_cons_zero] at this
      congr 1
      split <;> omega

/-! ### The stages at every level -/

theorem StagesOk.invertible {st : List (Stage R)} {shape : List ℕ} (h : StagesOk st shape)
    (hn : (st.map (·.1)).Nodup)
    (hpr : ∀ s ∈ st, PR s.2.1.dec_lo s.2.1.dec_hi s.2.1.rec_lo s.2.1.rec_hi) :
    StagesInv st shape := by
  refine ⟨hn, ?_⟩
  induction st generalizing shape with
  | nil => intro s hs; simp at hs
  | cons t st ih =>
    simp only [List.map_cons, List.nodup_cons] at hn
    obtain ⟨a1, a2, a3, a4⟩ := h
    intro s hs
    rcases List.mem_cons.mp hs with rfl | hs
    · exact ⟨a1, a2, hpr _ (by simp), a3⟩
    · obtain ⟨b1, b2, b3, b4⟩ := ih a4 hn.2 (fun s hs => hpr s (by simp [hs])) s hs
      refine ⟨by simpa using b1, b2, b3, ?_⟩
      rw [getD_set a1, if_neg] at b4
      · exact b4
      · intro h
        exact hn.1 (h ▸ List.mem_map_of_mem hs)

theorem Arr.approxN_ndim (st : List (Stage R)) (n : ℕ) (x : Arr M) :
    (x.approxN st n).ndim = x.ndim := by
  unfold Arr.ndim
  rw [Arr.shape_approxN]
  induction n with
  | zero => rfl
  | succ n ih => rw [Function.iterate_succ_apply', decShape_length, ih]

theorem Arr.approxN_succ (st : List (Stage R)) (n : ℕ) (x : Arr M) :
    x.approxN st (n + 1) = (x.approxN st n).subband st (List.replicate st.length 'a') := by
  unfold approxN
  rw [Function.iterate_succ_apply']

theorem near_of_parity {st : List (Stage R)} {a b : List ℕ} (hl : a.length = b.length)
    (h1 : ∀ s ∈ st, a.getD s.1 0 = b.getD s.1 0 + b.getD s.1 0 % 2)
    (h2 : ∀ j, j ∉ st.map (·.1) → a.getD j 0 = b.getD j 0) : Near a b := by
  refine ⟨hl, fun j _ => ?_⟩
  by_cases hj : j ∈ st.map (·.1)
  · obtain ⟨s, hs, rfl⟩ := List.mem_map.mp hj
    have := h1 s hs
    omega
  · exact .inl (h2 j hj)

/-! ### `waverecn` -/

theorem dictSet_not_mem {α : Type} {c : List (Key × α)} {k : Key} {v : α} (h : k ∉ c.map (·.1)) :
    dictSet c k v = c ++ [(k, v)] := by
  induction c with
  | nil => rfl
  | cons p c ih =>
    obtain ⟨k', v'⟩ := p
    simp only [List.map_cons, List.mem_cons, not_or] at h
    simp only [dictSet]
    rw [if_neg (fun e => h.1 e.symm), ih h.2, List.cons_append]

theorem detailsN_keys (st : List (Stage R)) (n : ℕ) (x : Arr M) :
    (x.detailsN st n).map (·.1) =
      (words st.length).filter fun k => k ≠ List.replicate st.length 'a' := by
  unfold Arr.detailsN
  rw [List.map_map]
  exact List.map_id _

theorem mem_detailsN {st : List (Stage R)} {n : ℕ} {x : Arr M} {p : Key × Arr M}
    (h : p ∈ x.detailsN st n) : p.1 ∈ words st.length ∧ p.1 ≠ List.replicate st.length 'a' ∧
      p.2 = (x.approxN st n).subband st p.1 := by
  unfold Arr.detailsN at h
  obtain ⟨k, hk, rfl⟩ := List.mem_map.mp h
  rw [List.mem_filter] at hk
  exact ⟨hk.1, by simpa using hk.2, rfl⟩

theorem detailsN_ne_nil {st : List (Stage R)} (hne : st ≠ []) (n : ℕ) (x : Arr M) :
    ∃ p l, x.detailsN st n = p :: l := by
  cases h : x.detailsN st n with
  | cons p l => exact ⟨p, l, rfl⟩
  | nil =>
    exfalso
    have hk := detailsN_keys st n x
    rw [h] at hk
    have : List.replicate st.length 'd' ∈
        (words st.length).filter fun k => k ≠ List.replicate st.length 'a' := by
      rw [List.mem_filter]
      refine ⟨mem_words.mpr ⟨by simp, fun c hc => .inr (List.eq_of_mem_replicate hc)⟩, ?_⟩
      cases st with
      | nil => exact absurd rfl hne
      | cons s st => simp [List.replicate_succ]
    rw [← hk] at this
    simp at this

theorem idwtn_details {x : Arr M} {wavelet : PerAxis (Wavelet R)} {mode : PerAxis Mode}
    {axes : List ℤ} {st : List (Stage R)} (hr : Resolves x.ndim wavelet mode (some axes) st)
    {n : ℕ} (hinv : StagesInv st (x.approxN st n).shape) :
    ∃ y, idwtn (dictSet ((x.detailsN st n).map fun p => (p.1, some p.2)) (aKey axes.length)
        (some (x.approxN st (n + 1)))) wavelet mode (some axes) = .ok (some y) ∧
      y.shape.length = (x.approxN st n).shape.length ∧
      (∀ s ∈ st, y.shape.getD s.1 0 =
        (x.approxN st n).shape.getD s.1 0 + (x.approxN st n).shape.getD s.1 0 % 2) ∧
      (∀ j, j ∉ st.map (·.1) → y.shape.getD j 0 = (x.approxN st n).shape.getD j 0) ∧
      y.Extends (x.approxN st n) := by
  have hlen : axes.length = st.length := hr.length
  have hkeys : ((x.detailsN st n).map fun p => (p.1, some p.2)).map (·.1) =
      (words st.length).filter fun k => k ≠ List.replicate st.length 'a' := by
    rw [List.map_map]
    exact detailsN_keys st n x
  rw [dictSet_not_mem (by rw [hkeys, hlen]; simp [aKey])]
  apply idwtn_bands (by rw [Arr.approxN_ndim]; exact hr) hinv
  · intro p hp
    rcases List.mem_append.mp hp with hp | hp
    · obtain ⟨q, hq, rfl⟩ := List.mem_map.mp hp
      obtain ⟨h1, -, h3⟩ := mem_detailsN hq
      exact ⟨h1, by rw [h3]⟩
    · simp only [List.mem_singleton] at hp
      subst hp
      simp only [aKey, hlen, Arr.approxN_succ]
      exact ⟨replicate_a_mem _, trivial⟩
  · intro k hk
    rw [List.map_append, List.mem_append, hkeys]
    by_cases h : k = List.replicate st.length 'a'
    · right; simp [aKey, hlen, h]
    · left; rw [List.mem_filter]; exact ⟨hk, by simpa using h⟩

theorem matchIf_ok {x a : Arr M} {st : List (Stage R)} (hne : st ≠ []) {n : ℕ} {first : Bool}
    (ha : a.Extends (x.approxN st (n + 1))) (hnear : Near a.shape (x.approxN st (n + 1)).shape)
    (hf : first = true → a = x.approxN st (n + 1)) :
    matchIf first (some a) (x.detailsN st n) = .ok (some (x.approxN st (n + 1))) := by
  cases first with
  | true => rw [hf rfl]; rfl
  | false =>
    obtain ⟨p, l, hd⟩ := detailsN_ne_nil hne n x
    have hp : p ∈ x.detailsN st n := by rw [hd]; simp
    obtain ⟨h1, -, h3⟩ := mem_detailsN hp
    have hsh : p.2.shape = (x.approxN st (n + 1)).shape := by
      rw [h3, Arr.approxN_succ, shape_subband (mem_words.mp h1).1, shape_subband (by simp)]
    obtain ⟨k, v⟩ := p
    simp only at hsh
    rw [hd]
    simp only [matchIf, matchCoeffDims, Bool.false_eq_true, if_false]
    rw [hsh, if_pos (sizesMatch_of_near hnear), ha.crop]
    rfl

theorem waverecnLoop_cascade {x : Arr M} {wavelet : PerAxis (Wavelet R)} {mode : PerAxis Mode}
    {axes : List ℤ} {st : List (Stage R)} (hr : Resolves x.ndim wavelet mode (some axes) st)
    (hne : st ≠ []) (hn : (st.map (·.1)).Nodup)
    (hpr : ∀ s ∈ st, PR s.2.1.dec_lo s.2.1.dec_hi s.2.1.rec_lo s.2.1.rec_hi) (n : ℕ) :
    ∀ (a : Arr M) (first : Bool), LevelsOkN st x.shape n → a.Extends (x.approxN st n) →
      Near a.shape (x.approxN st n).shape → (first = true → a = x.approxN st n) →
      ∃ y, waverecnLoop wavelet mode axes first (some a)
          (((List.range n).map fun j => x.detailsN st j).reverse) = .ok (some y) ∧
        (n = 0 → y = a) ∧
        (1 ≤ n → y.shape.length = x.shape.length ∧
          (∀ s ∈ st, y.shape.getD s.1 0 = x.shape.getD s.1 0 + x.shape.getD s.1 0 % 2) ∧
          (∀ j, j ∉ st.map (·.1) → y.shape.getD j 0 = x.shape.getD j 0)) ∧ y.Extends x := by
  induction n with
  | zero =>
    intro a first _ ha _ _
    exact ⟨a, rfl, fun _ => rfl, fun h => absurd h (by omega), ha⟩
  | succ n ih =>
    intro a first hlv ha hnear hf
    have hst : StagesOk st (x.approxN st n).shape := by
      rw [Arr.shape_approxN]; exact hlv n (by omega)
    obtain ⟨y, e1, e2, e3, e4, e5⟩ := idwtn_details hr (n := n) (hst.invertible hn hpr)
    obtain ⟨z, z1, z2, z3, z4⟩ := ih y false (fun j hj => hlv j (by omega)) e5
      (near_of_parity e2 e3 e4) (by simp)
    refine ⟨z, ?_, by omega, ?_, z4⟩
    · rw [List.range_succ, List.map_append, List.reverse_append]
      have e0 : ¬ ((some a).isNone = true ∧ (x.detailsN st n).isEmpty = true) := by simp
      simp only [List.map_cons, List.map_nil, List.reverse_cons, List.reverse_nil, List.nil_append,
        List.cons_append, waverecnLoop, if_neg e0, matchIf_ok hne ha hnear hf, Py_bind_ok, e1]
      exact z1
    · intro _
      cases n with
      | zero =>
        rw [z2 rfl]
        exact ⟨e2, e3, e4⟩
      | succ n => exact z3 (by omega)

theorem keysOk_of_mem {keys : List Key} {n : ℕ} (h : ∀ k ∈ keys, k ∈ words n) :
    keysOk keys = true := by
  unfold keysOk
  rw [Bool.and_eq_true]
  constructor
  · simp only [List.all_eq_true, Bool.or_eq_true, decide_eq_true_eq]
    exact fun k hk => (mem_words.mp (h k hk)).2
  · simp only [List.all_eq_true, decide_eq_true_eq]
    intro k hk
    cases keys with
    | nil => simp at hk
    | cons a l => rw [(mem_words.mp (h k hk)).1]; simp [(mem_words.mp (h a (by simp))).1]

theorem fixAll_ok {n : ℕ} {ds : List (List (Key × Arr M))} (h : ∀ d ∈ ds, ∀ p ∈ d, p.1 ∈ words n) :
    fixAll (ds.map Item.ofDict) = .ok ds := by
  induction ds with
  | nil => rfl
  | cons d ds ih =>
    have e1 : ¬ ((d.map fun p => (p.1, some p.2)).any fun p => p.2.isNone) = true := by
      simp
    have e2 : ¬ (!keysOk ((d.map fun p => (p.1, some p.2)).map (·.1))) = true := by
      rw [List.map_map]
      have : keysOk (d.map ((fun x : Key × Option (Arr M) => x.1) ∘ fun p => (p.1, some p.2))) = true := by
        apply keysOk_of_mem (n := n)
        intro k hk
        obtain ⟨p, hp, rfl⟩ := List.mem_map.mp hk
        exact h d (by simp) p hp
      rw [this]; simp
    have e3 : fixCoeffs (d.map fun p => (p.1, some p.2)) = .ok d := by
      unfold fixCoeffs
      rw [if_neg e1, if_neg e2, dropNone_of_some]
      rfl
    simp only [List.map_cons, fixAll, Item.ofDict, e3, Py_bind_ok]
    have := ih fun d hd => h d (by simp [hd])
    rw [this]
    rfl

theorem waverecn_cascade {x : Arr M} {wavelet : PerAxis (Wavelet R)} {mode : PerAxis Mode}
    {axes : Option (List ℤ)} {st : List (Stage R)} (hr : Resolves x.ndim wavelet mode axes st)
    (hne : st ≠ []) (hn : (st.map (·.1)).Nodup)
    (hpr : ∀ s ∈ st, PR s.2.1.dec_lo s.2.1.dec_hi s.2.1.rec_lo s.2.1.rec_hi) {n : ℕ}
    (hlv : LevelsOkN st x.shape n) :
    ∃ y, waverecn (x.cascadeN st n) wavelet mode axes = .ok (.arr y) ∧
        (n = 0 → y = x) ∧
        (1 ≤ n → y.shape.length = x.shape.length ∧
          (∀ s ∈ st, y.shape.getD s.1 0 = x.shape.getD s.1 0 + x.shape.getD s.1 0 % 2) ∧
          (∀ j, j ∉ st.map (·.1) → y.shape.getD j 0 = x.shape.getD j 0)) ∧ y.Extends x := by
  cases n with
  | zero => exact ⟨x, rfl, fun _ => rfl, fun h => absurd h (by omega), Arr.Extends.refl x⟩
  | succ n =>
    obtain ⟨y, e1, -, e3, e4⟩ := waverecnLoop_cascade hr.toSome hne hn hpr (n + 1)
      (x.approxN st (n + 1)) true hlv (Arr.Extends.refl _) (Near.refl _) fun _ => rfl
    refine ⟨y, ?_, by omega, e3, e4⟩
    set ds := ((List.range (n + 1)).map fun j => x.detailsN st j).reverse with hds
    have hitems : ((List.range (n + 1)).map fun j => Item.ofDict (x.detailsN st j)).reverse =
        ds.map Item.ofDict := by
      rw [hds, List.map_reverse, List.map_map]
      rfl
    have hmem : ∀ d ∈ ds, ∃ j, d = x.detailsN st j := by
      intro d hd
      rw [hds, List.mem_reverse, List.mem_map] at hd
      obtain ⟨j, -, rfl⟩ := hd
      exact ⟨j, rfl⟩
    have hfix : fixAll (ds.map Item.ofDict) = .ok ds := by
      apply fixAll_ok (n := st.length)
      intro d hd p hp
      obtain ⟨j, rfl⟩ := hmem d hd
      exact (mem_detailsN hp).1
    have e0 : ¬ ¬ ((ds.map Item.ofDict).all Item.isDict) = true := by
      rw [not_not, List.all_map, List.all_eq_true]
      intro d _
      rfl
    have e2 : ¬ ds.isEmpty = true := by
      rw [hds]; simp
    have e5 : ¬ ((some (x.approxN st (n + 1))).isNone = true ∧ ds.all List.isEmpty = true) := by simp
    have hnd : coeffNdims (some (x.approxN st (n + 1))) ds = (x.approxN st (n + 1)).ndim ::
        ds.flatMap fun d => d.map fun p => p.2.ndim := rfl
    have e6 : ¬ (ds.flatMap fun d => d.map fun p => p.2.ndim).any
        (· ≠ (x.approxN st (n + 1)).ndim) = true := by
      rw [Bool.not_eq_true, List.any_eq_false]
      intro m hm
      obtain ⟨d, hd, hm⟩ := List.mem_flatMap.mp hm
      obtain ⟨p, hp, rfl⟩ := List.mem_map.mp hm
      obtain ⟨j, rfl⟩ := hmem d hd
      have h := mem_detailsN hp
      have : p.2.ndim = x.ndim := by
        rw [h.2.2]
        unfold Arr.ndim
        rw [shape_subband (mem_words.mp h.1).1, decShape_length]
        exact Arr.approxN_ndim st j x
      rw [Arr.approxN_ndim, this]
      simp
    have e7 : ¬ ¬ (axes.getD (rangeAxes (x.approxN st (n + 1)).ndim)).Nodup := by
      rw [not_not, Arr.approxN_ndim]
      apply normAxes_nodup (ndim := x.ndim)
      rw [hr.axes_eq]
      have : (st.map fun s : Stage R => (s.1 : ℤ)) = (st.map (·.1)).map fun n : ℕ => (n : ℤ) := by
        rw [List.map_map]; rfl
      rw [this]
      exact hn.map fun a b h => by simpa using h
    simp only [Arr.cascadeN, hitems, waverecn, if_neg e0, hfix, Py_bind_ok, if_neg e2,
      Item.toOption, Py_pure, if_neg e5, hnd, if_neg e6, if_neg e7]
    rw [Arr.approxN_ndim, e1]
    rfl

end Pywt
