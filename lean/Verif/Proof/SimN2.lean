import Verif.Proof.SimN

/-!
# Lock-step simulation of the multilevel n-D transforms
-/

set_option linter.unusedSectionVars false
set_option autoImplicit false

namespace Pywt.Sim

open Finset

variable {R R' M M' : Type} [Zero R] [Zero M] [Add M] [Neg M] [Sub M] [SMul ℕ M] [SMul R M]
  [Zero R'] [Zero M'] [Add M'] [Neg M'] [Sub M'] [SMul ℕ M'] [SMul R' M']
  {P Q : M → M' → Prop} {wv : PerAxis (Wavelet R)} {wv' : PerAxis (Wavelet R')} {mode : PerAxis Mode}
  {l : List (Wavelet R × Mode)} {l' : List (Wavelet R' × Mode)}

theorem orel_arr_mono (h : ∀ a b, P a b → Q a b) {o : Option (Arr M)} {o' : Option (Arr M')}
    (ho : Option.Rel (ArrRel P) o o') : Option.Rel (ArrRel Q) o o' := by
  cases ho with
  | none => exact .none
  | some ho => exact .some (ho.mono h)

theorem CRel.mono (h : ∀ a b, P a b → Q a b) {c : CDict M} {c' : CDict M'} (hc : CRel P c c') : CRel Q c c' :=
  hc.imp fun _ _ h' => ⟨h'.1, orel_arr_mono h h'.2⟩

theorem ItemRel.mono (h : ∀ a b, P a b → Q a b) {i : Item M} {i' : Item M'} (hi : ItemRel P i i') : ItemRel Q i i' := by
  cases i <;> cases i' <;> simp only [ItemRel] at hi ⊢
  · exact hi.mono h
  · exact CRel.mono h hi
  · exact hi.imp fun _ _ h' => orel_arr_mono h h'

theorem orel_isNone {α β : Type} {S : α → β → Prop} {o : Option α} {o' : Option β} (h : Option.Rel S o o') :
    o.isNone = o'.isNone := by cases h <;> rfl

theorem ArrRel.get (h0 : P 0 0) {a : Arr M} {a' : Arr M'} (ha : ArrRel P a a') (idx : ℕ → ℕ) :
    P (a.get idx) (a'.get idx) := by
  unfold Arr.get
  rw [ha.shape]
  generalize ravelIx a'.shape idx a'.shape.length = i
  have hd := ha.data
  generalize a.data = x at hd
  generalize a'.data = y at hd
  induction hd generalizing i with
  | nil => simpa using h0
  | cons h _ ih =>
    cases i with
    | zero => simpa using h
    | succ i => simpa using ih i

theorem ArrRel.crop (h0 : P 0 0) {a : Arr M} {a' : Arr M'} (ha : ArrRel P a a') (shape : List ℕ) :
    ArrRel P (a.crop shape) (a'.crop shape) := by
  refine ⟨rfl, ?_⟩
  simp only [Arr.crop, Arr.ofFn]
  refine List.forall₂_map_left_iff.mpr (List.forall₂_map_right_iff.mpr ?_)
  exact List.forall₂_same.mpr fun p _ => ha.get h0 _

theorem matchCoeffDims_rel (h0 : P 0 0) {a : Option (Arr M)} {a' : Option (Arr M')} (ha : Option.Rel (ArrRel P) a a')
    {d : List (Key × Arr M)} {d' : List (Key × Arr M')} (hd : DRel Q d d') :
    PRel (Option.Rel (ArrRel P)) (matchCoeffDims a d) (matchCoeffDims a' d') := by
  cases ha with
  | none => exact PRel.ok .none
  | some ha =>
    cases hd with
    | nil => exact PRel.ok (.some ha)
    | @cons p p' _ _ hp _ =>
      obtain ⟨k, v⟩ := p
      obtain ⟨k', v'⟩ := p'
      have hs : v.shape = v'.shape := hp.2.shape
      simp only [matchCoeffDims, ha.shape, hs]
      refine PRel.ite (fun _ => PRel.ok (.some (ha.crop h0 _))) fun _ => PRel.throw

theorem dictSet_rel {c : CDict M} {c' : CDict M'} (hc : CRel P c c') (k : Key) {v : Option (Arr M)}
    {v' : Option (Arr M')} (hv : Option.Rel (ArrRel P) v v') : CRel P (dictSet c k v) (dictSet c' k v') := by
  induction hc with
  | nil => exact .cons ⟨rfl, hv⟩ .nil
  | @cons p p' c c' hp hc ih =>
    obtain ⟨k1, x⟩ := p
    obtain ⟨k2, x'⟩ := p'
    obtain ⟨h, hx⟩ := hp
    simp only at h hx
    subst h
    simp only [dictSet]
    split
    · exact .cons ⟨rfl, hv⟩ hc
    · exact .cons ⟨rfl, hx⟩ ih

theorem CRel.keys {c : CDict M} {c' : CDict M'} (hc : CRel P c c') : c.map (·.1) = c'.map (·.1) := by
  induction hc with
  | nil => rfl
  | cons h _ ih => simp [h.1, ih]

theorem CRel.anyNone {c : CDict M} {c' : CDict M'} (hc : CRel P c c') :
    (c.any fun p => p.2.isNone) = c'.any fun p => p.2.isNone := by
  induction hc with
  | nil => rfl
  | cons h _ ih => simp only [List.any_cons, ih, orel_isNone h.2]

theorem fixCoeffs_rel {c : CDict M} {c' : CDict M'} (hc : CRel P c c') :
    PRel (DRel P) (fixCoeffs c) (fixCoeffs c') := by
  unfold fixCoeffs
  rw [hc.anyNone, hc.keys]
  exact PRel.ite (fun _ => PRel.throw) fun _ => PRel.ite (fun _ => PRel.throw) fun _ => PRel.ok (dropNone_rel hc)

theorem fixAll_rel {c : List (Item M)} {c' : List (Item M')} (hc : List.Forall₂ (ItemRel P) c c') :
    PRel (List.Forall₂ (DRel P)) (fixAll c) (fixAll c') := by
  induction hc with
  | nil => exact PRel.ok .nil
  | @cons i i' c c' hi hc ih =>
    cases i <;> cases i' <;> simp only [ItemRel] at hi <;> simp only [fixAll] <;> try exact PRel.throw
    exact PRel.bind (fixCoeffs_rel hi) fun a a' h1 => PRel.bind ih fun b b' h2 => PRel.ok (.cons h1 h2)

theorem all_isDict_rel {c : List (Item M)} {c' : List (Item M')} (hc : List.Forall₂ (ItemRel P) c c') :
    c.all Item.isDict = c'.all Item.isDict := by
  induction hc with
  | nil => rfl
  | @cons i i' c c' hi hc ih =>
    simp only [List.all_cons, ih]
    congr 1
    cases i <;> cases i' <;> simp only [ItemRel] at hi <;> rfl

theorem toOption_rel {i : Item M} {i' : Item M'} (hi : ItemRel P i i') :
    PRel (Option.Rel (ArrRel P)) i.toOption i'.toOption := by
  cases i <;> cases i' <;> simp only [ItemRel] at hi <;> simp only [Item.toOption] <;> try exact PRel.throw
  · exact PRel.ok .none
  · exact PRel.ok (.some hi)

theorem ofOption_rel {o : Option (Arr M)} {o' : Option (Arr M')} (ho : Option.Rel (ArrRel P) o o') :
    ItemRel P (Item.ofOption o) (Item.ofOption o') := by
  cases ho with
  | none => trivial
  | some h => exact h

theorem isEmpty_rel {α β : Type} {S : α → β → Prop} {a : List α} {b : List β} (h : List.Forall₂ S a b) :
    a.isEmpty = b.isEmpty := by cases h <;> rfl

theorem allEmpty_rel {d : List (List (Key × Arr M))} {d' : List (List (Key × Arr M'))}
    (h : List.Forall₂ (DRel P) d d') : d.all List.isEmpty = d'.all List.isEmpty := by
  induction h with
  | nil => rfl
  | cons h _ ih => simp only [List.all_cons, ih, isEmpty_rel h]

theorem coeffNdims_rel {a : Option (Arr M)} {a' : Option (Arr M')} (ha : Option.Rel (ArrRel P) a a')
    {d : List (List (Key × Arr M))} {d' : List (List (Key × Arr M'))} (hd : List.Forall₂ (DRel P) d d') :
    coeffNdims a d = coeffNdims a' d' := by
  unfold coeffNdims
  have h1 : (a.map Arr.ndim).toList = (a'.map Arr.ndim).toList := by
    cases ha with
    | none => rfl
    | some h => simp [h.ndim]
  rw [h1]
  congr 1
  induction hd with
  | nil => rfl
  | @cons x x' _ _ h _ ih =>
    simp only [List.flatMap_cons, ih]
    congr 1
    clear ih
    induction h with
    | nil => rfl
    | cons h _ ih => simp only [List.map_cons, ih, h.2.ndim]

theorem waverecnLoop_rel {X : ℕ → M → M' → Prop} {axes : List Int} (ha : ArgRel wv wv' mode axes.length l l')
    {n : ℕ} (h0 : ∀ k, X k 0 0) (hs : ∀ k < n, Steps IdwtStep (X k) l.reverse l'.reverse (X (k + 1)))
    (hm : ∀ k ≤ n, ∀ a b, X 0 a b → X k a b) :
    ∀ {ds : List (List (Key × Arr M))} {ds' : List (List (Key × Arr M'))} (_ : List.Forall₂ (DRel (X 0)) ds ds')
    (k : ℕ) (first : Bool), k + ds'.length = n → ∀ {a a'}, Option.Rel (ArrRel (X k)) a a' →
    PRel (Option.Rel (ArrRel (X n))) (waverecnLoop wv mode axes first a ds) (waverecnLoop wv' mode axes first a' ds') := by
  intro ds ds' hds
  induction hds with
  | nil =>
    intro k first hk a a' h
    obtain rfl : k = n := by simpa using hk
    simp only [waverecnLoop]
    exact PRel.ok h
  | @cons d d' ds ds' hd hds ih =>
    intro k first hk a a' h
    simp only [List.length_cons] at hk
    simp only [waverecnLoop, orel_isNone h, isEmpty_rel hd]
    by_cases hc : a'.isNone = true ∧ d'.isEmpty = true
    · rw [if_pos hc, if_pos hc]
      refine ih (k + 1) false (by omega) ?_
      have h1 := hc.1
      cases h with
      | none => exact .none
      | some _ => simp at h1
    rw [if_neg hc, if_neg hc]
    have hmatch : PRel (Option.Rel (ArrRel (X k))) (matchIf first a d) (matchIf first a' d') := by
      unfold matchIf
      exact PRel.ite (fun _ => PRel.ok h) fun _ => matchCoeffDims_rel (h0 k) h hd
    refine PRel.bind hmatch fun b b' hb => ?_
    refine PRel.bind (idwtn_rel' (P := X k) (Q := X (k + 1)) (dictSet_rel (CRel.mono (hm k (by omega)) (DRel.some hd)) _ hb) ha
      (hs k (by omega))) fun e e' he => ih (k + 1) false (by omega) he

/-- All arrays in a coefficient list have `m` dimensions. -/
def ItemsDim (m : ℕ) (cs : List (Item M)) : Prop :=
  ∀ i ∈ cs, ∀ a, (i = .arr a ∨ ∃ c k, i = .dict c ∧ (k, some a) ∈ c) → a.ndim = m

theorem fixAll_mem : ∀ {items : List (Item M)} {ds : List (List (Key × Arr M))}, fixAll items = .ok ds →
    ∀ d ∈ ds, ∀ p ∈ d, ∃ c, .dict c ∈ items ∧ (p.1, some p.2) ∈ c := by
  intro items
  induction items with
  | nil => intro ds h; cases h; simp
  | cons i items ih =>
    intro ds h
    cases i with
    | dict c =>
      simp only [fixAll] at h
      cases h1 : fixCoeffs c with
      | error e => rw [h1] at h; cases h
      | ok c1 =>
        cases h2 : fixAll items with
        | error e => rw [h1, h2] at h; cases h
        | ok r =>
          rw [h1, h2] at h
          simp only [Py_bind_ok, Py_pure] at h
          injection h with h
          subst h
          intro d hd p hp
          rcases List.mem_cons.mp hd with rfl | hd
          · refine ⟨c, List.mem_cons_self, ?_⟩
            unfold fixCoeffs at h1
            split at h1
            · cases h1
            split at h1
            · cases h1
            rw [Py_pure] at h1
            injection h1 with h1
            subst h1
            unfold dropNone at hp
            obtain ⟨q, hq, hq'⟩ := List.mem_filterMap.mp hp
            obtain ⟨k, o⟩ := q
            cases o with
            | none => simp at hq'
            | some v =>
              simp at hq'
              rw [← hq']
              exact hq
          · obtain ⟨c', h3, h4⟩ := ih h2 d hd p hp
            exact ⟨c', List.mem_cons_of_mem _ h3, h4⟩
    | _ => simp only [fixAll] at h; cases h

theorem fixAll_length : ∀ {items : List (Item M)} {ds : List (List (Key × Arr M))}, fixAll items = .ok ds →
    ds.length = items.length := by
  intro items
  induction items with
  | nil => intro ds h; cases h; rfl
  | cons i items ih =>
    intro ds h
    cases i with
    | dict c =>
      simp only [fixAll] at h
      cases h1 : fixCoeffs c with
      | error e => rw [h1] at h; cases h
      | ok c1 =>
        cases h2 : fixAll items with
        | error e => rw [h1, h2] at h; cases h
        | ok r =>
          rw [h1, h2] at h
          simp only [Py_bind_ok, Py_pure] at h
          injection h with h
          subst h
          simp [ih h2]
    | _ => simp only [fixAll] at h; cases h

theorem waverecn_rel {X : ℕ → M → M' → Prop} {cs : List (Item M)} {cs' : List (Item M')}
    (hcs : List.Forall₂ (ItemRel (X 0)) cs cs') {axes : Option (List Int)} {n : ℕ} (hn : cs'.length = n + 1) {m : ℕ}
    (hax : ∀ a, axes = some a → a.length = m) (hax' : axes = none → ItemsDim m cs')
    (ha : ArgRel wv wv' mode m l l') (h0 : ∀ k, X k 0 0)
    (hs : ∀ k < n, Steps IdwtStep (X k) l.reverse l'.reverse (X (k + 1))) (hm : ∀ k ≤ n, ∀ a b, X 0 a b → X k a b) :
    PRel (ItemRel (X n)) (waverecn cs wv mode axes) (waverecn cs' wv' mode axes) := by
  cases hcs with
  | nil => simp at hn
  | @cons c c' ds ds' hc hds =>
    simp only [waverecn]
    rw [all_isDict_rel hds]
    refine PRel.ite (fun _ => PRel.throw) fun _ => ?_
    have hfix := fixAll_rel hds
    cases hf : fixAll ds' with
    | error e => exact PRel.throw
    | ok D' =>
      obtain ⟨D, hD, hDD⟩ := hfix D' hf
      rw [hD]
      simp only [Py_bind_ok, isEmpty_rel hDD]
      by_cases hE : D'.isEmpty = true
      · rw [if_pos hE, if_pos hE]
        refine PRel.ok (ItemRel.mono (fun a b h => hm n le_rfl a b h) hc)
      rw [if_neg hE, if_neg hE]
      cases ho : c'.toOption with
      | error e => exact PRel.throw
      | ok o' =>
        obtain ⟨o, hoo, hO⟩ := toOption_rel hc o' ho
        rw [hoo]
        simp only [Py_bind_ok, orel_isNone hO, allEmpty_rel hDD, coeffNdims_rel hO hDD]
        refine PRel.ite (fun _ => PRel.throw) fun _ => ?_
        cases hcn : coeffNdims o' D' with
        | nil => exact PRel.throw
        | cons nd rest =>
          simp only
          refine PRel.ite (fun _ => PRel.throw) fun _ => PRel.ite (fun _ => PRel.throw) fun _ => ?_
          have hlen : (axes.getD (rangeAxes nd)).length = m := by
            cases axes with
            | some a => exact hax a rfl
            | none =>
              have hmem : nd ∈ coeffNdims o' D' := by rw [hcn]; exact List.mem_cons_self
              have hdim := hax' rfl
              simp only [Option.getD_none, rangeAxes, List.length_map, List.length_range]
              unfold coeffNdims at hmem
              rcases List.mem_append.mp hmem with h | h
              · cases o' with
                | none => simp at h
                | some a =>
                  simp only [Option.map_some, Option.toList_some, List.mem_singleton] at h
                  rw [h]
                  refine hdim _ List.mem_cons_self a (.inl ?_)
                  cases c' <;> simp only [Item.toOption] at ho <;> cases ho
                  rfl
              · obtain ⟨d, hd, h⟩ := List.mem_flatMap.mp h
                obtain ⟨p, hp, rfl⟩ := List.mem_map.mp h
                obtain ⟨c1, h3, h4⟩ := fixAll_mem hf d hd p hp
                exact hdim _ (List.mem_cons_of_mem _ h3) p.2 (.inr ⟨c1, p.1, rfl, h4⟩)
          have hlD : D'.length = ds'.length := fixAll_length hf
          refine PRel.bind (waverecnLoop_rel (by rw [hlen]; exact ha) h0 hs hm hDD 0 true (by
            rw [hlD]; simpa using hn) hO) fun r r' hr => PRel.ok (ofOption_rel hr)

/-- Triples of arrays. -/
def TripleRel (P : M → M' → Prop) (r : Arr M × Arr M × Arr M) (r' : Arr M' × Arr M' × Arr M') : Prop :=
  ArrRel P r.1 r'.1 ∧ ArrRel P r.2.1 r'.2.1 ∧ ArrRel P r.2.2 r'.2.2

theorem wavedec2Loop_rel {X : ℕ → M → M' → Prop} {axes : List Int} (ha : ArgRel wv wv' mode axes.length l l')
    {n : ℕ} (hs : ∀ k < n, Steps DwtStep (X k) l l' (X (k + 1))) (hm : ∀ k ≤ n, ∀ a b, X k a b → X n a b) :
    ∀ (j k : ℕ), k + j = n → ∀ {a a' ds ds'}, ArrRel (X k) a a' → List.Forall₂ (TripleRel (X n)) ds ds' →
    PRel (fun r r' => ArrRel (X n) r.1 r'.1 ∧ List.Forall₂ (TripleRel (X n)) r.2 r'.2)
      (wavedec2Loop wv mode axes j a ds) (wavedec2Loop wv' mode axes j a' ds') := by
  intro j
  induction j with
  | zero =>
    intro k hk a a' ds ds' h1 h2
    obtain rfl : k = n := by omega
    simp only [wavedec2Loop]
    exact PRel.ok ⟨h1, h2⟩
  | succ j ih =>
    intro k hk a a' ds ds' h1 h2
    simp only [wavedec2Loop]
    refine PRel.bind (dwt2_rel h1 ha (hs k (by omega))) fun c c' hc => ?_
    have hmk := hm (k + 1) (by omega)
    exact ih (k + 1) (by omega) hc.1 (List.rel_append h2 (.cons ⟨hc.2.1.mono hmk, hc.2.2.1.mono hmk, hc.2.2.2.mono hmk⟩ .nil))

theorem checkLevel_some {sh ds : List ℕ} {n n' : ℕ} (hl : checkLevel sh ds (some (n : ℤ)) = .ok n') : n' = n := by
  unfold checkLevel at hl
  cases hq : (sh.zip ds).mapM fun p => dwtMaxLevel p.1 p.2 with
  | error e => rw [hq] at hl; cases hl
  | ok ls =>
    rw [hq] at hl
    simp only [Py_bind_ok] at hl
    cases hm : ls.min? with
    | none => rw [hm] at hl; cases hl
    | some v =>
      rw [hm] at hl
      simp only [Py_pure, show ¬ ((n : ℤ) < 0) by omega, if_false] at hl
      injection hl with hl
      omega

theorem wavedec2_rel {X : ℕ → M → M' → Prop} {x : Arr M} {x' : Arr M'} (hx : ArrRel (X 0) x x')
    {axes : List Int} (ha : ArgRel wv wv' mode axes.length l l')
    (hlen : ∀ m ws ws', wv.expand m = .ok ws → wv'.expand m = .ok ws' → ws.map (·.dec_len) = ws'.map (·.dec_len))
    {n : ℕ} (hs : ∀ k < n, Steps DwtStep (X k) l l' (X (k + 1))) (hm : ∀ k ≤ n, ∀ a b, X k a b → X n a b) :
    PRel (List.Forall₂ (ItemRel (X n))) (wavedec2 x wv mode (some (n : ℤ)) axes) (wavedec2 x' wv' mode (some (n : ℤ)) axes) := by
  unfold wavedec2
  rw [hx.shape, hx.ndim]
  refine PRel.ite (fun _ => PRel.throw) fun _ => PRel.ite (fun _ => PRel.throw) fun _ =>
    PRel.ite (fun _ => PRel.throw) fun _ => ?_
  cases hp : axesShapes x'.shape axes with
  | error e => exact PRel.throw
  | ok sh =>
    simp only [Py_bind_ok]
    obtain ⟨ws, ws', ms, e1, e2, -⟩ := ha.ok
    rw [e1, e2]
    simp only [Py_bind_ok]
    rw [hlen _ _ _ e1 e2]
    cases hl : checkLevel sh (ws'.map (·.dec_len)) (some (n : ℤ)) with
    | error e => exact PRel.throw
    | ok n' =>
      obtain rfl := checkLevel_some hl
      simp only [Py_bind_ok]
      refine PRel.bind (wavedec2Loop_rel ha hs hm n' 0 (by omega) hx .nil) fun r r' hr => ?_
      refine PRel.ok (.cons hr.1 (forall₂_reverse ?_))
      refine List.forall₂_map_left_iff.mpr (List.forall₂_map_right_iff.mpr (hr.2.imp fun _ _ h => ?_))
      exact .cons (.some h.1) (.cons (.some h.2.1) (.cons (.some h.2.2) .nil))

theorem filterMap_id_rel {S : Arr M → Arr M' → Prop} {d : List (Option (Arr M))} {d' : List (Option (Arr M'))}
    (hd : List.Forall₂ (Option.Rel S) d d') : List.Forall₂ S (d.filterMap id) (d'.filterMap id) := by
  induction hd with
  | nil => exact .nil
  | cons h _ ih =>
    cases h with
    | none => simpa using ih
    | some h => simpa using ⟨h, ih⟩

theorem waverec2Trim_rel (h0 : P 0 0) {a : Option (Arr M)} {a' : Option (Arr M')} (ha : Option.Rel (ArrRel P) a a')
    {d : List (Option (Arr M))} {d' : List (Option (Arr M'))} (hd : List.Forall₂ (Option.Rel (ArrRel Q)) d d') :
    PRel (Option.Rel (ArrRel P)) (waverec2Trim a d) (waverec2Trim a' d') := by
  have hf := filterMap_id_rel hd
  unfold waverec2Trim
  generalize d.filterMap id = D at hf
  generalize d'.filterMap id = D' at hf
  cases hf with
  | nil =>
    cases ha with
    | none => exact PRel.throw
    | some ha =>
      simp only [ha.ndim]
      exact PRel.ite (fun _ => PRel.throw) fun _ => PRel.ok (.some ha)
  | @cons v v' D D' hv hD =>
    simp only [hv.shape]
    have : (D.any fun v => decide (v.shape ≠ v'.shape)) = D'.any fun v => decide (v.shape ≠ v'.shape) := by
      clear hv hd
      induction hD with
      | nil => rfl
      | cons h _ ih => simp only [List.any_cons, h.shape, ih]
    rw [this]
    refine PRel.ite (fun _ => PRel.throw) fun _ => ?_
    refine PRel.ok ?_
    cases ha with
    | none => exact .none
    | some ha =>
      simp only [Option.map_some, ha.shape]
      exact .some (ha.crop h0 _)

theorem waverec2Loop_rel {X : ℕ → M → M' → Prop} {axes : List Int} (ha : ArgRel wv wv' mode axes.length l l')
    {n : ℕ} (h0 : ∀ k, X k 0 0) (hs : ∀ k < n, Steps IdwtStep (X k) l.reverse l'.reverse (X (k + 1)))
    (hm : ∀ k ≤ n, ∀ a b, X 0 a b → X k a b) :
    ∀ {ds : List (Item M)} {ds' : List (Item M')} (_ : List.Forall₂ (ItemRel (X 0)) ds ds')
    (k : ℕ), k + ds'.length = n → ∀ {a a'}, Option.Rel (ArrRel (X k)) a a' →
    PRel (Option.Rel (ArrRel (X n))) (waverec2Loop wv mode axes a ds) (waverec2Loop wv' mode axes a' ds') := by
  intro ds ds' hds
  induction hds with
  | nil =>
    intro k hk a a' h
    obtain rfl : k = n := by simpa using hk
    simp only [waverec2Loop]
    exact PRel.ok h
  | @cons i i' ds ds' hi hds ih =>
    intro k hk a a' h
    simp only [List.length_cons] at hk
    cases i <;> cases i' <;> simp only [ItemRel] at hi <;> try exact PRel.throw
    have hk' := hm k (by omega)
    cases hi with
    | nil => exact PRel.throw
    | cons h1 hi =>
    cases hi with
    | nil => exact PRel.throw
    | cons h2 hi =>
    cases hi with
    | nil => exact PRel.throw
    | cons h3 hi =>
    cases hi with
    | cons h4 hi => exact PRel.throw
    | nil =>
      simp only [waverec2Loop]
      refine PRel.bind (waverec2Trim_rel (h0 k) h (.cons h1 (.cons h2 (.cons h3 .nil)))) fun b b' hb => ?_
      exact PRel.bind (idwt2_rel hb (orel_arr_mono hk' h1) (orel_arr_mono hk' h2) (orel_arr_mono hk' h3) ha
        (hs k (by omega))) fun e e' he => ih (k + 1) (by omega) he

theorem waverec2_rel {X : ℕ → M → M' → Prop} {cs : List (Item M)} {cs' : List (Item M')}
    (hcs : List.Forall₂ (ItemRel (X 0)) cs cs') {axes : List Int} {n : ℕ} (hn : cs'.length = n + 1)
    (ha : ArgRel wv wv' mode axes.length l l') (h0 : ∀ k, X k 0 0)
    (hs : ∀ k < n, Steps IdwtStep (X k) l.reverse l'.reverse (X (k + 1))) (hm : ∀ k ≤ n, ∀ a b, X 0 a b → X k a b) :
    PRel (ItemRel (X n)) (waverec2 cs wv mode axes) (waverec2 cs' wv' mode axes) := by
  unfold waverec2
  refine PRel.ite (fun _ => PRel.throw) fun _ => ?_
  cases hcs with
  | nil => exact PRel.throw
  | @cons c c' ds ds' hc hds =>
    cases hds with
    | nil =>
      obtain rfl : n = 0 := by simpa using hn.symm
      exact PRel.ok hc
    | @cons i i' ds ds' hi hds =>
      simp only
      refine PRel.bind (toOption_rel hc) fun a a' h1 => ?_
      refine PRel.bind (waverec2Loop_rel ha h0 hs hm (.cons hi hds) 0 (by simpa using hn) h1) fun r r' hr => ?_
      exact PRel.ok (ofOption_rel hr)

end Pywt.Sim
