import Verif.Spec.Packet
import Verif.Proof.Dwt
import Mathlib.Data.List.Infix

/-!
# Invariant of packet trees
-/

namespace Pywt

open Spec

set_option linter.unusedSectionVars false

namespace PKind

variable {P D : Type} [DecidableEq P] {k : PKind P D}

theorem along_snoc (x : D) (p : List P) (q : P) :
    k.along x (p ++ [q]) =
      match k.along x p with
      | .error e => .error e
      | .ok d => match k.dec d with
        | .error e => .error e
        | .ok c => .ok (c q) := by
  induction p generalizing x with
  | nil =>
    simp only [List.nil_append, along]
    cases k.dec x <;> rfl
  | cons a p ih =>
    simp only [List.cons_append, along]
    cases k.dec x with
    | error e => rfl
    | ok c => exact ih (c a)

/-- The unmodified tree over the root data `x`. -/
structure Inv (k : PKind P D) (x : D) (t : PTree P D) : Prop where
  root : (t []).isSome
  data : ∀ p nd, t p = some nd → ∃ d, k.along x p = .ok d ∧ nd = ⟨some d, some (k.shapeOf d)⟩
  sib : ∀ p q r, r ∈ k.parts → (t (p ++ [q])).isSome → (t (p ++ [r])).isSome
  par : ∀ p q, (t (p ++ [q])).isSome → (t p).isSome ∧ q ∈ k.parts
  depth : ∀ p, (t p).isSome → p = [] ∨ (p.length : ℤ) ≤ k.maxlevel

theorem inv_init (x : D) : Inv k x (k.init (some x)) where
  root := by simp [init]
  data p nd h := by
    unfold init at h
    split_ifs at h with hp
    subst hp
    exact ⟨x, rfl, by simpa [node] using h.symm⟩
  sib p q r _ h := by simp [init] at h
  par p q h := by simp [init] at h
  depth p h := by
    unfold init at h
    split_ifs at h with hp
    · exact Or.inl hp
    · simp at h

theorem createAll_lookup (t : PTree P D) (p : List P) (f : P → Option D) :
    ∀ (qs : List P) (r : List P), k.createAll t p f qs r =
      match r.drop p.length, decide (p <+: r) with
      | q :: rest, true => if q ∈ qs then (if rest = [] then some (k.node (f q)) else none) else t r
      | _, _ => t r := by
  intro qs
  induction qs generalizing t with
  | nil =>
    intro r
    simp only [createAll, List.not_mem_nil, if_false]
    split <;> rfl
  | cons q0 qs ih =>
    intro r
    simp only [createAll]
    rw [ih]
    by_cases hp : p <+: r
    · obtain ⟨s, rfl⟩ := hp
      simp only [List.prefix_append, decide_true, List.drop_left]
      cases s with
      | nil =>
        have e : ¬ (p ++ [q0]) <+: p := fun h => by simpa using h.length_le
        simp [create, e]
      | cons q rest =>
        simp only [List.mem_cons]
        have e1 : (p ++ q :: rest = p ++ [q0]) ↔ (q = q0 ∧ rest = []) := by simp
        have e2 : (p ++ [q0] <+: p ++ q :: rest) ↔ q0 = q := by
          rw [List.prefix_append_right_inj]
          simp [List.cons_prefix_cons]
        simp only [create, e1, e2]
        by_cases h1 : q ∈ qs
        · simp [h1]
        · by_cases h2 : q = q0
          · subst h2
            simp [h1]
          · simp [h1, h2, Ne.symm h2]
    · have e1 : ¬ r = p ++ [q0] := by rintro rfl; exact hp (List.prefix_append _ _)
      have e2 : ¬ (p ++ [q0]) <+: r := fun h => hp ((List.prefix_append _ _).trans h)
      simp only [hp, decide_false, create, if_neg e1, if_neg e2]
      cases List.drop p.length r <;> rfl

theorem createAll_child (t : PTree P D) (p : List P) (f : P → Option D) {qs : List P} {q : P}
    (hq : q ∈ qs) : k.createAll t p f qs (p ++ [q]) = some (k.node (f q)) := by
  rw [createAll_lookup]
  simp [hq]

theorem createAll_other (t : PTree P D) (p : List P) (f : P → Option D) {qs : List P} {r : List P}
    (h : ∀ q rest, r ≠ p ++ q :: rest) : k.createAll t p f qs r = t r := by
  rw [createAll_lookup]
  by_cases hp : p <+: r
  · obtain ⟨s, rfl⟩ := hp
    cases s with
    | nil => simp
    | cons q rest => exact absurd rfl (h q rest)
  · simp only [hp, decide_false]
    cases List.drop p.length r <;> rfl

theorem createAll_below (t : PTree P D) (p : List P) (f : P → Option D) {qs : List P} {q : P}
    {rest : List P} (hq : q ∈ qs) (hr : rest ≠ []) : k.createAll t p f qs (p ++ q :: rest) = none := by
  rw [createAll_lookup]
  simp [hq, hr]

/-- Shape of a path that is not below a child of `p`. -/
theorem path_cases (p r : List P) :
    (∃ q rest, r = p ++ q :: rest) ∨ ∀ q rest, r ≠ p ++ q :: rest := by
  by_cases h : ∃ q rest, r = p ++ q :: rest
  · exact Or.inl h
  · right
    intro q rest e
    exact h ⟨q, rest, e⟩

/-- A non-empty list ends with some element. -/
theorem snoc_cases (rest : List P) (q : P) : ∃ l a, q :: rest = l ++ [a] := by
  refine ⟨(q :: rest).dropLast, (q :: rest).getLast (by simp), ?_⟩
  rw [List.dropLast_append_getLast]

variable {x : D} {t : PTree P D}

theorem Inv.dataAt (h : Inv k x t) {p : List P} (hp : (t p).isSome) :
    ∃ d, k.along x p = .ok d ∧ t p = some ⟨some d, some (k.shapeOf d)⟩ := by
  obtain ⟨nd, hn⟩ := Option.isSome_iff_exists.1 hp
  obtain ⟨d, h1, h2⟩ := h.data p nd hn
  exact ⟨d, h1, by rw [hn, h2]⟩

/-- Ancestors of an existing node exist, and the letters below them are parts. -/
theorem Inv.anc (h : Inv k x t) (p : List P) : ∀ s : List P, (t (p ++ s)).isSome → (t p).isSome := by
  intro s
  induction s using List.reverseRecOn with
  | nil => intro h; simpa using h
  | append_singleton s q ih =>
    intro hs
    rw [← List.append_assoc] at hs
    exact ih (h.par _ _ hs).1

theorem Inv.anc_part (h : Inv k x t) {p : List P} {q : P} {s : List P}
    (hs : (t (p ++ q :: s)).isSome) : (t (p ++ [q])).isSome ∧ q ∈ k.parts := by
  have h1 : (t (p ++ [q])).isSome := h.anc (p ++ [q]) s (by simpa using hs)
  exact ⟨h1, (h.par p q h1).2⟩

/-- Decomposing an existing node of an unmodified tree. -/
theorem Inv.createAll (h : Inv k x t) {p : List P} {d : D} (hp : t p = some ⟨some d, some (k.shapeOf d)⟩)
    (ha : k.along x p = .ok d) {c : P → D} (hc : k.dec d = .ok c)
    (hl : (p.length : ℤ) < k.maxlevel) :
    Inv k x (k.createAll t p (fun q => some (c q)) k.parts) := by
  have hsn : ∀ q, k.along x (p ++ [q]) = .ok (c q) := fun q => by rw [along_snoc, ha]; simp only [hc]
  -- existence in the new tree
  have hex : ∀ r, (k.createAll t p (fun q => some (c q)) k.parts r).isSome ↔
      (∃ q ∈ k.parts, r = p ++ [q]) ∨ ((∀ q rest, r ≠ p ++ q :: rest) ∧ (t r).isSome) := by
    intro r
    rcases path_cases p r with ⟨q, rest, rfl⟩ | hr
    · constructor
      · intro he
        left
        by_cases hq : q ∈ k.parts
        · by_cases hrest : rest = []
          · exact ⟨q, hq, by rw [hrest]⟩
          · rw [createAll_below t p _ hq hrest] at he
            simp at he
        · exfalso
          rw [createAll_lookup] at he
          simp only [List.drop_left, List.prefix_append, decide_true, if_neg hq] at he
          exact hq (h.anc_part he).2
      · rintro (⟨q', hq', e⟩ | ⟨hr, _⟩)
        · rw [e, createAll_child t p _ hq']; rfl
        · exact absurd rfl (hr q rest)
    · rw [createAll_other t p _ hr]
      constructor
      · exact fun he => Or.inr ⟨hr, he⟩
      · rintro (⟨q', _, e⟩ | ⟨_, he⟩)
        · exact absurd e (hr q' [])
        · exact he
  refine ⟨?_, ?_, ?_, ?_, ?_⟩
  · rw [hex]
    right
    exact ⟨by intro q rest e; simp at e, h.root⟩
  · intro r nd hr
    rcases path_cases p r with ⟨q, rest, rfl⟩ | hr'
    · by_cases hq : q ∈ k.parts
      · by_cases hrest : rest = []
        · subst hrest
          rw [createAll_child t p _ hq] at hr
          exact ⟨c q, hsn q, by simpa [node] using hr.symm⟩
        · rw [createAll_below t p _ hq hrest] at hr
          simp at hr
      · rw [createAll_lookup] at hr
        simp only [List.drop_left, List.prefix_append, decide_true, if_neg hq] at hr
        exact absurd (h.anc_part (by rw [hr]; rfl)).2 hq
    · rw [createAll_other t p _ hr'] at hr
      exact h.data r nd hr
  · intro r q q' hq' hs
    rw [hex] at hs ⊢
    rcases hs with ⟨q1, h1, h2⟩ | ⟨h1, h2⟩
    · left
      have : r = p := (List.append_inj' h2 rfl).1
      exact ⟨q', hq', by rw [this]⟩
    · right
      refine ⟨?_, h.sib r q q' hq' h2⟩
      intro q2 rest e
      obtain ⟨l, a, hla⟩ := snoc_cases rest q2
      rw [hla, ← List.append_assoc] at e
      have e1 := (List.append_inj' e rfl).1
      rcases l with _ | ⟨b, l⟩
      · rw [List.append_nil] at e1
        exact h1 q [] (by rw [e1])
      · exact h1 b (l ++ [q]) (by rw [e1]; simp)
  · intro r q hs
    rw [hex] at hs
    rcases hs with ⟨q1, h1, h2⟩ | ⟨h1, h2⟩
    · have e := List.append_inj' h2 rfl
      refine ⟨?_, by have := e.2; simp at this; rw [this]; exact h1⟩
      rw [hex]
      right
      rw [e.1]
      exact ⟨by intro q rest e; simp at e, by rw [hp]; rfl⟩
    · have h3 := h.par r q h2
      refine ⟨?_, h3.2⟩
      rw [hex]
      right
      refine ⟨?_, h3.1⟩
      intro q2 rest e
      exact h1 q2 (rest ++ [q]) (by rw [e]; simp)
  · intro r hs
    rw [hex] at hs
    rcases hs with ⟨q1, h1, rfl⟩ | ⟨h1, h2⟩
    · right
      simp only [List.length_append, List.length_cons, List.length_nil]
      push_cast
      omega
    · exact h.depth r h2

/-- `decompose` on an existing node. -/
theorem Inv.decompose (h : Inv k x t) {p : List P} (hp : (t p).isSome) :
    Inv k x (k.decompose t p).2 := by
  obtain ⟨d, ha, hd⟩ := h.dataAt hp
  unfold PKind.decompose
  by_cases hl : (p.length : ℤ) < k.maxlevel
  · rw [if_pos hl]
    simp only [hd]
    cases hc : k.dec d with
    | error e => exact h
    | ok c => exact h.createAll hd ha hc hl
  · rw [if_neg hl]
    exact h

/-- No node is lost when a node without subnodes is decomposed. -/
theorem Inv.createAll_mono (h : Inv k x t) {p : List P} {f : P → Option D}
    (hk : ∀ q ∈ k.parts, t (p ++ [q]) = none) {r : List P} (hr : (t r).isSome) :
    (k.createAll t p f k.parts r).isSome := by
  rcases path_cases p r with ⟨q, rest, rfl⟩ | hr'
  · obtain ⟨h1, h2⟩ := h.anc_part hr
    rw [hk q h2] at h1
    simp at h1
  · rw [createAll_other t p _ hr']
    exact hr

/-- What `get_subnode` returns on an unmodified tree. -/
theorem Inv.getSubnode (h : Inv k x t) {p : List P} (hp : (t p).isSome) {d : D}
    (ha : k.along x p = .ok d) {q : P} (hq : q ∈ k.parts) :
    Inv k x (k.getSubnode t p q true).2 ∧
    (∀ r, (t r).isSome → ((k.getSubnode t p q true).2 r).isSome) ∧
    (∀ c, (p.length : ℤ) < k.maxlevel → k.dec d = .ok c →
      (k.getSubnode t p q true).1 = .ok (some (p ++ [q])) ∧
      ((k.getSubnode t p q true).2 (p ++ [q])).isSome) ∧
    (∀ e, (p.length : ℤ) < k.maxlevel → k.dec d = .error e →
      (k.getSubnode t p q true).1 = .error e) ∧
    (¬ (p.length : ℤ) < k.maxlevel → (k.getSubnode t p q true).1 = .error .value) := by
  obtain ⟨d', ha', hd⟩ := h.dataAt hp
  rw [ha] at ha'
  injection ha' with ha'
  subst ha'
  unfold PKind.getSubnode
  rw [if_neg (by simpa using hq)]
  by_cases hx : (t (p ++ [q])).isSome
  · rw [if_pos hx]
    refine ⟨h, fun r hr => hr, fun c _ _ => ⟨rfl, hx⟩, fun e _ he => ?_, fun hl => ?_⟩
    · obtain ⟨d2, h2, -⟩ := h.dataAt hx
      rw [along_snoc, ha] at h2
      simp only [he] at h2
      cases h2
    · exfalso
      rcases h.depth _ hx with h1 | h1
      · simp at h1
      · simp at h1; omega
  · rw [if_neg hx]
    have hdd : (true && ((t p).bind (·.data)).isSome) = true := by rw [hd]; rfl
    rw [if_pos hdd]
    have hnone : ∀ r ∈ k.parts, t (p ++ [r]) = none := by
      intro r hr
      by_contra hc
      exact hx (h.sib p r q hq (Option.ne_none_iff_isSome.1 hc))
    by_cases hl : (p.length : ℤ) < k.maxlevel
    · cases hc : k.dec d with
      | error e =>
        have e1 : k.decompose t p = (.error e, t) := by
          unfold PKind.decompose
          rw [if_pos hl]
          simp only [hd, hc]
        rw [e1]
        exact ⟨h, fun r hr => hr, fun c _ hh => (by cases hh), fun e' _ hh => (by cases hh; rfl),
          fun h => absurd hl h⟩
      | ok c =>
        have e1 : k.decompose t p = (.ok (), k.createAll t p (fun q => some (c q)) k.parts) := by
          unfold PKind.decompose
          rw [if_pos hl]
          simp only [hd, hc]
        have e2 : (k.createAll t p (fun q => some (c q)) k.parts (p ++ [q])).isSome := by
          rw [createAll_child t p _ hq]; rfl
        rw [e1]
        refine ⟨h.createAll hd ha hc hl, fun r hr => h.createAll_mono hnone hr, fun c' _ _ => ?_,
          fun e _ hh => (by cases hh), fun hh => absurd hl hh⟩
        simp only [if_pos e2]
        exact ⟨trivial, e2⟩
    · have e1 : k.decompose t p = (.error .value, t) := by
        unfold PKind.decompose
        rw [if_neg hl]
      rw [e1]
      exact ⟨h, fun r hr => hr, fun c hh _ => absurd hh hl, fun e hh _ => absurd hh hl, fun _ => rfl⟩

theorem getSubnode_bad (t : PTree P D) {p : List P} {q : P} (hq : q ∉ k.parts) (b : Bool) :
    k.getSubnode t p q b = (.error .value, t) := by
  unfold PKind.getSubnode
  rw [if_pos hq]

theorem getSubnode_false (t : PTree P D) (p : List P) (q : P) (hq : q ∈ k.parts) :
    k.getSubnode t p q false =
      (.ok (if (t (p ++ [q])).isSome then some (p ++ [q]) else none), t) := by
  unfold PKind.getSubnode
  rw [if_neg (by simpa using hq)]
  split_ifs <;> simp_all

/-- `node[path]` on an unmodified tree keeps it unmodified and loses no node. -/
theorem Inv.getItem (h : Inv k x t) : ∀ (path p : List P), (t p).isSome →
    Inv k x (k.getItem t p path).2 ∧
    (∀ r, (t r).isSome → ((k.getItem t p path).2 r).isSome) ∧
    (∀ p', (k.getItem t p path).1 = .ok p' → p' = p ++ path ∧ ((k.getItem t p path).2 p').isSome) := by
  intro path
  induction path generalizing t with
  | nil =>
    intro p hp
    unfold PKind.getItem
    split_ifs
    · exact ⟨h, fun r hr => hr, fun p' hh => by cases hh⟩
    · exact ⟨h, fun r hr => hr, fun p' hh => by cases hh; exact ⟨by simp, hp⟩⟩
  | cons q qs ih =>
    intro p hp
    unfold PKind.getItem
    split_ifs with hlen
    · exact ⟨h, fun r hr => hr, fun p' hh => by cases hh⟩
    · by_cases hq : q ∈ k.parts
      · obtain ⟨d, ha, hd⟩ := h.dataAt hp
        obtain ⟨g1, g2, g3, g4, g5⟩ := h.getSubnode hp ha hq
        rcases hg : k.getSubnode t p q true with ⟨r, t'⟩
        rw [hg] at g1 g2 g3 g4 g5
        by_cases hl : (p.length : ℤ) < k.maxlevel
        · cases hc : k.dec d with
          | error e =>
            have := g4 e hl hc
            simp only at this
            subst this
            exact ⟨g1, g2, fun p' hh => by cases hh⟩
          | ok c =>
            obtain ⟨e1, e2⟩ := g3 c hl hc
            simp only at e1 e2
            subst e1
            obtain ⟨i1, i2, i3⟩ := ih g1 (p ++ [q]) e2
            refine ⟨i1, fun r hr => i2 r (g2 r hr), fun p' hh => ?_⟩
            obtain ⟨j1, j2⟩ := i3 p' hh
            exact ⟨by rw [j1]; simp, j2⟩
        · have := g5 hl
          simp only at this
          subst this
          exact ⟨g1, g2, fun p' hh => by cases hh⟩
      · rw [getSubnode_bad _ hq]
        exact ⟨h, fun r hr => hr, fun p' hh => by cases hh⟩

/-- The outcome of `node[path]` is determined by the node's data and depth. -/
theorem Inv.getItem_result (h : Inv k x t) : ∀ (path p : List P) (d : D), (t p).isSome →
    k.along x p = .ok d → (∀ q ∈ path, q ∈ k.parts) → ((p ++ path).length : ℤ) ≤ k.maxlevel →
    (k.getItem t p path).1 = match k.along d path with
      | .error e => .error e
      | .ok _ => .ok (p ++ path) := by
  intro path
  induction path generalizing t with
  | nil =>
    intro p d hp ha _ hl
    unfold PKind.getItem
    simp only [List.append_nil] at hl ⊢
    rw [if_neg (by omega)]
    rfl
  | cons q qs ih =>
    intro p d hp ha hqs hl
    have hlen : ¬ ((q :: qs).length : ℤ) > k.maxlevel := by
      simp only [List.length_append] at hl
      push_cast at hl
      omega
    have hlt : (p.length : ℤ) < k.maxlevel := by
      simp only [List.length_append, List.length_cons] at hl
      push_cast at hl
      omega
    unfold PKind.getItem
    rw [if_neg hlen]
    have hq : q ∈ k.parts := hqs q (by simp)
    obtain ⟨g1, g2, g3, g4, g5⟩ := h.getSubnode hp ha hq
    rcases hg : k.getSubnode t p q true with ⟨r, t'⟩
    rw [hg] at g1 g2 g3 g4 g5
    cases hc : k.dec d with
    | error e =>
      have := g4 e hlt hc
      simp only at this
      subst this
      simp only [along, hc]
    | ok c =>
      obtain ⟨e1, e2⟩ := g3 c hlt hc
      simp only at e1 e2
      subst e1
      simp only [along, hc]
      have ha' : k.along x (p ++ [q]) = .ok (c q) := by rw [along_snoc, ha]; simp only [hc]
      rw [ih g1 (p ++ [q]) (c q) e2 ha' (fun q' h' => hqs q' (by simp [h'])) (by simpa using hl)]
      cases k.along (c q) qs <;> simp

/-- `forParts` with a step that keeps an invariant. -/
theorem forParts_inv {f : PTree P D → P → Py (List (List P)) × PTree P D} {I : PTree P D → Prop}
    (hf : ∀ t q, I t → I (f t q).2) : ∀ (qs : List P) (t : PTree P D), I t → I (forParts f qs t).2 := by
  intro qs
  induction qs with
  | nil => intro t ht; exact ht
  | cons q qs ih =>
    intro t ht
    have h1 := hf t q ht
    unfold forParts
    rcases hg : f t q with ⟨r, t'⟩
    rw [hg] at h1
    cases r with
    | error e => exact h1
    | ok l =>
      have h2 := ih t' h1
      simp only
      rcases hg2 : forParts f qs t' with ⟨r2, t2⟩
      rw [hg2] at h2
      cases r2 <;> exact h2

theorem Inv.walk (stop : PTree P D → List P → Bool) (dec : Bool) : ∀ (n : ℕ) (p : List P) {t : PTree P D},
    Inv k x t → (t p).isSome →
    Inv k x (k.walk stop dec n p t).2 ∧ ∀ r, (t r).isSome → ((k.walk stop dec n p t).2 r).isSome := by
  intro n
  induction n with
  | zero => intro p t h hp; exact ⟨h, fun r hr => hr⟩
  | succ n ih =>
    intro p t h hp
    unfold PKind.walk
    split_ifs with h1 h2
    · exact ⟨h, fun r hr => hr⟩
    · have key := forParts_inv (f := fun t q =>
        match k.getSubnode t p q dec with
        | (.error e, t') => (.error e, t')
        | (.ok none, t') => (.ok [], t')
        | (.ok (some p'), t') => PKind.walk k stop dec n p' t')
        (I := fun t' => Inv k x t' ∧ (∀ r, (t r).isSome → (t' r).isSome))
        (fun t' q hI => by
          obtain ⟨hI1, hI2⟩ := hI
          have hp' := hI2 p hp
          by_cases hq : q ∈ k.parts
          · cases dec with
            | false =>
              rw [getSubnode_false t' p q hq]
              by_cases hx : (t' (p ++ [q])).isSome
              · rw [if_pos hx]
                obtain ⟨w1, w2⟩ := ih (p ++ [q]) hI1 hx
                exact ⟨w1, fun r hr => w2 r (hI2 r hr)⟩
              · rw [if_neg hx]
                exact ⟨hI1, hI2⟩
            | true =>
              obtain ⟨d, ha, hd⟩ := hI1.dataAt hp'
              obtain ⟨g1, g2, g3, g4, g5⟩ := hI1.getSubnode hp' ha hq
              rcases hg : k.getSubnode t' p q true with ⟨r, t2⟩
              rw [hg] at g1 g2 g3 g4 g5
              by_cases hl : (p.length : ℤ) < k.maxlevel
              · cases hc : k.dec d with
                | error e =>
                  have := g4 e hl hc
                  simp only at this
                  subst this
                  exact ⟨g1, fun r hr => g2 r (hI2 r hr)⟩
                | ok c =>
                  obtain ⟨e1, e2⟩ := g3 c hl hc
                  simp only at e1 e2
                  subst e1
                  obtain ⟨w1, w2⟩ := ih (p ++ [q]) g1 e2
                  exact ⟨w1, fun r hr => w2 r (g2 r (hI2 r hr))⟩
              · have := g5 hl
                simp only at this
                subst this
                exact ⟨g1, fun r hr => g2 r (hI2 r hr)⟩
          · rw [getSubnode_bad _ hq]
            exact ⟨hI1, hI2⟩) k.parts t ⟨h, fun r hr => hr⟩
      exact key
    · exact ⟨h, fun r hr => hr⟩

theorem forParts_ok {f : PTree P D → P → Py (List (List P)) × PTree P D} {I : PTree P D → Prop}
    {g : P → List (List P)} : ∀ (qs : List P),
    (∀ t q, q ∈ qs → I t → (f t q).1 = .ok (g q) ∧ I (f t q).2 ∧
      (∀ r, (t r).isSome → ((f t q).2 r).isSome) ∧ ∀ r ∈ g q, ((f t q).2 r).isSome) →
    ∀ (t : PTree P D), I t →
    (forParts f qs t).1 = .ok (qs.flatMap g) ∧ I (forParts f qs t).2 ∧
      (∀ r, (t r).isSome → ((forParts f qs t).2 r).isSome) ∧
      ∀ r ∈ qs.flatMap g, ((forParts f qs t).2 r).isSome := by
  intro qs
  induction qs with
  | nil => intro _ t ht; exact ⟨rfl, ht, fun r hr => hr, fun r hr => by simp at hr⟩
  | cons q qs ih =>
    intro hf t ht
    obtain ⟨a1, a2, a3, a4⟩ := hf t q (by simp) ht
    unfold forParts
    rcases hg : f t q with ⟨r, t'⟩
    rw [hg] at a1 a2 a3 a4
    simp only at a1 a2 a3 a4
    subst a1
    obtain ⟨b1, b2, b3, b4⟩ := ih (fun t q hq => hf t q (by simp [hq])) t' a2
    simp only
    rcases hg2 : forParts f qs t' with ⟨r2, t2⟩
    rw [hg2] at b1 b2 b3 b4
    simp only at b1 b2 b3 b4
    subst b1
    refine ⟨by simp, b2, fun r hr => b3 r (a3 r hr), fun r hr => ?_⟩
    rw [List.flatMap_cons, List.mem_append] at hr
    rcases hr with hr | hr
    · exact b3 r (a4 r hr)
    · exact b4 r hr

/-- The walk of `get_level` with `decompose=True`. -/
theorem Inv.walk_level (lev : ℕ) (hlev : (lev : ℤ) ≤ k.maxlevel) : ∀ (m n : ℕ) (p : List P) {t : PTree P D}
    {d : D}, Inv k x t → (t p).isSome → k.along x p = .ok d → p.length + m = lev → m < n →
    (∀ s : List P, s.length ≤ m → (∀ q ∈ s, q ∈ k.parts) → ∃ d', k.along d s = .ok d') →
    (k.walk (fun _ p => decide ((p.length : ℤ) = lev)) true n p t).1 =
      .ok ((wordsOf k.parts m).map (p ++ ·)) ∧
    (∀ r ∈ (wordsOf k.parts m).map (p ++ ·),
      ((k.walk (fun _ p => decide ((p.length : ℤ) = lev)) true n p t).2 r).isSome) := by
  intro m
  induction m with
  | zero =>
    intro n p t d h hp ha hl hn _
    obtain ⟨n, rfl⟩ : ∃ n', n = n' + 1 := ⟨n - 1, by omega⟩
    unfold PKind.walk
    have e : decide ((p.length : ℤ) = lev) = true := by
      rw [decide_eq_true_eq]; omega
    rw [if_pos e]
    simp [wordsOf, hp]
  | succ m ih =>
    intro n p t d h hp ha hl hn hok
    obtain ⟨n, rfl⟩ : ∃ n', n = n' + 1 := ⟨n - 1, by omega⟩
    unfold PKind.walk
    have e : ¬ decide ((p.length : ℤ) = lev) = true := by
      rw [decide_eq_true_eq]; omega
    have e2 : (p.length : ℤ) < k.maxlevel := by omega
    rw [if_neg e, if_pos e2]
    have key := forParts_ok (f := fun t q =>
        match k.getSubnode t p q true with
        | (.error e, t') => (.error e, t')
        | (.ok none, t') => (.ok [], t')
        | (.ok (some p'), t') =>
            PKind.walk k (fun _ p => decide ((p.length : ℤ) = lev)) true n p' t')
        (I := fun t' => Inv k x t' ∧ (t' p).isSome)
        (g := fun q => (wordsOf k.parts m).map ((p ++ [q]) ++ ·)) k.parts
        (fun t' q hq hI => by
          obtain ⟨hI1, hI2⟩ := hI
          obtain ⟨g1, g2, g3, -, -⟩ := hI1.getSubnode hI2 ha hq
          rcases hg : k.getSubnode t' p q true with ⟨r, t2⟩
          rw [hg] at g1 g2 g3
          obtain ⟨d1, hd1⟩ := hok [q] (by simp) (by simpa using hq)
          unfold along at hd1
          cases hc : k.dec d with
          | error e => simp only [hc] at hd1; cases hd1
          | ok c =>
            obtain ⟨e1, e2⟩ := g3 c e2 hc
            simp only at e1 e2
            subst e1
            have ha' : k.along x (p ++ [q]) = .ok (c q) := by rw [along_snoc, ha]; simp only [hc]
            obtain ⟨w1, w2⟩ := ih n (p ++ [q]) g1 e2 ha' (by simp; omega) (by omega) (by
              intro s hs hs'
              obtain ⟨d', hd'⟩ := hok (q :: s) (by simp; omega) (by
                intro q' h'
                rcases List.mem_cons.1 h' with rfl | h'
                · exact hq
                · exact hs' q' h')
              unfold along at hd'
              simp only [hc] at hd'
              exact ⟨d', hd'⟩)
            obtain ⟨v1, v2⟩ := Inv.walk (k := k) (x := x)
              (fun _ p => decide ((p.length : ℤ) = lev)) true n (p ++ [q]) g1 e2
            exact ⟨w1, ⟨v1, v2 _ (g2 _ hI2)⟩, fun r hr => v2 r (g2 r hr), w2⟩) t ⟨h, hp⟩
    have e3 : (wordsOf k.parts (m + 1)).map (p ++ ·) =
        k.parts.flatMap fun q => (wordsOf k.parts m).map ((p ++ [q]) ++ ·) := by
      simp [wordsOf, List.map_flatMap, Function.comp_def]
    rw [e3]
    exact ⟨key.1, key.2.2.2⟩

/-- The walk of `get_level` with `decompose=False`. -/
theorem Inv.walk_level_existing (lev : ℕ) (hlev : (lev : ℤ) ≤ k.maxlevel) : ∀ (m n : ℕ) (p : List P)
    {t : PTree P D}, Inv k x t → (t p).isSome → p.length + m = lev → m < n →
    k.walk (fun _ p => decide ((p.length : ℤ) = lev)) false n p t =
      (.ok (((wordsOf k.parts m).map (p ++ ·)).filter fun r => (t r).isSome), t) := by
  intro m
  induction m with
  | zero =>
    intro n p t h hp hl hn
    obtain ⟨n, rfl⟩ : ∃ n', n = n' + 1 := ⟨n - 1, by omega⟩
    unfold PKind.walk
    have e : decide ((p.length : ℤ) = lev) = true := by
      rw [decide_eq_true_eq]; omega
    rw [if_pos e]
    simp [wordsOf, hp]
  | succ m ih =>
    intro n p t h hp hl hn
    obtain ⟨n, rfl⟩ : ∃ n', n = n' + 1 := ⟨n - 1, by omega⟩
    unfold PKind.walk
    have e : ¬ decide ((p.length : ℤ) = lev) = true := by
      rw [decide_eq_true_eq]; omega
    have e2 : (p.length : ℤ) < k.maxlevel := by omega
    rw [if_neg e, if_pos e2]
    have e3 : (wordsOf k.parts (m + 1)).map (p ++ ·) =
        k.parts.flatMap fun q => (wordsOf k.parts m).map ((p ++ [q]) ++ ·) := by
      simp [wordsOf, List.map_flatMap, Function.comp_def]
    rw [e3]
    have key : ∀ qs : List P, (∀ q ∈ qs, q ∈ k.parts) → forParts (fun t q =>
        match k.getSubnode t p q false with
        | (.error e, t') => (.error e, t')
        | (.ok none, t') => (.ok [], t')
        | (.ok (some p'), t') =>
            PKind.walk k (fun _ p => decide ((p.length : ℤ) = lev)) false n p' t') qs t =
        (.ok ((qs.flatMap fun q => (wordsOf k.parts m).map ((p ++ [q]) ++ ·)).filter
          fun r => (t r).isSome), t) := by
      intro qs
      induction qs with
      | nil => intro _; rfl
      | cons q qs ihq =>
        intro hqs
        have hq : q ∈ k.parts := hqs q (by simp)
        unfold forParts
        simp only [getSubnode_false t p q hq]
        by_cases hx : (t (p ++ [q])).isSome
        · simp only [if_pos hx]
          rw [ih n (p ++ [q]) h hx (by simp; omega) (by omega)]
          simp only [ihq fun q' h' => hqs q' (by simp [h'])]
          simp [List.filter_append]
        · simp only [if_neg hx]
          rw [ihq fun q' h' => hqs q' (by simp [h'])]
          have e4 : ((wordsOf k.parts m).map ((p ++ [q]) ++ ·)).filter (fun r => (t r).isSome) = [] := by
            rw [List.filter_eq_nil_iff]
            intro r hr he
            obtain ⟨s, -, rfl⟩ := List.mem_map.1 hr
            exact hx (h.anc _ s he)
          simp only [List.flatMap_cons, List.filter_append, e4, List.nil_append]
    exact key k.parts fun q hq => hq

theorem Inv.letters (h : Inv k x t) (p : List P) : (t p).isSome → ∀ q ∈ p, q ∈ k.parts := by
  induction p using List.reverseRecOn with
  | nil => intro _ q hq; simp at hq
  | append_singleton p r ih =>
    intro hp q hq
    obtain ⟨h1, h2⟩ := h.par p r hp
    rcases List.mem_append.1 hq with hq | hq
    · exact ih h1 q hq
    · rw [List.mem_singleton] at hq
      rw [hq]; exact h2

/-- The inverse transform undoes the decomposition, up to cutting to the shape. -/
def Inverts (k : PKind P D) (x : D) : Prop :=
  ∀ p d c, (p.length : ℤ) < k.maxlevel → (∀ q ∈ p, q ∈ k.parts) → k.along x p = .ok d → k.dec d = .ok c → ∃ y, k.recon (fun q => if q ∈ k.parts then some (c q) else none) = .ok y ∧
    (y = d ∨ k.shapeOf y ≠ k.shapeOf d ∧ k.cut (k.shapeOf d) y = .ok d)

theorem gather_ok {f : P → Py (Option D)} {g : P → Option D} : ∀ (qs : List P),
    (∀ q ∈ qs, f q = .ok (g q)) → gather f qs = .ok fun r => if r ∈ qs then g r else none := by
  intro qs
  induction qs with
  | nil => intro _; simp [gather]
  | cons q qs ih =>
    intro h
    unfold gather
    rw [h q (by simp), ih fun q' h' => h q' (by simp [h'])]
    simp only [Py_bind_ok, Py_pure]
    congr 1
    funext r
    by_cases hr : r = q
    · simp [hr]
    · simp [hr]

theorem Inv.hasAny_iff (h : Inv k x t) {p : List P} :
    k.hasAny t p = true ↔ (∃ q, q ∈ k.parts) ∧ ∀ q ∈ k.parts, (t (p ++ [q])).isSome := by
  unfold hasAny
  rw [List.any_eq_true]
  constructor
  · rintro ⟨q, hq, he⟩
    exact ⟨⟨q, hq⟩, fun r hr => h.sib p q r hr he⟩
  · rintro ⟨⟨q, hq⟩, he⟩
    exact ⟨q, hq, he q hq⟩

/-- Reconstruction of a node of an unmodified tree returns the data of the node, whatever part of the
tree exists below it. -/
theorem Inv.reconstruct (h : Inv k x t) (hi : Inverts k x) : ∀ (n : ℕ) (p : List P) (d : D),
    (t p).isSome → k.along x p = .ok d → k.maxlevel.toNat < n + p.length →
    k.reconstruct t n p = .ok (some d) := by
  intro n
  induction n with
  | zero =>
    intro p d hp ha hn
    exfalso
    rcases h.depth p hp with rfl | h1
    · simp at hn
    · omega
  | succ n ih =>
    intro p d hp ha hn
    obtain ⟨d', ha', hd⟩ := h.dataAt hp
    rw [ha] at ha'
    injection ha' with ha'
    subst ha'
    unfold PKind.reconstruct
    simp only [hd]
    by_cases hany : k.hasAny t p = true
    · rw [if_neg (by simp [hany])]
      obtain ⟨⟨q0, hq0⟩, hall⟩ := h.hasAny_iff.1 hany
      obtain ⟨d0, a0, -⟩ := h.dataAt (hall q0 hq0)
      rw [along_snoc, ha] at a0
      cases hc : k.dec d with
      | error e => simp only [hc] at a0; cases a0
      | ok c =>
        have hg : gather (fun q => if (t (p ++ [q])).isSome then PKind.reconstruct k t n (p ++ [q])
            else .ok none) k.parts = .ok fun q => if q ∈ k.parts then some (c q) else none := by
          apply gather_ok (g := fun q => some (c q))
          intro q hq
          rw [if_pos (hall q hq)]
          apply ih (p ++ [q]) (c q) (hall q hq)
          · rw [along_snoc, ha]; simp only [hc]
          · simp; omega
        rw [hg]
        obtain ⟨y, y1, y2⟩ := hi p d c (by
          have := h.depth _ (hall q0 hq0)
          simp at this
          omega) (h.letters p hp) ha hc
        simp only [Py_bind_ok, y1]
        rcases y2 with rfl | ⟨y2, y3⟩
        · simp
        · rw [if_pos y2, y3]
          simp only [Py_bind_ok, Py_pure]
    · rw [if_pos (by simpa using hany)]

theorem setData_same {p : List P} {nd : PNode D} (h : t p = some nd) : setData t p nd.data = t := by
  funext q
  unfold setData
  split_ifs with hq
  · subst hq; rw [h]; rfl
  · rfl

/-- Reconstruction does not change an unmodified tree, even with `update=True`. -/
theorem Inv.reconstructNode (h : Inv k x t) (hi : Inverts k x) {p : List P} {d : D} (hp : (t p).isSome)
    (ha : k.along x p = .ok d) (update : Bool) :
    k.reconstructNode t p update = (.ok (some d), t) := by
  unfold PKind.reconstructNode
  rw [h.reconstruct hi k.fuel p d hp ha (by unfold fuel; omega)]
  obtain ⟨d', ha', hd⟩ := h.dataAt hp
  rw [ha] at ha'
  injection ha' with ha'
  subst ha'
  have := setData_same hd
  simp only at this
  simp only [this, ite_self]

theorem Inv.reconstructRoot (h : Inv k x t) (hi : Inverts k x) (hs : ∀ s, k.size = some s → s = k.shapeOf x)
    (update : Bool) : k.reconstructRoot t update = (.ok (some x), t) := by
  unfold PKind.reconstructRoot
  obtain ⟨d, hx, hd⟩ := h.dataAt h.root
  have hd' : d = x := by
    unfold along at hx
    injection hx with hx
    exact hx.symm
  subst hd'
  have := setData_same hd
  simp only at this
  by_cases hany : k.hasAny t [] = true
  · rw [if_pos hany, h.reconstructNode hi h.root rfl]
    simp only [this, ite_self]
    cases hsz : k.size with
    | none => rfl
    | some s =>
      simp only
      rw [if_neg (by simpa using (hs s hsz).symm)]
  · rw [if_neg hany, hd]; rfl

theorem reconstructNode_false (t : PTree P D) (p : List P) : (k.reconstructNode t p false).2 = t := by
  unfold PKind.reconstructNode
  cases k.reconstruct t k.fuel p <;> simp

theorem reconstructRoot_false (t : PTree P D) : (k.reconstructRoot t false).2 = t := by
  have h := reconstructNode_false (k := k) t []
  unfold PKind.reconstructRoot
  rcases hr : k.reconstructNode t [] false with ⟨r, t'⟩
  rw [hr] at h
  simp only at h
  subst h
  by_cases hany : k.hasAny t' [] = true
  · rw [if_pos hany]
    cases r with
    | error e => rfl
    | ok o =>
      cases o with
      | none => rfl
      | some r =>
        simp only
        cases k.size with
        | none => rfl
        | some s =>
          simp only
          by_cases he : k.shapeOf r ≠ s
          · rw [if_pos he]
          · rw [if_neg he]; rfl
  · rw [if_neg hany]

/-- The invariant is kept by everything that does not assign or delete nodes. -/
theorem Inv.exec (h : Inv k x t) (op : POp P D)
    (ho : op.ReadOnly ∨ (op.NoEdit ∧ Inverts k x ∧ ∀ s, k.size = some s → s = k.shapeOf x)) :
    Inv k x (k.exec t op) := by
  cases op with
  | get path => exact (h.getItem path [] h.root).1
  | decompose path =>
    obtain ⟨g1, g2, g3⟩ := h.getItem path [] h.root
    unfold PKind.exec
    simp only
    rcases hg : k.getItem t [] path with ⟨r, t'⟩
    rw [hg] at g1 g2 g3
    cases r with
    | error e => exact g1
    | ok p => exact g1.decompose (g3 p rfl).2
  | getLevel level dec =>
    unfold PKind.exec PKind.getLevel
    simp only
    split_ifs
    · exact h
    · exact (Inv.walk _ _ _ _ h h.root).1
  | getLeafNodes dec =>
    unfold PKind.exec PKind.getLeafNodes
    exact (Inv.walk _ _ _ _ h h.root).1
  | reconstruct path update =>
    obtain ⟨g1, g2, g3⟩ := h.getItem path [] h.root
    unfold PKind.exec
    simp only
    rcases hg : k.getItem t [] path with ⟨r, t'⟩
    rw [hg] at g1 g2 g3
    cases r with
    | error e => exact g1
    | ok p =>
      simp only
      rcases ho with ho | ⟨-, hi, hs⟩
      · have hu : update = false := ho
        subst hu
        split_ifs
        · rw [reconstructRoot_false]; exact g1
        · rw [reconstructNode_false]; exact g1
      · split_ifs
        · rw [g1.reconstructRoot hi hs]; exact g1
        · obtain ⟨d, ha, -⟩ := g1.dataAt (g3 p rfl).2
          rw [g1.reconstructNode hi (g3 p rfl).2 ha]; exact g1
  | set path data => rcases ho with ho | ⟨ho, -⟩ <;> exact ho.elim
  | del path => rcases ho with ho | ⟨ho, -⟩ <;> exact ho.elim

theorem Inv.execs (h : Inv k x t) (ops : List (POp P D))
    (ho : ∀ op ∈ ops, op.ReadOnly ∨ (op.NoEdit ∧ Inverts k x ∧ ∀ s, k.size = some s → s = k.shapeOf x)) :
    Inv k x (ops.foldl k.exec t) := by
  induction ops generalizing t with
  | nil => exact h
  | cons op ops ih =>
    exact ih (h.exec op (ho op (by simp))) fun o ho' => ho o (by simp [ho'])

/-- `get_level` on an unmodified tree whose data can be decomposed that far. -/
theorem Inv.getLevel (h : Inv k x t) {lev : ℕ} (hl : (lev : ℤ) ≤ k.maxlevel)
    (hok : ∀ s : List P, s.length ≤ lev → (∀ q ∈ s, q ∈ k.parts) → ∃ d, k.along x s = .ok d) :
    (k.getLevel t lev true).1 = .ok (wordsOf k.parts lev) ∧
    ∀ r ∈ wordsOf k.parts lev, ∃ d, k.along x r = .ok d ∧
      (k.getLevel t lev true).2 r = some ⟨some d, some (k.shapeOf d)⟩ := by
  have h1 := h.walk_level lev hl lev k.fuel [] h.root rfl (by simp) (by unfold fuel; omega)
    (fun s hs hq => hok s hs hq)
  have h2 := Inv.walk (fun _ p => decide ((p.length : ℤ) = lev)) true k.fuel [] h h.root
  unfold PKind.getLevel
  rw [if_neg (by omega)]
  have e : (wordsOf k.parts lev).map (([] : List P) ++ ·) = wordsOf k.parts lev := by simp
  rw [e] at h1
  exact ⟨h1.1, fun r hr => h2.1.dataAt (h1.2 r hr)⟩

theorem Inv.getLevel_existing (h : Inv k x t) {lev : ℕ} (hl : (lev : ℤ) ≤ k.maxlevel) :
    k.getLevel t lev false = (.ok ((wordsOf k.parts lev).filter fun r => (t r).isSome), t) := by
  have h1 := h.walk_level_existing lev hl lev k.fuel [] h.root (by simp) (by unfold fuel; omega)
  unfold PKind.getLevel
  rw [if_neg (by omega), h1]
  simp

end PKind

end Pywt
