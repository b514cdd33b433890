import Verif.Proof.Packet

/-!
# Packet trees after arbitrary histories

`Tidy k t`: the existing nodes form a tree below the root.  Every operation keeps this, assignments and
deletions included.
-/

namespace Pywt

open Spec

set_option linter.unusedSectionVars false

namespace PKind

variable {P D : Type} [DecidableEq P] {k : PKind P D} {t : PTree P D}

/-- The existing nodes form a tree of bounded depth. -/
structure Tidy (k : PKind P D) (t : PTree P D) : Prop where
  root : (t []).isSome
  up : ∀ p q, (t (p ++ [q])).isSome → (t p).isSome ∧ q ∈ k.parts ∧ (p.length : ℤ) < k.maxlevel

/-- Only nodes strictly below `p` may differ. -/
def Keep (p : List P) (t t' : PTree P D) : Prop := ∀ r, (∀ q rest, r ≠ p ++ q :: rest) → t' r = t r

theorem Keep.refl (p : List P) (t : PTree P D) : Keep p t t := fun _ _ => rfl

theorem Keep.trans {p : List P} {t t' t'' : PTree P D} (h : Keep p t t') (h' : Keep p t' t'') :
    Keep p t t'' := fun r hr => (h' r hr).trans (h r hr)

theorem Keep.self {p : List P} {t t' : PTree P D} (h : Keep p t t') : t' p = t p :=
  h p fun q rest e => by simpa using congrArg List.length e

theorem Keep.weaken {p : List P} {q : P} {t t' : PTree P D} (h : Keep (p ++ [q]) t t') : Keep p t t' :=
  fun r hr => h r fun q' rest e => hr q (q' :: rest) (by simpa using e)

theorem Tidy.anc (h : Tidy k t) (p : List P) : ∀ s : List P, (t (p ++ s)).isSome → (t p).isSome := by
  intro s
  induction s using List.reverseRecOn with
  | nil => intro h; simpa using h
  | append_singleton s q ih =>
    intro hs
    rw [← List.append_assoc] at hs
    exact ih (h.up _ _ hs).1

theorem Tidy.letters (h : Tidy k t) (p : List P) : (t p).isSome → ∀ q ∈ p, q ∈ k.parts := by
  induction p using List.reverseRecOn with
  | nil => intro _ q hq; simp at hq
  | append_singleton p r ih =>
    intro hp q hq
    obtain ⟨h1, h2, -⟩ := h.up p r hp
    rcases List.mem_append.1 hq with hq | hq
    · exact ih h1 q hq
    · rw [List.mem_singleton] at hq
      rw [hq]; exact h2

theorem Tidy.depth (h : Tidy k t) (p : List P) (hp : (t p).isSome) :
    p = [] ∨ (p.length : ℤ) ≤ k.maxlevel := by
  rcases List.eq_nil_or_concat p with rfl | ⟨l, a, rfl⟩
  · exact Or.inl rfl
  · right
    rw [List.concat_eq_append] at hp
    have := (h.up l a hp).2.2
    simp
    omega

theorem tidy_init (k : PKind P D) (data : Option D) : Tidy k (k.init data) where
  root := by simp [init]
  up p q h := by simp [init] at h

theorem Tidy.create (h : Tidy k t) {p : List P} {q : P} (hp : (t p).isSome) (hq : q ∈ k.parts)
    (hl : (p.length : ℤ) < k.maxlevel) (data : Option D) : Tidy k (k.create t p q data) := by
  have key : ∀ r, (t r).isSome → ¬ (p ++ [q]) <+: r → (k.create t p q data r).isSome := by
    intro r hr hn
    unfold PKind.create
    rw [if_neg (by rintro rfl; exact hn List.prefix_rfl), if_neg hn]
    exact hr
  refine ⟨key [] h.root (fun hh => by simpa using hh.length_le), ?_⟩
  intro r a hra
  unfold PKind.create at hra
  by_cases h1 : r ++ [a] = p ++ [q]
  · obtain ⟨rfl, h2⟩ := List.append_inj' h1 rfl
    simp only [List.cons.injEq, and_true] at h2
    subst h2
    exact ⟨key _ hp (fun hh => by simpa using hh.length_le), hq, hl⟩
  · rw [if_neg h1] at hra
    by_cases h2 : (p ++ [q]) <+: (r ++ [a])
    · rw [if_pos h2] at hra; simp at hra
    · rw [if_neg h2] at hra
      obtain ⟨u1, u2, u3⟩ := h.up r a hra
      exact ⟨key r u1 fun hh => h2 (hh.trans (List.prefix_append _ _)), u2, u3⟩

theorem create_keep (t : PTree P D) (p : List P) (q : P) (data : Option D) :
    Keep p t (k.create t p q data) := by
  intro r hr
  unfold PKind.create
  rw [if_neg (hr q []), if_neg]
  rintro ⟨s, rfl⟩
  exact hr q s (by simp)

theorem Tidy.createAll' {p : List P} (f : P → Option D) (hl : (p.length : ℤ) < k.maxlevel) :
    ∀ (qs : List P) {t : PTree P D}, Tidy k t → (t p).isSome → (∀ q ∈ qs, q ∈ k.parts) →
    Tidy k (k.createAll t p f qs) ∧ Keep p t (k.createAll t p f qs) := by
  intro qs
  induction qs with
  | nil => intro t h hp _; exact ⟨h, Keep.refl p t⟩
  | cons q qs ih =>
    intro t h hp hqs
    have hk := create_keep (k := k) t p q (f q)
    obtain ⟨a, b⟩ := ih (h.create hp (hqs q (by simp)) hl (f q)) (by rw [hk.self]; exact hp)
      (fun q' h' => hqs q' (by simp [h']))
    exact ⟨a, hk.trans b⟩

theorem Tidy.createMissing {p : List P} (hl : (p.length : ℤ) < k.maxlevel) :
    ∀ (qs : List P) {t : PTree P D}, Tidy k t → (t p).isSome → (∀ q ∈ qs, q ∈ k.parts) →
    Tidy k (k.createMissing t p qs) ∧ Keep p t (k.createMissing t p qs) := by
  intro qs
  induction qs with
  | nil => intro t h hp _; exact ⟨h, Keep.refl p t⟩
  | cons q qs ih =>
    intro t h hp hqs
    unfold PKind.createMissing
    split_ifs with h1
    · exact ih h hp fun q' h' => hqs q' (by simp [h'])
    · have hk := create_keep (k := k) t p q none
      obtain ⟨a, b⟩ := ih (h.create hp (hqs q (by simp)) hl none) (by rw [hk.self]; exact hp)
        (fun q' h' => hqs q' (by simp [h']))
      exact ⟨a, hk.trans b⟩

theorem Tidy.decompose (h : Tidy k t) {p : List P} (hp : (t p).isSome) :
    Tidy k (k.decompose t p).2 ∧ Keep p t (k.decompose t p).2 := by
  unfold PKind.decompose
  by_cases hl : (p.length : ℤ) < k.maxlevel
  · rw [if_pos hl]
    cases hn : t p with
    | none => exact ⟨h, Keep.refl p t⟩
    | some nd =>
      simp only
      cases hd : nd.data with
      | none =>
        simp only
        cases k.keeps with
        | true => exact Tidy.createMissing hl k.parts h hp fun _ hq => hq
        | false => exact Tidy.createAll' _ hl k.parts h hp fun _ hq => hq
      | some d =>
        simp only
        cases hc : k.dec d with
        | error e => exact ⟨h, Keep.refl p t⟩
        | ok c => exact Tidy.createAll' _ hl k.parts h hp fun _ hq => hq
  · rw [if_neg hl]
    exact ⟨h, Keep.refl p t⟩

theorem Tidy.getSubnode (h : Tidy k t) {p : List P} (hp : (t p).isSome) (q : P) (dec : Bool) :
    Tidy k (k.getSubnode t p q dec).2 ∧ Keep p t (k.getSubnode t p q dec).2 ∧
      ∀ p', (k.getSubnode t p q dec).1 = .ok (some p') →
        p' = p ++ [q] ∧ ((k.getSubnode t p q dec).2 p').isSome := by
  unfold PKind.getSubnode
  by_cases h1 : q ∉ k.parts
  · rw [if_pos h1]
    exact ⟨h, Keep.refl p t, fun p' e => by cases e⟩
  rw [if_neg h1]
  by_cases h2 : (t (p ++ [q])).isSome
  · rw [if_pos h2]
    refine ⟨h, Keep.refl p t, fun p' e => ?_⟩
    injection e with e
    injection e with e
    subst e
    exact ⟨rfl, h2⟩
  rw [if_neg h2]
  by_cases h3 : (dec && ((t p).bind fun x => x.data).isSome) = true
  · rw [if_pos h3]
    obtain ⟨d1, d2⟩ := h.decompose hp
    rcases hg : k.decompose t p with ⟨r, t'⟩
    rw [hg] at d1 d2
    cases r with
    | error e => exact ⟨d1, d2, fun p' e => by cases e⟩
    | ok u =>
      refine ⟨d1, d2, fun p' e => ?_⟩
      simp only at e ⊢
      injection e with e
      split_ifs at e with h4
      injection e with e
      subst e
      exact ⟨rfl, h4⟩
  · rw [if_neg h3]
    exact ⟨h, Keep.refl p t, fun p' e => by cases e⟩

theorem Tidy.getItem : ∀ (path p : List P) {t : PTree P D}, Tidy k t → (t p).isSome →
    Tidy k (k.getItem t p path).2 ∧ Keep p t (k.getItem t p path).2 ∧
      ∀ p', (k.getItem t p path).1 = .ok p' →
        p' = p ++ path ∧ ((k.getItem t p path).2 p').isSome := by
  intro path
  induction path with
  | nil =>
    intro p t h hp
    unfold PKind.getItem
    split_ifs
    · exact ⟨h, Keep.refl p t, fun p' e => by cases e⟩
    · refine ⟨h, Keep.refl p t, fun p' e => ?_⟩
      injection e with e
      subst e
      exact ⟨by simp, hp⟩
  | cons q qs ih =>
    intro p t h hp
    unfold PKind.getItem
    split_ifs
    · exact ⟨h, Keep.refl p t, fun p' e => by cases e⟩
    · obtain ⟨g1, g2, g3⟩ := h.getSubnode hp q true
      rcases hg : k.getSubnode t p q true with ⟨r, t'⟩
      rw [hg] at g1 g2 g3
      cases r with
      | error e => exact ⟨g1, g2, fun p' e => by cases e⟩
      | ok o =>
        cases o with
        | none => exact ⟨g1, g2, fun p' e => by cases e⟩
        | some p1 =>
          obtain ⟨rfl, e2⟩ := g3 p1 rfl
          obtain ⟨i1, i2, i3⟩ := ih (p ++ [q]) g1 e2
          refine ⟨i1, g2.trans i2.weaken, fun p' e => ?_⟩
          simpa using i3 p' e

theorem Tidy.walk (stop : PTree P D → List P → Bool) (dec : Bool) : ∀ (n : ℕ) (p : List P) {t : PTree P D},
    Tidy k t → (t p).isSome → Tidy k (k.walk stop dec n p t).2 ∧ Keep p t (k.walk stop dec n p t).2 := by
  intro n
  induction n with
  | zero => intro p t h hp; exact ⟨h, Keep.refl p t⟩
  | succ n ih =>
    intro p t h hp
    unfold PKind.walk
    split_ifs with h1 h2
    · exact ⟨h, Keep.refl p t⟩
    · exact forParts_inv (f := fun t q =>
        match k.getSubnode t p q dec with
        | (.error e, t') => (.error e, t')
        | (.ok none, t') => (.ok [], t')
        | (.ok (some p'), t') => PKind.walk k stop dec n p' t')
        (I := fun t' => Tidy k t' ∧ Keep p t t')
        (fun t' q hI => by
          obtain ⟨hI1, hI2⟩ := hI
          have hp' : (t' p).isSome := by rw [hI2.self]; exact hp
          obtain ⟨g1, g2, g3⟩ := hI1.getSubnode hp' q dec
          rcases hg : k.getSubnode t' p q dec with ⟨r, t2⟩
          rw [hg] at g1 g2 g3
          cases r with
          | error e => exact ⟨g1, hI2.trans g2⟩
          | ok o =>
            cases o with
            | none => exact ⟨g1, hI2.trans g2⟩
            | some p1 =>
              obtain ⟨rfl, e2⟩ := g3 p1 rfl
              obtain ⟨w1, w2⟩ := ih (p ++ [q]) g1 e2
              exact ⟨w1, (hI2.trans g2).trans w2.weaken⟩) k.parts t ⟨h, Keep.refl p t⟩
    · exact ⟨h, Keep.refl p t⟩

theorem setData_isSome (t : PTree P D) (p : List P) (r : Option D) (q : List P) :
    (setData t p r q).isSome = (t q).isSome := by
  unfold setData
  split_ifs with h
  · subst h; cases t q <;> rfl
  · rfl

theorem Tidy.of_isSome {t' : PTree P D} (h : Tidy k t) (e : ∀ r, (t' r).isSome = (t r).isSome) :
    Tidy k t' where
  root := by rw [e]; exact h.root
  up p q hq := by
    rw [e] at hq ⊢
    exact h.up p q hq

theorem reconstructNode_isSome (t : PTree P D) (p : List P) (u : Bool) (r : List P) :
    ((k.reconstructNode t p u).2 r).isSome = (t r).isSome := by
  unfold PKind.reconstructNode
  cases k.reconstruct t k.fuel p with
  | error e => rfl
  | ok d =>
    simp only
    split_ifs
    · rw [setData_isSome]
    · rfl

theorem reconstructRoot_isSome (t : PTree P D) (u : Bool) (r : List P) :
    ((k.reconstructRoot t u).2 r).isSome = (t r).isSome := by
  unfold PKind.reconstructRoot
  have hn := reconstructNode_isSome (k := k) t [] u r
  by_cases ha : k.hasAny t [] = true
  · rw [if_pos ha]
    rcases hg : k.reconstructNode t [] u with ⟨o, t'⟩
    rw [hg] at hn
    simp only at hn
    cases o with
    | error e => exact hn
    | ok o =>
      cases o with
      | none => exact hn
      | some d =>
        simp only
        cases k.size with
        | none =>
          simp only
          cases u <;> simp [setData_isSome, hn]
        | some s =>
          simp only
          split_ifs <;> simp [setData_isSome, hn]
  · rw [if_neg ha]

/-- What an assignment does: it succeeds exactly when the path is valid; then the node at the path holds
the data, missing ancestors are created without data, and every other node is as it was. -/
theorem Tidy.setItem (data : D) : ∀ (path p : List P) {t : PTree P D}, Tidy k t → (t p).isSome →
    Tidy k (k.setItem t p data path).2 ∧
    ((k.setItem t p data path).1 = .ok () ↔
      ((p.length + path.length : ℕ) : ℤ) ≤ k.maxlevel ∧ ∀ q ∈ path, q ∈ k.parts) ∧
    ((k.setItem t p data path).1 = .ok () → ∀ r,
      (k.setItem t p data path).2 r =
        if r = p ++ path then some ⟨some data, (t r).bind (·.shape)⟩
        else if (t r).isSome then t r
        else if p <+: r ∧ r <+: p ++ path then some ⟨none, none⟩ else none) := by
  intro path
  induction path with
  | nil =>
    intro p t h hp
    unfold PKind.setItem
    split_ifs with h1
    · refine ⟨h, ⟨fun e => (by cases e), fun e => ?_⟩, fun e => by cases e⟩
      have := e.1
      simp at this
      omega
    · obtain ⟨nd, hn⟩ := Option.isSome_iff_exists.1 hp
      simp only [hn]
      refine ⟨h.of_isSome fun r => ?_, ⟨fun _ => ⟨by simpa using h1, by simp⟩, fun _ => trivial⟩, fun _ r => ?_⟩
      · split_ifs with hr
        · subst hr; simp [hn]
        · rfl
      · simp only [List.append_nil]
        by_cases hr : r = p
        · subst hr; simp [hn]
        · simp only [if_neg hr]
          by_cases ht : (t r).isSome
          · simp [ht]
          · have e : ¬ (p <+: r ∧ r <+: p) := fun e => hr (e.2.eq_of_length_le e.1.length_le)
            simp only [e, if_false, ht]
            simpa using ht
  | cons q qs ih =>
    intro p t h hp
    unfold PKind.setItem
    by_cases h1 : ((p.length + (q :: qs).length : ℕ) : ℤ) > k.maxlevel
    · rw [if_pos h1]
      exact ⟨h, ⟨fun e => (by cases e), fun e => absurd e.1 (by omega)⟩, fun e => by cases e⟩
    · rw [if_neg h1]
      by_cases hq : q ∈ k.parts
      · rw [getSubnode_false t p q hq]
        have hlen : (p.length : ℤ) < k.maxlevel := by simp at h1; omega
        have hle : ((p.length + (q :: qs).length : ℕ) : ℤ) ≤ k.maxlevel ↔
            (((p ++ [q]).length + qs.length : ℕ) : ℤ) ≤ k.maxlevel := by
          simp; omega
        have hcond : ((((p ++ [q]).length + qs.length : ℕ) : ℤ) ≤ k.maxlevel ∧ ∀ q ∈ qs, q ∈ k.parts) ↔
            (((p.length + (q :: qs).length : ℕ) : ℤ) ≤ k.maxlevel ∧ ∀ q' ∈ q :: qs, q' ∈ k.parts) := by
          rw [hle]
          simp [hq]
        by_cases hx : (t (p ++ [q])).isSome
        · rw [if_pos hx]
          obtain ⟨i1, i2, i3⟩ := ih (p ++ [q]) h hx
          refine ⟨i1, by rw [← hcond]; exact i2, fun e r => ?_⟩
          simp only
          rw [i3 e r]
          have e1 : p ++ [q] ++ qs = p ++ q :: qs := by simp
          rw [e1]
          split_ifs with c1 c2 c3 c4 c4
          · rfl
          · rfl
          · rfl
          · exact absurd ⟨(List.prefix_append p [q]).trans c3.1, c3.2⟩ c4
          · exfalso
            obtain ⟨s, rfl⟩ := c4.1
            have c5 : s <+: q :: qs := (List.prefix_append_right_inj p).1 c4.2
            cases s with
            | nil => simp at c2; rw [c2] at hp; simp at hp
            | cons a s =>
              rw [List.cons_prefix_cons] at c5
              obtain ⟨rfl, c5⟩ := c5
              exact c3 ⟨by simp, c4.2⟩
          · rfl
        · rw [if_neg hx]
          have hc := h.create hp hq hlen (none : Option D)
          have hx' : ((k.create t p q none) (p ++ [q])).isSome := by simp [PKind.create]
          obtain ⟨i1, i2, i3⟩ := ih (p ++ [q]) hc hx'
          refine ⟨i1, by rw [← hcond]; exact i2, fun e r => ?_⟩
          simp only
          rw [i3 e r]
          have e1 : p ++ [q] ++ qs = p ++ q :: qs := by simp
          rw [e1]
          have hbelow : ∀ s, t (p ++ [q] ++ s) = none := by
            intro s
            cases hh : t (p ++ [q] ++ s) with
            | none => rfl
            | some nd => exact absurd (h.anc (p ++ [q]) s (by rw [hh]; rfl)) hx
          have hcr : ∀ r, k.create t p q none r = if r = p ++ [q] then some ⟨none, none⟩ else t r := by
            intro r
            unfold PKind.create
            split_ifs with c1 c2
            · rfl
            · obtain ⟨s, rfl⟩ := c2
              exact (hbelow s).symm
            · rfl
          rw [hcr r]
          by_cases c0 : r = p ++ q :: qs
          · rw [if_pos c0, if_pos c0]
            subst c0
            have := hbelow qs
            rw [e1] at this
            rw [this]
            split_ifs <;> rfl
          · rw [if_neg c0, if_neg c0]
            by_cases c1 : r = p ++ [q]
            · subst c1
              have c2 : t (p ++ [q]) = none := by simpa using hx
              simp [c2, List.cons_prefix_cons]
            · simp only [if_neg c1]
              by_cases c2 : (t r).isSome
              · simp [c2]
              · simp only [c2, if_false]
                by_cases c3 : p <+: r ∧ r <+: p ++ q :: qs
                · obtain ⟨s, rfl⟩ := c3.1
                  have c5 : s <+: q :: qs := (List.prefix_append_right_inj p).1 c3.2
                  cases s with
                  | nil => simp at c2; rw [c2] at hp; simp at hp
                  | cons a s =>
                    rw [List.cons_prefix_cons] at c5
                    obtain ⟨rfl, c5⟩ := c5
                    have c6 : p ++ [a] <+: p ++ a :: s ∧ p ++ a :: s <+: p ++ a :: qs :=
                      ⟨by simp [List.cons_prefix_cons], c3.2⟩
                    rw [if_pos c6, if_pos c3]
                · have c6 : ¬ (p ++ [q] <+: r ∧ r <+: p ++ q :: qs) := fun d =>
                    c3 ⟨(List.prefix_append p [q]).trans d.1, d.2⟩
                  rw [if_neg c3, if_neg c6]
      · rw [getSubnode_bad t hq]
        exact ⟨h, ⟨fun e => (by cases e), fun e => absurd (e.2 q (by simp)) hq⟩, fun e => by cases e⟩

theorem Tidy.delItem (h : Tidy k t) (path : List P) : Tidy k (k.delItem t path).2 := by
  unfold PKind.delItem
  obtain ⟨g1, g2, g3⟩ := Tidy.getItem path [] h h.root
  rcases hg : k.getItem t [] path with ⟨r, t'⟩
  rw [hg] at g1
  cases r with
  | error e => exact g1
  | ok p' =>
    simp only
    split_ifs with hp
    · exact g1
    · refine ⟨?_, ?_⟩
      · rw [if_neg]
        · exact g1.root
        · intro hh
          exact hp (List.prefix_nil.1 hh)
      · intro p q hq
        split_ifs at hq with c1
        · simp at hq
        · obtain ⟨u1, u2, u3⟩ := g1.up p q hq
          rw [if_neg fun c => c1 (c.trans (List.prefix_append _ _))]
          exact ⟨u1, u2, u3⟩

theorem Tidy.exec (h : Tidy k t) (op : POp P D) : Tidy k (k.exec t op) := by
  cases op with
  | get path => exact (Tidy.getItem path [] h h.root).1
  | decompose path =>
    obtain ⟨g1, g2, g3⟩ := Tidy.getItem path [] h h.root
    unfold PKind.exec
    simp only
    rcases hg : k.getItem t [] path with ⟨r, t'⟩
    rw [hg] at g1 g2 g3
    cases r with
    | error e => exact g1
    | ok p => exact (g1.decompose (g3 p rfl).2).1
  | getLevel level dec =>
    unfold PKind.exec PKind.getLevel
    simp only
    split_ifs
    · exact h
    · exact (Tidy.walk _ _ _ _ h h.root).1
  | getLeafNodes dec =>
    unfold PKind.exec PKind.getLeafNodes
    exact (Tidy.walk _ _ _ _ h h.root).1
  | reconstruct path update =>
    obtain ⟨g1, g2, g3⟩ := Tidy.getItem path [] h h.root
    unfold PKind.exec
    simp only
    rcases hg : k.getItem t [] path with ⟨r, t'⟩
    rw [hg] at g1 g2 g3
    cases r with
    | error e => exact g1
    | ok p =>
      simp only
      split_ifs
      · exact g1.of_isSome (reconstructRoot_isSome t' update)
      · exact g1.of_isSome (reconstructNode_isSome t' p update)
  | set path data => exact (Tidy.setItem data path [] h h.root).1
  | del path => exact h.delItem path

theorem Tidy.execs (h : Tidy k t) (ops : List (POp P D)) : Tidy k (ops.foldl k.exec t) := by
  induction ops generalizing t with
  | nil => exact h
  | cons op ops ih => exact ih (h.exec op)

/-- Reading an existing node changes nothing. -/
theorem Tidy.getItem_existing : ∀ (path p : List P) {t : PTree P D}, Tidy k t → (t (p ++ path)).isSome →
    0 ≤ k.maxlevel → k.getItem t p path = (.ok (p ++ path), t) := by
  intro path
  induction path with
  | nil =>
    intro p t h hp hm
    unfold PKind.getItem
    rw [if_neg (by omega)]
    simp
  | cons q qs ih =>
    intro p t h hp hm
    unfold PKind.getItem
    have hd := h.depth _ hp
    rw [if_neg (by
      rcases hd with hd | hd
      · simp at hd
      · simp at hd ⊢; omega)]
    have h1 : (t (p ++ [q])).isSome := h.anc (p ++ [q]) qs (by simpa using hp)
    have hq := (h.up p q h1).2.1
    have e : k.getSubnode t p q true = (.ok (some (p ++ [q])), t) := by
      unfold PKind.getSubnode
      rw [if_neg (by simpa using hq), if_pos h1]
    rw [e]
    simp only
    rw [ih (p ++ [q]) h (by simpa using hp) hm]
    simp

/-- `get_leaf_nodes(decompose=False)`: the walk. -/
theorem Tidy.walk_leaves (h : Tidy k t) : ∀ (n : ℕ) (p : List P), (t p).isSome →
    k.maxlevel.toNat < n + p.length →
    ∃ l, k.walk (fun t p =>
      (decide ((p.length : ℤ) = k.maxlevel) && ((t p).bind (·.data)).isSome) ||
        (!false && !k.hasAny t p)) false n p t = (.ok l, t) ∧
      (∀ r, r ∈ l ↔ p <+: r ∧ Leaf t r) ∧ l.Pairwise (LeftOf k.parts) := by
  have hchild : ∀ p q, (t (p ++ [q])).isSome → k.hasAny t p = true := by
    intro p q hq
    unfold hasAny
    rw [List.any_eq_true]
    exact ⟨q, (h.up p q hq).2.1, hq⟩
  intro n
  induction n with
  | zero =>
    intro p hp hn
    exfalso
    rcases h.depth p hp with rfl | h1
    · simp at hn
    · omega
  | succ n ih =>
    intro p hp hn
    unfold PKind.walk
    by_cases hany : k.hasAny t p = true
    · obtain ⟨q0, hq0, he0⟩ := List.any_eq_true.1 hany
      have hl := (h.up p q0 he0).2.2
      have e1 : ¬ (((decide ((p.length : ℤ) = k.maxlevel) && ((t p).bind (·.data)).isSome) ||
        (!false && !k.hasAny t p)) = true) := by
        have : ¬ (p.length : ℤ) = k.maxlevel := by omega
        simp [this, hany]
      rw [if_neg e1, if_pos hl]
      have key : ∀ qs : List P, qs.Sublist k.parts → ∃ l, forParts (fun t q =>
          match k.getSubnode t p q false with
          | (.error e, t') => (.error e, t')
          | (.ok none, t') => (.ok [], t')
          | (.ok (some p'), t') =>
              PKind.walk k (fun t p =>
                (decide ((p.length : ℤ) = k.maxlevel) && ((t p).bind (·.data)).isSome) ||
                  (!false && !k.hasAny t p)) false n p' t') qs t = (.ok l, t) ∧
          (∀ r, r ∈ l ↔ ∃ q ∈ qs, p ++ [q] <+: r ∧ Leaf t r) ∧ l.Pairwise (LeftOf k.parts) := by
        intro qs
        induction qs with
        | nil => intro _; exact ⟨[], rfl, by simp, by simp⟩
        | cons q qs ihq =>
          intro hqs
          have hq : q ∈ k.parts := hqs.subset (by simp)
          obtain ⟨l2, f1, f2, f3⟩ := ihq ((List.sublist_cons_self q qs).trans hqs)
          unfold forParts
          simp only [getSubnode_false t p q hq]
          by_cases hx : (t (p ++ [q])).isSome
          · obtain ⟨l1, w1, w2, w3⟩ := ih (p ++ [q]) hx (by simp; omega)
            refine ⟨l1 ++ l2, ?_, ?_, ?_⟩
            · simp only [if_pos hx]
              rw [w1]
              simp only
              rw [f1]
            · intro r
              rw [List.mem_append, w2, f2]
              constructor
              · rintro (hr | ⟨q', h1, h2⟩)
                · exact ⟨q, by simp, hr⟩
                · exact ⟨q', by simp [h1], h2⟩
              · rintro ⟨q', h1, h2⟩
                rcases List.mem_cons.1 h1 with rfl | h1
                · exact Or.inl h2
                · exact Or.inr ⟨q', h1, h2⟩
            · rw [List.pairwise_append]
              refine ⟨w3, f3, fun r hr s hs => ?_⟩
              obtain ⟨u, hu⟩ := ((w2 r).1 hr).1
              obtain ⟨q', hq', ⟨v, hv⟩, -⟩ := (f2 s).1 hs
              exact ⟨p, q, q', u, v, by rw [← hu]; simp, by rw [← hv]; simp,
                ((List.singleton_sublist.2 hq').cons_cons q).trans hqs⟩
          · refine ⟨l2, ?_, ?_, f3⟩
            · simp only [if_neg hx]
              rw [f1]
              simp
            · intro r
              rw [f2]
              constructor
              · rintro ⟨q', h1, h2⟩
                exact ⟨q', by simp [h1], h2⟩
              · rintro ⟨q', h1, h2, h3⟩
                rcases List.mem_cons.1 h1 with rfl | h1
                · obtain ⟨s, rfl⟩ := h2
                  exact absurd (h.anc _ s h3.1) hx
                · exact ⟨q', h1, h2, h3⟩
      obtain ⟨l, k1, k2, k3⟩ := key k.parts (List.Sublist.refl _)
      refine ⟨l, k1, fun r => ?_, k3⟩
      rw [k2]
      constructor
      · rintro ⟨q, -, h2, h3⟩
        exact ⟨(List.prefix_append p [q]).trans h2, h3⟩
      · rintro ⟨⟨s, rfl⟩, h3⟩
        cases s with
        | nil =>
          exfalso
          have := h3.2 q0
          simp only [List.append_nil] at this
          rw [this] at he0
          simp at he0
        | cons q s =>
          have hx : (t (p ++ [q])).isSome := h.anc (p ++ [q]) s (by simpa using h3.1)
          exact ⟨q, (h.up p q hx).2.1, by simp, h3⟩
    · have e1 : ((decide ((p.length : ℤ) = k.maxlevel) && ((t p).bind (·.data)).isSome) ||
        (!false && !k.hasAny t p)) = true := by
        simp [hany]
      rw [if_pos e1]
      refine ⟨[p], rfl, fun r => ?_, by simp⟩
      rw [List.mem_singleton]
      constructor
      · rintro rfl
        refine ⟨List.prefix_rfl, hp, fun q => ?_⟩
        cases hh : t (r ++ [q]) with
        | none => rfl
        | some nd => exact absurd (hchild r q (by rw [hh]; rfl)) hany
      · rintro ⟨⟨s, rfl⟩, h3⟩
        cases s with
        | nil => simp
        | cons q s =>
          exact absurd (hchild p q (h.anc (p ++ [q]) s (by simpa using h3.1))) hany

end PKind

end Pywt
