import Verif.Spec.Threads

/-!
# Threads that share only constant memory do not interfere
-/

set_option linter.unusedVariables false

namespace Pywt.Heap

variable {V α : Type}

/-- The number of steps a program takes alone. -/
def steps (t : ℕ) (orc : ℕ → Bool) : Prog V α → St V → ℕ
  | .ret _, _ => 0
  | .fail _, _ => 0
  | .read p i k, s =>
      match load s.heap p i with
      | .ok v => steps t orc (k v) s + 1
      | .error _ => 0
  | .write p i v k, s =>
      match store s.heap p i v with
      | .ok h => steps t orc k { s with heap := h } + 1
      | .error _ => 0
  | .malloc c k, s =>
      if orc s.next then
        steps t orc (k (some (t, s.next)))
          ⟨Function.update s.heap (t, s.next) (some ⟨false, c⟩), s.next + 1⟩ + 1
      else steps t orc (k none) { s with next := s.next + 1 } + 1
  | .free p k, s =>
      match release s.heap p with
      | .ok h => steps t orc k { s with heap := h } + 1
      | .error _ => 0

/-- `h` is what thread `t` would see alone, `H` the common memory, `h0` the shared memory. -/
structure View (h0 H h : Ptr → Option (Blk V)) (t : ℕ) : Prop where
  shared : ∀ k, h (0, k) = h0 (0, k)
  mine : ∀ k, h (t + 1, k) = H (t + 1, k)
  others : ∀ o k, o ≠ 0 → o ≠ t + 1 → h (o, k) = none

section
variable {h0 H h : Ptr → Option (Blk V)} {t : ℕ}

/-- The block a thread can use is its own, or shared and constant. -/
theorem View.block (hv : View h0 H h t) (hc : ConstMem h0) (hH : ∀ k, H (0, k) = h0 (0, k))
    {p : Ptr} {b : Blk V} (hp : h p = some b) :
    H p = some b ∧ (p.1 = t + 1 ∨ p.1 = 0 ∧ b.const = true) := by
  obtain ⟨o, k⟩ := p
  by_cases h0o : o = 0
  · subst h0o
    rw [hv.shared] at hp
    exact ⟨by rw [hH, hp], Or.inr ⟨rfl, (hc _ _ hp).2⟩⟩
  · by_cases ho : o = t + 1
    · subst ho
      rw [hv.mine] at hp
      exact ⟨hp, Or.inl rfl⟩
    · rw [hv.others o k h0o ho] at hp; cases hp

theorem View.load (hv : View h0 H h t) (hc : ConstMem h0) (hH : ∀ k, H (0, k) = h0 (0, k))
    {p : Option Ptr} {i : ℤ} {v : V} (hl : load h p i = .ok v) : Heap.load H p i = .ok v := by
  cases p with
  | none => simp [Heap.load] at hl
  | some p =>
    cases hp : h p with
    | none => simp [Heap.load, hp] at hl
    | some b =>
      simp only [Heap.load, hp] at hl
      simp only [Heap.load, (hv.block hc hH hp).1]
      exact hl

theorem View.update (hv : View h0 H h t) {p : Ptr} (hp : p.1 = t + 1) (x : Option (Blk V)) :
    View h0 (Function.update H p x) (Function.update h p x) t := by
  refine ⟨?_, ?_, ?_⟩
  · intro k
    rw [Function.update_of_ne (by rintro rfl; simp at hp), hv.shared]
  · intro k
    by_cases e : (t + 1, k) = p
    · subst e; simp
    · rw [Function.update_of_ne e, Function.update_of_ne e, hv.mine]
  · intro o k h1 h2
    rw [Function.update_of_ne (by rintro rfl; exact h2 hp), hv.others o k h1 h2]

/-- The memory of another thread is the same for it afterwards. -/
theorem View.other (hv : View h0 H h t) {p : Ptr} {t' : ℕ} (hp : p.1 = t' + 1) (hne : t ≠ t')
    (x : Option (Blk V)) : View h0 (Function.update H p x) h t := by
  refine ⟨hv.shared, ?_, hv.others⟩
  intro k
  rw [Function.update_of_ne, hv.mine]
  rintro rfl
  simp only at hp
  omega

theorem View.store (hv : View h0 H h t) (hc : ConstMem h0) (hH : ∀ k, H (0, k) = h0 (0, k))
    {p : Option Ptr} {i : ℤ} {v : V} {h' : Ptr → Option (Blk V)} (hs : store h p i v = .ok h') :
    ∃ p' x, p = some p' ∧ p'.1 = t + 1 ∧ h' = Function.update h p' x ∧
      Heap.store H p i v = .ok (Function.update H p' x) := by
  cases p with
  | none => simp [Heap.store] at hs
  | some p =>
    cases hp : h p with
    | none => simp [Heap.store, hp] at hs
    | some b =>
      obtain ⟨z1, z2⟩ := hv.block hc hH hp
      simp only [Heap.store, hp] at hs
      split at hs
      · cases hs
      · next hb =>
        split at hs
        · next hin =>
          simp only [Except.ok.injEq] at hs
          refine ⟨p, _, rfl, z2.resolve_right fun h => hb h.2, hs.symm, ?_⟩
          simp only [Heap.store, z1]
          rw [if_neg hb, if_pos hin]
        · cases hs

theorem View.release (hv : View h0 H h t) (hc : ConstMem h0) (hH : ∀ k, H (0, k) = h0 (0, k))
    {p : Option Ptr} {h' : Ptr → Option (Blk V)} (hs : release h p = .ok h') :
    (p = none ∧ h' = h ∧ Heap.release H p = .ok H) ∨
    ∃ p', p = some p' ∧ p'.1 = t + 1 ∧ h' = Function.update h p' none ∧
      Heap.release H p = .ok (Function.update H p' none) := by
  cases p with
  | none =>
    simp only [Heap.release, Except.ok.injEq] at hs
    exact Or.inl ⟨rfl, hs.symm, rfl⟩
  | some p =>
    right
    cases hp : h p with
    | none => simp [Heap.release, hp] at hs
    | some b =>
      obtain ⟨z1, z2⟩ := hv.block hc hH hp
      simp only [Heap.release, hp] at hs
      split at hs
      · cases hs
      · next hb =>
        simp only [Except.ok.injEq] at hs
        refine ⟨p, rfl, z2.resolve_right fun h => hb h.2, hs.symm, ?_⟩
        simp only [Heap.release, z1]
        rw [if_neg hb]

end

/-- What is known of the threads while they run. -/
structure Inv (orc : ℕ → ℕ → Bool) (h0 : Ptr → Option (Blk V)) (P : ℕ → Prog V α) (n : ℕ → ℕ)
    (c : Cfg V α) : Prop where
  shared : ∀ k, c.heap (0, k) = h0 (0, k)
  thread : ∀ t, ∃ h, View h0 c.heap h t ∧
    run (t + 1) (orc t) (c.threads t).prog ⟨h, (c.threads t).next⟩ =
      run (t + 1) (orc t) (P t) ⟨h0, 0⟩ ∧
    steps (t + 1) (orc t) (c.threads t).prog ⟨h, (c.threads t).next⟩ =
      steps (t + 1) (orc t) (P t) ⟨h0, 0⟩ - n t

section
variable {orc : ℕ → ℕ → Bool} {h0 : Ptr → Option (Blk V)} {P : ℕ → Prog V α} {n : ℕ → ℕ}
  {c : Cfg V α}

theorem Inv.start (hc : ConstMem h0) : Inv orc h0 P (fun _ => 0) ⟨h0, fun t => ⟨P t, 0⟩⟩ := by
  refine ⟨fun _ => rfl, fun t => ⟨h0, ⟨fun _ => rfl, fun _ => rfl, ?_⟩, rfl, rfl⟩⟩
  intro o k h1 h2
  cases h : h0 (o, k) with
  | none => rfl
  | some b => exact absurd (hc _ _ h).1 h1

/-- One step of one thread. -/
theorem Inv.step (hc : ConstMem h0) (hI : Inv orc h0 P n c) (t : ℕ) {a : α} {s' : St V}
    (hrun : run (t + 1) (orc t) (P t) ⟨h0, 0⟩ = .ok (a, s')) :
    ∃ c', c.step orc t = .ok c' ∧ Inv orc h0 P (Function.update n t (n t + 1)) c' := by
  obtain ⟨h, hv, hr, hs⟩ := hI.thread t
  have hH := hI.shared
  rw [hrun] at hr
  -- it is enough to say what the step does for this thread
  have key : ∀ (prog : Prog V α) (next : ℕ) (H' h' : Ptr → Option (Blk V)),
      Heap.step (t + 1) (orc t) (c.threads t).prog ⟨c.heap, (c.threads t).next⟩ =
        .ok (prog, ⟨H', next⟩) →
      View h0 H' h' t → (H' = c.heap ∨ ∃ p x, p.1 = t + 1 ∧ H' = Function.update c.heap p x) →
      run (t + 1) (orc t) prog ⟨h', next⟩ = .ok (a, s') →
      ((steps (t + 1) (orc t) (c.threads t).prog ⟨h, (c.threads t).next⟩ =
        steps (t + 1) (orc t) prog ⟨h', next⟩ + 1) ∨
       (steps (t + 1) (orc t) (c.threads t).prog ⟨h, (c.threads t).next⟩ = 0 ∧
        steps (t + 1) (orc t) prog ⟨h', next⟩ = 0)) →
      ∃ c', c.step orc t = .ok c' ∧ Inv orc h0 P (Function.update n t (n t + 1)) c' := by
    intro prog next H' h' e1 e2 e3 e4 e5
    refine ⟨⟨H', Function.update c.threads t ⟨prog, next⟩⟩, ?_, ?_, ?_⟩
    · unfold Cfg.step
      rw [e1]
      rfl
    · intro k
      show H' (0, k) = _
      rcases e3 with rfl | ⟨p, x, hp, rfl⟩
      · exact hH k
      · rw [Function.update_of_ne (by rintro rfl; simp at hp), hH]
    · intro t'
      by_cases ht : t' = t
      · subst ht
        refine ⟨h', e2, ?_, ?_⟩
        · simp only [Function.update_self]
          rw [e4, hrun]
        · simp only [Function.update_self]
          rcases e5 with e5 | e5
          · omega
          · omega
      · simp only [Function.update_of_ne ht]
        obtain ⟨g, gv, gr, gs⟩ := hI.thread t'
        refine ⟨g, ?_, gr, gs⟩
        rcases e3 with rfl | ⟨p, x, hp, rfl⟩
        · exact gv
        · exact gv.other hp ht x
  cases hp : (c.threads t).prog with
  | ret b =>
    rw [hp] at hr key
    exact key (.ret b) _ c.heap h rfl hv (Or.inl rfl) hr (Or.inr ⟨rfl, rfl⟩)
  | fail e => rw [hp] at hr; cases hr
  | read p i k =>
    rw [hp] at hr key
    simp only [run] at hr
    cases hl : load h p i with
    | error e => rw [hl] at hr; cases hr
    | ok v =>
      rw [hl] at hr
      refine key (k v) _ c.heap h ?_ hv (Or.inl rfl) hr (Or.inl ?_)
      · simp only [Heap.step, hv.load hc hH hl]; rfl
      · simp only [steps, hl]
  | write p i v k =>
    rw [hp] at hr key
    simp only [run] at hr
    cases hl : store h p i v with
    | error e => rw [hl] at hr; cases hr
    | ok h' =>
      rw [hl] at hr
      obtain ⟨p', x, rfl, hp', rfl, e⟩ := hv.store hc hH hl
      refine key k _ (Function.update c.heap p' x) _ ?_ (hv.update hp' x) (Or.inr ⟨p', x, hp', rfl⟩)
        hr (Or.inl ?_)
      · simp only [Heap.step, e]; rfl
      · simp only [steps, hl]
  | malloc cells k =>
    rw [hp] at hr key
    simp only [run] at hr
    by_cases ho : orc t (c.threads t).next = true
    · rw [if_pos ho] at hr
      refine key _ _ (Function.update c.heap (t + 1, (c.threads t).next) (some ⟨false, cells⟩)) _ ?_
        (hv.update rfl _) (Or.inr ⟨_, _, rfl, rfl⟩) hr (Or.inl ?_)
      · simp only [Heap.step, if_pos ho]
      · simp only [steps, if_pos ho]
    · rw [if_neg ho] at hr
      refine key _ _ c.heap h ?_ hv (Or.inl rfl) hr (Or.inl ?_)
      · simp only [Heap.step, if_neg ho]
      · simp only [steps, if_neg ho]
  | free p k =>
    rw [hp] at hr key
    simp only [run] at hr
    cases hl : release h p with
    | error e => rw [hl] at hr; cases hr
    | ok h' =>
      rw [hl] at hr
      rcases hv.release hc hH hl with ⟨rfl, rfl, e⟩ | ⟨p', rfl, hp', rfl, e⟩
      · refine key k _ c.heap _ ?_ hv (Or.inl rfl) hr (Or.inl ?_)
        · simp only [Heap.step, e]; rfl
        · simp only [steps, hl]
      · refine key k _ (Function.update c.heap p' none) _ ?_ (hv.update hp' _)
          (Or.inr ⟨p', _, hp', rfl⟩) hr (Or.inl ?_)
        · simp only [Heap.step, e]; rfl
        · simp only [steps, hl]

theorem Inv.exec (hc : ConstMem h0) (hrun : ∀ t, ∃ r, run (t + 1) (orc t) (P t) ⟨h0, 0⟩ = .ok r)
    (ts : List ℕ) : ∀ (n : ℕ → ℕ) (c : Cfg V α), Inv orc h0 P n c →
      ∃ c', c.exec orc ts = .ok c' ∧ Inv orc h0 P (fun t => n t + ts.count t) c' := by
  induction ts with
  | nil => intro n c h; exact ⟨c, rfl, h⟩
  | cons t ts ih =>
    intro n c h
    obtain ⟨⟨a, s'⟩, hr⟩ := hrun t
    obtain ⟨c1, e1, h1⟩ := h.step hc t hr
    obtain ⟨c2, e2, h2⟩ := ih _ _ h1
    refine ⟨c2, ?_, ?_⟩
    · rw [Cfg.exec, e1]
      exact e2
    · convert h2 using 2 with t'
      by_cases ht : t' = t
      · subst ht; simp; omega
      · rw [Function.update_of_ne ht, List.count_cons_of_ne (Ne.symm ht)]

/-- No step left means finished. -/
theorem steps_zero {t : ℕ} {o : ℕ → Bool} {p : Prog V α} {s : St V} {r : α × St V}
    (h : run t o p s = .ok r) (hs : steps t o p s = 0) : ∃ a, p = .ret a := by
  cases p with
  | ret a => exact ⟨a, rfl⟩
  | fail e => cases h
  | read p i k =>
    simp only [run, steps] at h hs
    cases hl : load s.heap p i with
    | ok v => simp [hl] at hs
    | error e => simp [hl] at h
  | write p i v k =>
    simp only [run, steps] at h hs
    cases hl : store s.heap p i v with
    | ok v => simp [hl] at hs
    | error e => simp [hl] at h
  | malloc c k =>
    simp only [steps] at hs
    split at hs <;> omega
  | free p k =>
    simp only [run, steps] at h hs
    cases hl : release s.heap p with
    | ok v => simp [hl] at hs
    | error e => simp [hl] at h

/-- The next operation of a program that runs well touches its own memory, or reads constant memory. -/
theorem access_of_run {h0 H h : Ptr → Option (Blk V)} {t : ℕ} (hv : View h0 H h t) (hc : ConstMem h0)
    (hH : ∀ k, H (0, k) = h0 (0, k)) {o : ℕ → Bool} {P : Prog V α} {m : ℕ} {r : α × St V}
    (hr : run (t + 1) o P ⟨h, m⟩ = .ok r) {p : Ptr} {b : Bool} (ha : P.access = some (p, b)) :
    p.1 = t + 1 ∨ p.1 = 0 ∧ b = false := by
  have hb : ∀ {p : Ptr} {x : Blk V}, h p = some x → x.const = false → p.1 = t + 1 := by
    intro p x hp hx
    rcases (hv.block hc hH hp).2 with h | ⟨-, h⟩
    · exact h
    · rw [hx] at h; cases h
  cases P with
  | ret a => cases ha
  | fail e => cases ha
  | malloc c k => cases ha
  | read q i k =>
    cases q with
    | none => cases ha
    | some q =>
      cases ha
      simp only [run, load] at hr
      cases hq : h p with
      | none => rw [hq] at hr; cases hr
      | some x => exact (hv.block hc hH hq).2.imp_right fun h => ⟨h.1, rfl⟩
  | write q i v k =>
    cases q with
    | none => cases ha
    | some q =>
      cases ha
      simp only [run, store] at hr
      cases hq : h p with
      | none => rw [hq] at hr; cases hr
      | some x =>
        cases hx : x.const with
        | false => exact Or.inl (hb hq hx)
        | true => simp [hq, hx] at hr
  | free q k =>
    cases q with
    | none => cases ha
    | some q =>
      cases ha
      simp only [run, release] at hr
      cases hq : h p with
      | none => rw [hq] at hr; cases hr
      | some x =>
        cases hx : x.const with
        | false => exact Or.inl (hb hq hx)
        | true => simp [hq, hx] at hr

section
variable {orc : ℕ → ℕ → Bool} {h0 : Ptr → Option (Blk V)} {P : ℕ → Prog V α} {ts : List ℕ}

/-- Threads that run well alone run well together. -/
theorem exec_alone (hc : ConstMem h0) (hrun : ∀ t, ∃ r, run (t + 1) (orc t) (P t) ⟨h0, 0⟩ = .ok r) :
    ∃ c, (Cfg.init h0 P).exec orc ts = .ok c ∧ (∀ k, c.heap (0, k) = h0 (0, k)) ∧
      (∀ t a, (c.threads t).prog = .ret a → ∃ s', run (t + 1) (orc t) (P t) ⟨h0, 0⟩ = .ok (a, s') ∧
        ∀ k, c.heap (t + 1, k) = s'.heap (t + 1, k)) ∧
      (∀ t, steps (t + 1) (orc t) (P t) ⟨h0, 0⟩ ≤ ts.count t → ∃ a, (c.threads t).prog = .ret a) ∧
      (∀ t t' p b b', t ≠ t' → (c.threads t).prog.access = some (p, b) →
        (c.threads t').prog.access = some (p, b') → b = false ∧ b' = false) := by
  obtain ⟨c, hex, hI⟩ := Inv.exec (orc := orc) (P := P) hc hrun ts _ _ (Inv.start hc)
  refine ⟨c, hex, hI.shared, ?_, ?_, ?_⟩
  · intro t a ha
    obtain ⟨h, hv, hr, -⟩ := hI.thread t
    rw [ha] at hr
    exact ⟨⟨h, (c.threads t).next⟩, hr.symm, fun k => (hv.mine k).symm⟩
  · intro t ht
    obtain ⟨h, hv, hr, h1⟩ := hI.thread t
    obtain ⟨r, hrt⟩ := hrun t
    rw [hrt] at hr
    refine steps_zero hr ?_
    simp only [Nat.zero_add] at h1
    omega
  · intro t t' p b b' hne h1 h2
    obtain ⟨h, hv, hr, -⟩ := hI.thread t
    obtain ⟨h', hv', hr', -⟩ := hI.thread t'
    obtain ⟨r, hrt⟩ := hrun t
    obtain ⟨r', hrt'⟩ := hrun t'
    rw [hrt] at hr
    rw [hrt'] at hr'
    have a1 := access_of_run hv hc hI.shared hr h1
    have a2 := access_of_run hv' hc hI.shared hr' h2
    rcases a1 with a1 | ⟨a1, a1'⟩ <;> rcases a2 with a2 | ⟨a2, a2'⟩ <;> first | omega | exact ⟨a1', a2'⟩

end

end

end Pywt.Heap
