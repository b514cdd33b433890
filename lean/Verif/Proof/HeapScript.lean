import Verif.Proof.HeapAxis5
import Verif.Proof.HeapThreads

/-!
# Calls and sequences of calls
-/

set_option linter.unusedSectionVars false
set_option linter.unusedVariables false

namespace Pywt.Heap

open Spec

variable {R M : Type} [Ring R] [AddCommGroup M] [Module R M] [Nontrivial M]
variable {t : ℕ} {orc : ℕ → Bool}

theorem Call.At.ext {h h' : Ptr → Option (Blk (Val R M))} (e : Ext h h') {c : Call R M}
    (a : c.At h) : c.At h' := by
  obtain ⟨q, w, wl, op⟩ := c
  obtain ⟨a1, a2, a3⟩ := a
  refine ⟨a1.ext e, a2, ?_⟩
  cases op with
  | dwt => exact HoldsM.ext e a3
  | idwt => exact ⟨HoldsM.ext e a3.1, HoldsM.ext e a3.2⟩
  | swt => exact HoldsM.ext e a3
  | dwtAxis => exact ⟨MemAt.ext e a3.1, a3.2⟩
  | idwtAxis =>
    obtain ⟨shape, h1, h2, h3⟩ := a3
    exact ⟨shape, fun m hm => ⟨MemAt.ext e (h1 m hm).1, (h1 m hm).2⟩,
      fun m hm => ⟨MemAt.ext e (h2 m hm).1, (h2 m hm).2⟩, h3⟩
  | swtAxis => exact ⟨MemAt.ext e a3.1, a3.2⟩

theorem runs_call {s : St (Val R M)} (hu : Unused t s.heap s.next) {c : Call R M}
    (a : c.At s.heap) (ho : c.Checked ∨ ∀ k, s.next ≤ k → orc k = true) :
    Runs t orc s.heap s.next c.expected c.prog s := by
  obtain ⟨q, w, wl, op⟩ := c
  obtain ⟨a1, a2, a3⟩ := a
  cases op with
  | dwt mode x xl => exact runs_dwtSingle hu a1 a2 a3 mode
  | idwt mode => exact runs_idwtSingle hu a1 a2 a3.1 a3.2 mode
  | swt level start => exact runs_swt hu a1 a2 a3 level start
  | dwtAxis mode => exact runs_dwtAxis hu a1 a2 a3.1 a3.2.1 a3.2.2 mode
  | idwtAxis mode =>
    obtain ⟨shape, h1, h2, h3, h4⟩ := a3
    exact runs_idwtAxis hu a1 a2 h1 h2 h3 h4
  | swtAxis level start => exact runs_swtAxis hu a1 a2 a3.1 a3.2.1 a3.2.2 level start ho

/-- New blocks of a call are blocks of the thread. -/
theorem mine_of_fresh {V α : Type} (P : Prog V α) : ∀ (s : St V) (a : α) (s' : St V),
    run t orc P s = .ok (a, s') →
    s.next ≤ s'.next ∧ (∀ p, s.heap p = none → s'.heap p ≠ none →
      p.1 = t ∧ s.next ≤ p.2 ∧ p.2 < s'.next) := by
  induction P with
  | ret b =>
    intro s a s' h
    simp only [run, Except.ok.injEq, Prod.mk.injEq] at h
    obtain ⟨-, rfl⟩ := h
    exact ⟨le_rfl, fun p h1 h2 => absurd h1 h2⟩
  | fail e => intro s a s' h; cases h
  | read p i k ih =>
    intro s a s' h
    simp only [run] at h
    split at h
    · exact ih _ _ _ _ h
    · cases h
  | write p i v k ih =>
    intro s a s' h
    simp only [run] at h
    split at h
    · next h' hs =>
      obtain ⟨g1, g2⟩ := ih _ _ _ h
      refine ⟨g1, fun p' h1 h2 => g2 p' ?_ h2⟩
      simp only
      cases p with
      | none => simp [store] at hs
      | some p =>
        cases hb : s.heap p with
        | none => simp [store, hb] at hs
        | some b =>
          simp only [store, hb] at hs
          split at hs
          · cases hs
          · split at hs
            · simp only [Except.ok.injEq] at hs
              rw [← hs, Function.update_of_ne (by rintro rfl; rw [h1] at hb; cases hb), h1]
            · cases hs
    · cases h
  | malloc c k ih =>
    intro s a s' h
    simp only [run] at h
    split at h
    · obtain ⟨g1, g2⟩ := ih _ _ _ _ h
      simp only at g1 g2
      refine ⟨by omega, fun p h1 h2 => ?_⟩
      by_cases e : p = (t, s.next)
      · subst e; exact ⟨rfl, le_rfl, by simp only; omega⟩
      · have := g2 p (by rw [Function.update_of_ne e, h1]) h2
        omega
    · obtain ⟨g1, g2⟩ := ih _ _ _ _ h
      simp only at g1 g2
      refine ⟨by omega, fun p h1 h2 => ?_⟩
      have := g2 p h1 h2
      omega
  | free p k ih =>
    intro s a s' h
    simp only [run] at h
    split at h
    · next h' hs =>
      obtain ⟨g1, g2⟩ := ih _ _ _ h
      refine ⟨g1, fun p' h1 h2 => g2 p' ?_ h2⟩
      simp only
      cases p with
      | none => simp only [release, Except.ok.injEq] at hs; rw [← hs, h1]
      | some p =>
        cases hb : s.heap p with
        | none => simp [release, hb] at hs
        | some b =>
          simp only [release, hb] at hs
          split at hs
          · cases hs
          · simp only [Except.ok.injEq] at hs
            rw [← hs]
            by_cases e : p' = p
            · subst e; simp
            · rw [Function.update_of_ne e, h1]
    · cases h

theorem Returned.ext {h h' : Ptr → Option (Blk (Val R M))} {ps : List Ptr} {ls : List (List M)}
    (r : Returned h h' ps ls) : Ext h h' := by
  intro p b hb
  rw [r.rest p (fun hp => by rw [r.fresh p hp] at hb; cases hb), hb]

theorem forall₂_right_mem {α β : Type} {P : α → β → Prop} {l : List α} {m : List β}
    (h : List.Forall₂ P l m) : ∀ a ∈ l, ∃ b, P a b := by
  induction h with
  | nil => simp
  | cons h1 _ ih =>
    intro a ha
    rcases List.mem_cons.mp ha with rfl | ha
    · exact ⟨_, h1⟩
    · exact ih a ha

theorem Right.mono {h h' : Ptr → Option (Blk (Val R M))} (e : Ext h h') {b b' : Prop} (hb : b → b')
    {c : Call R M} {r : Res} (hr : Right h b c r) : Right h' b' c r := by
  cases r with
  | ok ps =>
    obtain ⟨ls, h1, h2⟩ := hr
    exact ⟨ls, h1, h2.imp fun p l hp => e _ _ hp⟩
  | error x => exact hr.imp id fun h => ⟨hb h.1, h.2⟩

/-- A sequence of calls running alone: nothing goes wrong, every result is right, and the memory is as
before but for the arrays returned. -/
theorem run_script (cs : List (Call R M)) : ∀ (s : St (Val R M)), Unused t s.heap s.next →
    (∀ c ∈ cs, c.At s.heap) → ((∀ c ∈ cs, c.Checked) ∨ ∀ k, s.next ≤ k → orc k = true) →
    ∃ rs s', run t orc (script cs) s = .ok (rs, s') ∧ Unused t s'.heap s'.next ∧ s.next ≤ s'.next ∧
      List.Forall₂ (Right s'.heap (∃ k, s.next ≤ k ∧ orc k = false)) cs rs ∧
      (arrays rs).Nodup ∧ (∀ p ∈ arrays rs, s.heap p = none ∧ s'.heap p ≠ none) ∧
      (∀ p, p ∉ arrays rs → s'.heap p = s.heap p) := by
  induction cs with
  | nil =>
    intro s hu _ _
    exact ⟨[], s, rfl, hu, le_rfl, List.Forall₂.nil, List.nodup_nil, by simp [arrays], fun _ _ => rfl⟩
  | cons c cs ih =>
    intro s hu hat hok
    obtain ⟨r, s1, hr, hn1, hout⟩ := runs_call (t := t) (orc := orc) hu (hat c (by simp))
      (hok.imp (fun h => h c (by simp)) id)
    obtain ⟨hn1', hmine⟩ := mine_of_fresh _ _ _ _ hr
    have hu1 : Unused t s1.heap s1.next := by
      intro k hk
      by_contra hne
      have := hmine (t, k) (hu k (by omega)) hne
      simp only at this; omega
    have hext : Ext s.heap s1.heap := by
      cases r with
      | ok ps => obtain ⟨ls, _, h2, _⟩ := hout; exact h2.ext
      | error e => rw [hout.1]; exact Ext.refl _
    obtain ⟨rs, s2, hr2, hu2, hn2, hright, hnd, hfresh, hrest⟩ := ih s1 hu1
      (fun c hc => (hat c (by simp [hc])).ext hext)
      (hok.imp (fun h c hc => h c (by simp [hc])) (fun h k hk => h k (by omega)))
    have hext2 : Ext s1.heap s2.heap := by
      intro p b hb
      rw [hrest p (fun hp => by rw [(hfresh p hp).1] at hb; cases hb), hb]
    refine ⟨r :: rs, s2, ?_, hu2, by omega, List.Forall₂.cons ?_ ?_, ?_⟩
    · show run t orc (c.prog >>= fun r => script cs >>= fun rs => pure (r :: rs)) s = _
      rw [run_bind_ok hr, run_bind_ok hr2]
      rfl
    · refine Right.mono (b := ∃ k, s.next ≤ k ∧ orc k = false) hext2 id ?_
      cases r with
      | ok ps =>
        obtain ⟨ls, h1, h2, _⟩ := hout
        exact ⟨ls, h1, h2.contents⟩
      | error e =>
        rcases hout.2 with h | ⟨he, _, k, h1, _, h3⟩
        · exact Or.inl h.1
        · exact Or.inr ⟨⟨k, h1, h3⟩, he⟩
    · exact hright.imp fun c r h => h.mono (Ext.refl _) fun ⟨k, h1, h2⟩ => ⟨k, by omega, h2⟩
    · cases r with
      | ok ps =>
        obtain ⟨ls, h1, h2, _⟩ := hout
        have hnone : ∀ p ∈ ps, s1.heap p ≠ none := by
          intro p hp
          obtain ⟨l, hl⟩ := forall₂_right_mem h2.contents p hp
          rw [hl]; simp
        refine ⟨?_, ?_, ?_⟩
        · show (ps ++ arrays rs).Nodup
          rw [List.nodup_append]
          refine ⟨h2.nodup, hnd, ?_⟩
          rintro p hp _ hq rfl
          exact hnone p hp (hfresh p hq).1
        · intro p hp
          rcases List.mem_append.mp (show p ∈ ps ++ arrays rs from hp) with hp | hp
          · refine ⟨h2.fresh p hp, ?_⟩
            cases hb : s1.heap p with
            | none => exact absurd hb (hnone p hp)
            | some b => rw [hext2 p b hb]; simp
          · refine ⟨?_, (hfresh p hp).2⟩
            cases hb : s.heap p with
            | none => rfl
            | some b => have := hext p b hb; rw [(hfresh p hp).1] at this; cases this
        · intro p hp
          have hp' : p ∉ ps ++ arrays rs := hp
          rw [List.mem_append, not_or] at hp'
          rw [hrest p hp'.2, h2.rest p hp'.1]
      | error e =>
        obtain ⟨h1, _⟩ := hout
        rw [h1] at hfresh hrest
        exact ⟨hnd, hfresh, hrest⟩

end Pywt.Heap
