import Verif.Proof.HeapAxis3
import Verif.Proof.Objects

/-!
# Making and freeing wavelets
-/

set_option linter.unusedSectionVars false
set_option linter.unusedVariables false

namespace Pywt.Heap

variable {R M : Type} [Ring R] [AddCommGroup M] [Module R M]
variable {t : ℕ} {orc : ℕ → Bool}

/-! ### Freeing -/

section
variable {s : St (Val R M)} {w : Ptr} {c : List (Option (Val R M))} {b : Bool}

theorem run_rdNum (h : s.heap w = some ⟨b, c⟩) {i n : ℕ} (hi : c[i]? = some (some (.num n))) :
    run t orc (rdNum (some w) i) s = .ok (n, s) := by
  simp only [rdNum, run, load, h]
  simp [hi, run]

theorem run_rdPtr (h : s.heap w = some ⟨b, c⟩) {i : ℕ} {p : Option Ptr}
    (hi : c[i]? = some (some (.ptr p))) :
    run t orc (rdPtr (some w) i) s = .ok (p, s) := by
  simp only [rdPtr, run, load, h]
  simp [hi, run]

/-- Freeing one block, or NULL. -/
theorem run_freeOpt {h0 : Ptr → Option (Blk (Val R M))} {o : Option Ptr} {ps : List Ptr}
    (h : Held t h0 s (o.toList ++ ps)) :
    run t orc (free o) s = .ok ((), s.eraseO o) ∧ Held t h0 (s.eraseO o) ps := by
  cases o with
  | none => exact ⟨rfl, h⟩
  | some p =>
    have h : Held t h0 s (p :: ps) := h
    obtain ⟨c, hc⟩ := h.block p (by simp)
    have hnd := List.nodup_cons.mp h.nodup
    refine ⟨?_, hnd.2, fun p' hp' => h.mine p' (by simp [hp']), fun p' hp' => h.fresh p' (by simp [hp']),
      ?_, ?_⟩
    · conv_lhs => rw [← erase_setCells_same hc]
      exact run_free (erase_self s p) c
    · intro p' hp'
      show ∃ c, (s.erase p).heap p' = _
      rw [erase_ne _ (by rintro rfl; exact hnd.1 hp')]
      exact h.block p' (by simp [hp'])
    · intro q hq
      show (s.erase p).heap q = _
      by_cases e : q = p
      · subst e; rw [erase_self, h.fresh q (by simp)]
      · rw [erase_ne _ e]; exact h.rest q (by simp [e, hq])

/-- `free(w->field)`. -/
theorem run_freeField {h0 : Ptr → Option (Blk (Val R M))} {o : Option Ptr} {ps : List Ptr} {i : ℕ}
    (h : Held t h0 s (o.toList ++ ps)) (hw : s.heap w = some ⟨b, c⟩) (hwp : w ∈ ps)
    (hi : c[i]? = some (some (.ptr o))) :
    ∃ s', (∀ {α : Type} (k : Unit → Prog (Val R M) α),
        run t orc (rdPtr (some w) i >>= fun p => free p >>= k) s = run t orc (k ()) s') ∧
      Held t h0 s' ps ∧ s'.heap w = some ⟨b, c⟩ ∧ s'.next = s.next := by
  obtain ⟨h1, h2⟩ := run_freeOpt (orc := orc) h
  refine ⟨s.eraseO o, ?_, h2, ?_, by simp⟩
  · intro α k
    rw [run_bind_ok (run_rdPtr hw hi), run_bind_ok h1]
  · rw [eraseO_ne _ ?_, hw]
    rintro rfl
    exact absurd hwp (List.nodup_cons.mp h.nodup).1

/-- `free_discrete_wavelet` gives all memory of the wavelet back. -/
theorem run_freeWavelet {h0 : Ptr → Option (Blk (Val R M))} {n m : ℕ} {a b' d e f g h i : Option Ptr}
    (hh : Held t h0 s (w :: [a, b', d, e, f, g, h, i].flatMap Option.toList))
    (hw : s.heap w = some ⟨b, c⟩) (hn : c[fDecLen]? = some (some (.num n))) (hn0 : 0 < n)
    (hm : c[fRecLen]? = some (some (.num m))) (hm0 : 0 < m)
    (ha : c[fFilter false false .float]? = some (some (.ptr a)))
    (hb : c[fFilter false true .float]? = some (some (.ptr b')))
    (hd : c[fFilter false false .double]? = some (some (.ptr d)))
    (he : c[fFilter false true .double]? = some (some (.ptr e)))
    (hf : c[fFilter true false .float]? = some (some (.ptr f)))
    (hg : c[fFilter true true .float]? = some (some (.ptr g)))
    (hhh : c[fFilter true false .double]? = some (some (.ptr h)))
    (hi : c[fFilter true true .double]? = some (some (.ptr i))) :
    run t orc (freeWavelet (some w)) s = .ok ((), ⟨h0, s.next⟩) := by
  have P : Held t h0 s (a.toList ++ (b'.toList ++ (d.toList ++ (e.toList ++ (f.toList ++
      (g.toList ++ (h.toList ++ (i.toList ++ [w])))))))) := by
    refine hh.perm ?_
    simp only [List.flatMap_cons, List.flatMap_nil, List.append_nil]
    rw [← List.append_assoc, ← List.append_assoc, ← List.append_assoc, ← List.append_assoc,
      ← List.append_assoc, ← List.append_assoc, ← List.append_assoc]
    simp only [← List.append_assoc]
    exact (List.perm_append_singleton w _).symm
  unfold freeWavelet
  rw [run_bind_ok (run_rdNum hw hn)]
  simp only [hn0, if_true]
  obtain ⟨s1, r1, P1, w1, n1⟩ := run_freeField (orc := orc) P hw (by simp) ha
  obtain ⟨s2, r2, P2, w2, n2⟩ := run_freeField (orc := orc) P1 w1 (by simp) hb
  obtain ⟨s3, r3, P3, w3, n3⟩ := run_freeField (orc := orc) P2 w2 (by simp) hd
  obtain ⟨s4, r4, P4, w4, n4⟩ := run_freeField (orc := orc) P3 w3 (by simp) he
  obtain ⟨s5, r5, P5, w5, n5⟩ := run_freeField (orc := orc) P4 w4 (by simp) hf
  obtain ⟨s6, r6, P6, w6, n6⟩ := run_freeField (orc := orc) P5 w5 (by simp) hg
  obtain ⟨s7, r7, P7, w7, n7⟩ := run_freeField (orc := orc) P6 w6 (by simp) hhh
  obtain ⟨s8, r8, P8, w8, n8⟩ := run_freeField (orc := orc) P7 w7 (by simp) hi
  rw [r1, r2, r3, r4, run_bind_ok (run_rdNum w4 hm)]
  simp only [hm0, if_true]
  rw [r5, r6, r7, r8]
  have P9 : Held t h0 s8 ((some w).toList ++ []) := P8
  obtain ⟨q1, q2⟩ := run_freeOpt (orc := orc) P9
  rw [q1]
  have : (s8.eraseO (some w)).heap = h0 := funext fun q => q2.rest q (by simp)
  rw [← this]
  simp only [Except.ok.injEq, Prod.mk.injEq, true_and]
  show _ = (⟨_, _⟩ : St (Val R M))
  rw [show s.next = (s8.eraseO (some w)).next by simp; omega]

end

/-! ### `blank_discrete_wavelet` -/

/-- Trying to allocate a block. -/
def St.tried {V : Type} (s : St V) (t : ℕ) (orc : ℕ → Bool) (c : List (Option V)) : St V :=
  if orc s.next then s.bump.setCells (t, s.next) c else s.bump

/-- The pointer it gives. -/
def tryPtr (t : ℕ) (orc : ℕ → Bool) (k : ℕ) : Option Ptr := if orc k then some (t, k) else none

@[simp] theorem tried_next {V : Type} (s : St V) (c : List (Option V)) :
    (s.tried t orc c).next = s.next + 1 := by
  unfold St.tried; split_ifs <;> rfl

theorem tried_ne {V : Type} (s : St V) (c : List (Option V)) {p : Ptr} (h : p ≠ (t, s.next)) :
    (s.tried t orc c).heap p = s.heap p := by
  unfold St.tried; split_ifs
  · rw [setCells_ne h]; rfl
  · rfl

theorem tried_setCells {V : Type} (s : St V) {w : Ptr} (h : w ≠ (t, s.next)) (c d : List (Option V)) :
    (s.setCells w c).tried t orc d = (s.tried t orc d).setCells w c := by
  unfold St.tried
  by_cases ho : orc s.next = true
  · rw [if_pos ho, if_pos (show orc (s.setCells w c).next = true from ho)]
    show (s.bump.setCells w c).setCells (t, s.next) d = _
    rw [setCells_comm _ h]
  · rw [if_neg ho, if_neg (show ¬ orc (s.setCells w c).next = true from ho)]
    rfl

theorem Held.tried {V : Type} {h0 : Ptr → Option (Blk V)} {s : St V} {ps : List Ptr}
    (h : Held t h0 s ps) (hu : h0 (t, s.next) = none) (c : List (Option V)) :
    Held t h0 (s.tried t orc c) ((tryPtr t orc s.next).toList ++ ps) := by
  unfold St.tried tryPtr
  split_ifs
  · exact h.alloc hu c
  · exact h.bump

theorem tried_self {V : Type} (s : St V) (c : List (Option V)) (ho : orc s.next = true) :
    (s.tried t orc c).heap (t, s.next) = some ⟨false, c⟩ := by
  unfold St.tried
  rw [if_pos ho, setCells_self]

theorem Held.add {V : Type} {h0 : Ptr → Option (Blk V)} {s : St V} {ps : List Ptr}
    (h : Held t h0 s ps) {w : Ptr} (h1 : w ∉ ps) (h2 : w.1 = t) (h3 : w.2 < s.next)
    (h4 : h0 w = none) (c : List (Option V)) : Held t h0 (s.setCells w c) (w :: ps) := by
  refine ⟨List.nodup_cons.mpr ⟨h1, h.nodup⟩, ?_, ?_, ?_, ?_⟩
  · intro p hp
    rcases List.mem_cons.mp hp with rfl | hp
    · exact ⟨h2, h3⟩
    · exact h.mine p hp
  · intro p hp
    rcases List.mem_cons.mp hp with rfl | hp
    · exact h4
    · exact h.fresh p hp
  · intro p hp
    rcases List.mem_cons.mp hp with rfl | hp'
    · exact ⟨c, setCells_self⟩
    · rw [setCells_ne (by rintro rfl; exact h1 hp')]
      exact h.block p hp'
  · intro q hq
    rw [List.mem_cons, not_or] at hq
    rw [setCells_ne hq.1]
    exact h.rest q hq.2

theorem mem_tryPtr {k : ℕ} {p : Ptr} (h : p ∈ (tryPtr t orc k).toList) : p = (t, k) := by
  unfold tryPtr at h
  split_ifs at h
  · simpa using h
  · simp at h

theorem perm8 (a b c d e f g h : List Ptr) :
    (h ++ (g ++ (f ++ (e ++ (d ++ (c ++ (b ++ (a ++ [])))))))).Perm
      (a ++ (b ++ (e ++ (f ++ (c ++ (d ++ (g ++ (h ++ [])))))))) := by
  rw [List.perm_iff_count]
  intro x
  simp only [List.count_append, List.count_nil]
  omega

theorem run_newFilter {b : St (Val R M)} {w : Ptr} (hw : w ≠ (t, b.next))
    {c : List (Option (Val R M))} {rec hi : Bool} {q : Prec} (hc : fFilter rec hi q < c.length) (n : ℕ)
    {α : Type} (k : Option Ptr → Prog (Val R M) α) :
    run t orc (newFilter (some w) rec hi q n >>= k) (b.setCells w c) =
      run t orc (k (tryPtr t orc b.next))
        ((b.tried t orc (List.replicate n (some (.coef 0)))).setCells w
          (c.set (fFilter rec hi q) (some (.ptr (tryPtr t orc b.next))))) := by
  have h1 : run t orc (callocR n) (b.setCells w c) =
      .ok (tryPtr t orc b.next, (b.setCells w c).tried t orc (List.replicate n (some (.coef 0)))) := by
    unfold callocR St.tried tryPtr
    simp only [run]
    by_cases ho : orc b.next = true
    · have ho' : orc (b.setCells w c).next = true := ho
      rw [if_pos ho', if_pos ho', if_pos ho]; rfl
    · have ho' : ¬ orc (b.setCells w c).next = true := ho
      rw [if_neg ho', if_neg ho', if_neg ho]; rfl
  have h2 : run t orc (newFilter (some w) rec hi q n) (b.setCells w c) =
      .ok (tryPtr t orc b.next,
        (b.tried t orc (List.replicate n (some (.coef 0)))).setCells w
          (c.set (fFilter rec hi q) (some (.ptr (tryPtr t orc b.next))))) := by
    unfold newFilter
    rw [run_bind_ok h1, tried_setCells _ hw]
    unfold setField
    rw [run_bind_ok (run_putCell (c := c) setCells_self (by omega) (by omega) _)]
    rw [setCells_setCells]
    simp
  rw [run_bind_ok h2]

/-- A wavelet structure that was made by the thread: the blocks of the filters are `p 0`, …, `p 7`,
the filters in them `G 0`, …, `G 7`. -/
structure WS (t : ℕ) (h0 : Ptr → Option (Blk (Val R M))) (s : St (Val R M)) (w : Ptr) (n : ℕ)
    (p : ℕ → Ptr) (G : ℕ → List R) (b : Val R M) : Prop where
  held : Held t h0 s (w :: (List.range 8).map p)
  struct : s.heap w = some ⟨false, some (.num n) :: some (.num n) ::
    ((List.range 8).map fun k => some (.ptr (some (p k)))) ++ [some b]⟩
  blocks : ∀ k < 8, s.heap (p k) = some ⟨false, (G k).map fun r => some (.coef r)⟩

set_option maxHeartbeats 1000000 in
/-- The outcome of `blank_discrete_wavelet`. -/
theorem run_blankWavelet (s : St (Val R M)) (hu : Unused t s.heap s.next) {n : ℕ} (hn : 0 < n) :
    ∃ r s', run t orc (blankWavelet n) s = .ok (r, s') ∧ s.next ≤ s'.next ∧
      (r = none ∧ s'.heap = s.heap ∧ (∃ k, s.next ≤ k ∧ k < s'.next ∧ orc k = false) ∨
       ∃ w p, r = some w ∧ AllOk orc s.next s'.next ∧
        WS t s.heap s' w (blankLength n) p
          (fun _ => List.replicate (blankLength n) 0) (.num 0)) := by
  have hbl : (if n % 2 ≠ 0 then n + 1 else n) = blankLength n := by
    unfold blankLength
    by_cases h : n % 2 = 1
    · rw [if_pos (by omega), if_pos ⟨hn, h⟩]
    · rw [if_neg (by omega), if_neg (by omega)]
  have hN : 0 < blankLength n := by unfold blankLength; split_ifs <;> omega
  unfold blankWavelet
  rw [hbl]
  generalize blankLength n = N at hN
  set m := s.next with hm
  set w : Ptr := (t, m) with hw
  simp only [malloc]
  rw [run_malloc_bind]
  by_cases ho : orc m = true
  swap
  · rw [if_neg ho]
    refine ⟨none, s.bump, ?_, by simp only [bump_next]; omega,
      Or.inl ⟨rfl, rfl, m, by omega, by simp [← hm], by simpa using ho⟩⟩
    simp
  rw [if_pos ho, if_neg (by simp)]
  -- the two lengths
  have b0 := s.bump
  have e1 : run t orc (setField (some w) fDecLen (.num N)) (s.bump.setCells w (List.replicate 11 none)) =
      .ok ((), s.bump.setCells w (some (.num N) :: List.replicate 10 none)) := by
    unfold setField fDecLen
    rw [run_putCell (c := List.replicate 11 none) setCells_self (by simp) (by simp), setCells_setCells]
    rfl
  have e2 : run t orc (setField (some w) fRecLen (.num N))
      (s.bump.setCells w (some (.num N) :: List.replicate 10 none)) =
      .ok ((), s.bump.setCells w (some (.num N) :: some (.num N) :: List.replicate 9 none)) := by
    unfold setField fRecLen
    rw [run_putCell (c := some (.num N) :: List.replicate 10 none) setCells_self (by simp) (by simp),
      setCells_setCells]
    rfl
  rw [run_bind_ok e1, run_bind_ok e2]
  -- the eight filters
  set cz : List (Option (Val R M)) := List.replicate N (some (.coef 0)) with hcz
  set s1 := s.bump with hs1
  set s2 := s1.tried t orc cz with hs2
  set s3 := s2.tried t orc cz with hs3
  set s4 := s3.tried t orc cz with hs4
  set s5 := s4.tried t orc cz with hs5
  set s6 := s5.tried t orc cz with hs6
  set s7 := s6.tried t orc cz with hs7
  set s8 := s7.tried t orc cz with hs8
  set s9 := s8.tried t orc cz with hs9
  have n1 : s1.next = m + 1 := rfl
  have n2 : s2.next = m + 2 := by rw [hs2, tried_next, n1]
  have n3 : s3.next = m + 3 := by rw [hs3, tried_next, n2]
  have n4 : s4.next = m + 4 := by rw [hs4, tried_next, n3]
  have n5 : s5.next = m + 5 := by rw [hs5, tried_next, n4]
  have n6 : s6.next = m + 6 := by rw [hs6, tried_next, n5]
  have n7 : s7.next = m + 7 := by rw [hs7, tried_next, n6]
  have n8 : s8.next = m + 8 := by rw [hs8, tried_next, n7]
  have n9 : s9.next = m + 9 := by rw [hs9, tried_next, n8]
  have ne : ∀ k, w ≠ (t, m + (k + 1)) := by intro k h; simp [hw] at h
  have H1 : Held t s.heap s1 [] := (Held.nil (t := t) s).bump
  have H2 := H1.tried (orc := orc) (hu _ (by omega)) cz
  have H3 := H2.tried (orc := orc) (hu _ (by rw [← hs2]; omega)) cz
  have H4 := H3.tried (orc := orc) (hu _ (by rw [← hs2, ← hs3]; omega)) cz
  have H5 := H4.tried (orc := orc) (hu _ (by rw [← hs2, ← hs3, ← hs4]; omega)) cz
  have H6 := H5.tried (orc := orc) (hu _ (by rw [← hs2, ← hs3, ← hs4, ← hs5]; omega)) cz
  have H7 := H6.tried (orc := orc) (hu _ (by rw [← hs2, ← hs3, ← hs4, ← hs5, ← hs6]; omega)) cz
  have H8 := H7.tried (orc := orc)
    (hu _ (by rw [← hs2, ← hs3, ← hs4, ← hs5, ← hs6, ← hs7]; omega)) cz
  have H9 := H8.tried (orc := orc)
    (hu _ (by rw [← hs2, ← hs3, ← hs4, ← hs5, ← hs6, ← hs7, ← hs8]; omega)) cz
  rw [← hs2, ← hs3, ← hs4, ← hs5, ← hs6, ← hs7, ← hs8, ← hs9] at H9
  rw [run_newFilter (by rw [n1]; exact ne 0) (by simp [fFilter]),
    run_newFilter (by rw [← hs2, n2]; exact ne 1) (by simp [fFilter]),
    run_newFilter (by rw [← hs2, ← hs3, n3]; exact ne 2) (by simp [fFilter]),
    run_newFilter (by rw [← hs2, ← hs3, ← hs4, n4]; exact ne 3) (by simp [fFilter]),
    run_newFilter (by rw [← hs2, ← hs3, ← hs4, ← hs5, n5]; exact ne 4) (by simp [fFilter]),
    run_newFilter (by rw [← hs2, ← hs3, ← hs4, ← hs5, ← hs6, n6]; exact ne 5) (by simp [fFilter]),
    run_newFilter (by rw [← hs2, ← hs3, ← hs4, ← hs5, ← hs6, ← hs7, n7]; exact ne 6)
      (by simp [fFilter]),
    run_newFilter (by rw [← hs2, ← hs3, ← hs4, ← hs5, ← hs6, ← hs7, ← hs8, n8]; exact ne 7)
      (by simp [fFilter])]
  rw [← hs2, ← hs3, ← hs4, ← hs5, ← hs6, ← hs7, ← hs8, ← hs9]
  rw [n1, n2, n3, n4, n5, n6, n7, n8] at H9
  rw [n1, n2, n3, n4, n5, n6, n7, n8]
  have hcells : ((((((((some (.num N) :: some (.num N) :: List.replicate 9 none :
      List (Option (Val R M))).set (fFilter false false .float) (some (.ptr (tryPtr t orc (m + 1))))).set
      (fFilter false true .float) (some (.ptr (tryPtr t orc (m + 2))))).set
      (fFilter true false .float) (some (.ptr (tryPtr t orc (m + 3))))).set
      (fFilter true true .float) (some (.ptr (tryPtr t orc (m + 4))))).set
      (fFilter false false .double) (some (.ptr (tryPtr t orc (m + 5))))).set
      (fFilter false true .double) (some (.ptr (tryPtr t orc (m + 6))))).set
      (fFilter true false .double) (some (.ptr (tryPtr t orc (m + 7))))).set
      (fFilter true true .double) (some (.ptr (tryPtr t orc (m + 8)))) =
      [some (.num N), some (.num N), some (.ptr (tryPtr t orc (m + 5))),
       some (.ptr (tryPtr t orc (m + 6))), some (.ptr (tryPtr t orc (m + 7))),
       some (.ptr (tryPtr t orc (m + 8))), some (.ptr (tryPtr t orc (m + 1))),
       some (.ptr (tryPtr t orc (m + 2))), some (.ptr (tryPtr t orc (m + 3))),
       some (.ptr (tryPtr t orc (m + 4))), none] := rfl
  rw [hcells]
  have hwn : w ∉ ((tryPtr t orc (m + 8)).toList ++ ((tryPtr t orc (m + 7)).toList ++
      ((tryPtr t orc (m + 6)).toList ++ ((tryPtr t orc (m + 5)).toList ++
      ((tryPtr t orc (m + 4)).toList ++ ((tryPtr t orc (m + 3)).toList ++
      ((tryPtr t orc (m + 2)).toList ++ ((tryPtr t orc (m + 1)).toList ++ [])))))))) := by
    intro hp
    simp only [List.mem_append, List.not_mem_nil, or_false] at hp
    rcases hp with hp | hp | hp | hp | hp | hp | hp | hp <;> exact ne _ (mem_tryPtr hp)
  set cells : List (Option (Val R M)) := [some (.num N), some (.num N),
    some (.ptr (tryPtr t orc (m + 5))),
    some (.ptr (tryPtr t orc (m + 6))), some (.ptr (tryPtr t orc (m + 7))),
    some (.ptr (tryPtr t orc (m + 8))), some (.ptr (tryPtr t orc (m + 1))),
    some (.ptr (tryPtr t orc (m + 2))), some (.ptr (tryPtr t orc (m + 3))),
    some (.ptr (tryPtr t orc (m + 4))), none] with hcell
  have H := H9.add hwn rfl (by rw [n9]; show m < _; omega) (hu m le_rfl) cells
  have hp8 := perm8 (tryPtr t orc (m + 1)).toList (tryPtr t orc (m + 2)).toList
    (tryPtr t orc (m + 3)).toList (tryPtr t orc (m + 4)).toList (tryPtr t orc (m + 5)).toList
    (tryPtr t orc (m + 6)).toList (tryPtr t orc (m + 7)).toList (tryPtr t orc (m + 8)).toList
  by_cases hbad : tryPtr t orc (m + 1) = none ∨ tryPtr t orc (m + 2) = none ∨
      tryPtr t orc (m + 3) = none ∨ tryPtr t orc (m + 4) = none ∨ tryPtr t orc (m + 5) = none ∨
      tryPtr t orc (m + 6) = none ∨ tryPtr t orc (m + 7) = none ∨ tryPtr t orc (m + 8) = none
  · rw [if_pos hbad]
    have hf := run_freeWavelet (orc := orc) (n := N) (m := N)
      (a := tryPtr t orc (m + 1)) (b' := tryPtr t orc (m + 2)) (d := tryPtr t orc (m + 5))
      (e := tryPtr t orc (m + 6)) (f := tryPtr t orc (m + 3)) (g := tryPtr t orc (m + 4))
      (h := tryPtr t orc (m + 7)) (i := tryPtr t orc (m + 8)) (H.perm (hp8.cons w)) setCells_self rfl hN
      rfl hN rfl rfl rfl rfl rfl rfl rfl rfl
    rw [run_bind_ok hf]
    refine ⟨none, ⟨s.heap, m + 9⟩, by rw [setCells_next, n9]; rfl, by simp only; omega,
      Or.inl ⟨rfl, rfl, ?_⟩⟩
    have key : ∀ k, tryPtr t orc k = none → orc k = false := by
      intro k h
      unfold tryPtr at h
      by_cases ho : orc k = true
      · rw [if_pos ho] at h; cases h
      · simpa using ho
    rcases hbad with h | h | h | h | h | h | h | h <;>
      exact ⟨_, by omega, by simp only; omega, key _ h⟩
  · rw [if_neg hbad]
    simp only [not_or] at hbad
    have key : ∀ k, tryPtr t orc k ≠ none → orc k = true ∧ tryPtr t orc k = some (t, k) := by
      intro k h
      unfold tryPtr at h ⊢
      by_cases ho : orc k = true
      · rw [if_pos ho]; exact ⟨ho, rfl⟩
      · rw [if_neg ho] at h; exact absurd rfl h
    obtain ⟨o1, t1⟩ := key _ hbad.1
    obtain ⟨o2, t2⟩ := key _ hbad.2.1
    obtain ⟨o3, t3⟩ := key _ hbad.2.2.1
    obtain ⟨o4, t4⟩ := key _ hbad.2.2.2.1
    obtain ⟨o5, t5⟩ := key _ hbad.2.2.2.2.1
    obtain ⟨o6, t6⟩ := key _ hbad.2.2.2.2.2.1
    obtain ⟨o7, t7⟩ := key _ hbad.2.2.2.2.2.2.1
    obtain ⟨o8, t8⟩ := key _ hbad.2.2.2.2.2.2.2
    have hlast : run t orc (setField (some w) fBase (.num 0)) (s9.setCells w cells) =
        .ok ((), s9.setCells w (cells.set 10 (some (.num 0)))) := by
      unfold setField fBase
      rw [run_putCell (c := cells) setCells_self (by simp) (by simp [hcell]), setCells_setCells]
      rfl
    rw [run_bind_ok hlast]
    refine ⟨some w, s9.setCells w (cells.set 10 (some (.num 0))), rfl, by rw [setCells_next]; omega,
      Or.inr ⟨w, fun k => (t, m + 1 + (k + 4) % 8), rfl, ?_, ?_, ?_, ?_⟩⟩
    · intro k h1 h2
      rw [setCells_next, n9] at h2
      obtain rfl | rfl | rfl | rfl | rfl | rfl | rfl | rfl | rfl : k = m ∨ k = m + 1 ∨ k = m + 2 ∨
        k = m + 3 ∨ k = m + 4 ∨ k = m + 5 ∨ k = m + 6 ∨ k = m + 7 ∨ k = m + 8 := by omega
      all_goals assumption
    · have H' := H9.add hwn rfl (by rw [n9]; show m < _; omega) (hu m le_rfl)
        (cells.set 10 (some (.num 0)))
      refine H'.perm (List.Perm.cons w ?_)
      rw [t1, t2, t3, t4, t5, t6, t7, t8]
      show List.Perm [(t, m + 8), (t, m + 7), (t, m + 6), (t, m + 5), (t, m + 4), (t, m + 3),
        (t, m + 2), (t, m + 1)] [(t, m + 5), (t, m + 6), (t, m + 7), (t, m + 8), (t, m + 1), (t, m + 2),
        (t, m + 3), (t, m + 4)]
      rw [List.perm_iff_count]
      intro x
      simp only [List.count_cons, List.count_nil]
      omega
    · rw [setCells_self, hcell, t1, t2, t3, t4, t5, t6, t7, t8]
      rfl
    · have B : ∀ j, 1 ≤ j → j ≤ 8 → s9.heap (t, m + j) = some ⟨false, cz⟩ := by
        have nn : ∀ {a b : ℕ}, a ≠ b → ((t, m + a) : Ptr) ≠ (t, m + b) := by
          intro a b h h'; simp at h'; exact h h'
        intro j h1 h2
        obtain rfl | rfl | rfl | rfl | rfl | rfl | rfl | rfl : j = 1 ∨ j = 2 ∨
          j = 3 ∨ j = 4 ∨ j = 5 ∨ j = 6 ∨ j = 7 ∨ j = 8 := by omega
        · rw [hs9, tried_ne _ _ (by rw [n8]; exact nn (by omega)), hs8,
            tried_ne _ _ (by rw [n7]; exact nn (by omega)), hs7,
            tried_ne _ _ (by rw [n6]; exact nn (by omega)), hs6,
            tried_ne _ _ (by rw [n5]; exact nn (by omega)), hs5,
            tried_ne _ _ (by rw [n4]; exact nn (by omega)), hs4,
            tried_ne _ _ (by rw [n3]; exact nn (by omega)), hs3,
            tried_ne _ _ (by rw [n2]; exact nn (by omega)), hs2, ← n1, tried_self _ _ (by rw [n1]; exact o1)]
        · rw [hs9, tried_ne _ _ (by rw [n8]; exact nn (by omega)), hs8,
            tried_ne _ _ (by rw [n7]; exact nn (by omega)), hs7,
            tried_ne _ _ (by rw [n6]; exact nn (by omega)), hs6,
            tried_ne _ _ (by rw [n5]; exact nn (by omega)), hs5,
            tried_ne _ _ (by rw [n4]; exact nn (by omega)), hs4,
            tried_ne _ _ (by rw [n3]; exact nn (by omega)), hs3, ← n2,
            tried_self _ _ (by rw [n2]; exact o2)]
        · rw [hs9, tried_ne _ _ (by rw [n8]; exact nn (by omega)), hs8,
            tried_ne _ _ (by rw [n7]; exact nn (by omega)), hs7,
            tried_ne _ _ (by rw [n6]; exact nn (by omega)), hs6,
            tried_ne _ _ (by rw [n5]; exact nn (by omega)), hs5,
            tried_ne _ _ (by rw [n4]; exact nn (by omega)), hs4, ← n3,
            tried_self _ _ (by rw [n3]; exact o3)]
        · rw [hs9, tried_ne _ _ (by rw [n8]; exact nn (by omega)), hs8,
            tried_ne _ _ (by rw [n7]; exact nn (by omega)), hs7,
            tried_ne _ _ (by rw [n6]; exact nn (by omega)), hs6,
            tried_ne _ _ (by rw [n5]; exact nn (by omega)), hs5, ← n4,
            tried_self _ _ (by rw [n4]; exact o4)]
        · rw [hs9, tried_ne _ _ (by rw [n8]; exact nn (by omega)), hs8,
            tried_ne _ _ (by rw [n7]; exact nn (by omega)), hs7,
            tried_ne _ _ (by rw [n6]; exact nn (by omega)), hs6, ← n5,
            tried_self _ _ (by rw [n5]; exact o5)]
        · rw [hs9, tried_ne _ _ (by rw [n8]; exact nn (by omega)), hs8,
            tried_ne _ _ (by rw [n7]; exact nn (by omega)), hs7, ← n6,
            tried_self _ _ (by rw [n6]; exact o6)]
        · rw [hs9, tried_ne _ _ (by rw [n8]; exact nn (by omega)), hs8, ← n7,
            tried_self _ _ (by rw [n7]; exact o7)]
        · rw [hs9, ← n8, tried_self _ _ (by rw [n8]; exact o8)]
      intro k hk
      rw [setCells_ne (by rw [Nat.add_assoc, Nat.add_comm 1]; exact (ne _).symm)]
      rw [Nat.add_assoc, List.map_replicate]
      exact B _ (by omega) (by omega)

end Pywt.Heap
