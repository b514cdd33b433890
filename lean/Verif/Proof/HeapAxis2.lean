import Verif.Proof.HeapAxis

/-!
# `downcoef_axis` on the heap
-/

set_option linter.unusedSectionVars false
set_option linter.unusedVariables false

namespace Pywt.Heap

open Spec

variable {R M : Type} [Ring R] [AddCommGroup M] [Module R M]
variable {t : ℕ} {orc : ℕ → Bool}

theorem MemAt.ext {h h' : Ptr → Option (Blk (Val R M))} (e : Ext h h') {x : Loc} {c : Mem M}
    (a : MemAt h x c) : MemAt h' x c := by
  obtain ⟨p, h1, h2⟩ := a; exact ⟨p, h1, h2.ext e⟩

/-- Reading a cell of line number `i`. -/
theorem MemAt.load {h : Ptr → Option (Blk (Val R M))} {x : Loc} {c : Mem M} (a : MemAt h x c)
    (hc : c.Ok) {oshape : List ℕ} {axis i : ℕ} (ha : axis < oshape.length)
    (hl : c.info.shape.length = oshape.length)
    (hs : ∀ k < oshape.length, k ≠ axis → c.info.shape.getD k 0 = oshape.getD k 0)
    (hi : i < numTo oshape axis oshape.length) (j : ℕ) (hj : j < c.info.shape.getD axis 0) :
    load h x.blk (x.off + rowOffset oshape c.info.strides axis oshape.length i 0 +
      j * c.info.strides.getD axis 0) =
        .ok (.samp ((c.line axis (digit oshape axis oshape.length i)).getD j 0)) := by
  obtain ⟨p, rfl, b, hb⟩ := a
  have haddr : c.base + rowOffset oshape c.info.strides axis oshape.length i 0 +
      j * c.info.strides.getD axis 0 = c.base + dot c.info.strides
        (Function.update (digit oshape axis oshape.length i) axis j) c.info.ndim := by
    rw [Info.ndim, hl, dot_update ha (digit_axis ha), rowOffset_eq]
    ring
  have hin := hc (Function.update (digit oshape axis oshape.length i) axis j) (by
    intro k hk
    by_cases hka : k = axis
    · subst hka; simpa using hj
    · rw [Function.update_of_ne hka, hs k (by omega) hka]
      exact digit_lt hi k (by omega) hka)
  rw [List.getD_eq_getElem (l := c.line axis _) (hn := by rw [Mem.line_length]; exact hj)]
  simp only [Mem.line, List.getElem_map, List.getElem_range, Mem.get]
  rw [← haddr] at hin ⊢
  generalize c.base + rowOffset oshape c.info.strides axis oshape.length i 0 +
      j * c.info.strides.getD axis 0 = a at hin ⊢
  simp only [Heap.load, hb]
  rw [if_pos hin.1, List.getElem?_map, List.getElem?_eq_getElem (by omega),
    List.getD_eq_getElem (hn := by omega)]
  rfl

/-! ### Steps of the body of the loop -/

section Steps
variable {s : St (Val R M)} {p : Ptr} {n : ℕ} {l : List M}

/-- A temporary buffer of length `n`, if there is one. -/
def TmpAt (h : Ptr → Option (Blk (Val R M))) (tmp : Option Ptr) (n : ℕ) : Prop :=
  ∀ T, tmp = some T → ∃ c, h T = some ⟨false, c⟩ ∧ c.length = n

/-- `if (make_temp)` copy the line, and the pointer to the line. -/
theorem run_copyInIf {tmp : Option Ptr} {src : Loc} {stride : ℤ} (ht : TmpAt s.heap tmp n)
    (htmp : stride ≠ 1 → tmp ≠ none) (hl : l.length = n) (hne : src.blk ≠ tmp ∨ tmp = none)
    (hs : ∀ j : ℕ, j < n → load s.heap src.blk (src.off + j * stride) = .ok (.samp (l.getD j 0))) :
    ∃ s', run t orc (copyInIf (decide (stride ≠ 1)) ⟨tmp, 0⟩ src stride n) s = .ok ((), s') ∧
      s'.next = s.next ∧ (∀ q, some q ≠ tmp → s'.heap q = s.heap q) ∧ TmpAt s'.heap tmp n ∧
      HoldsM s'.heap (if stride ≠ 1 then ⟨tmp, 0⟩ else src) l := by
  by_cases hst : stride = 1
  · subst hst
    refine ⟨s, rfl, rfl, fun _ _ => rfl, ht, ?_⟩
    rw [if_neg (by simp)]
    intro j hj
    have := hs j (by omega)
    rw [mul_one, List.getD_eq_getElem (hn := hj)] at this
    exact this
  · cases tmp with
    | none => exact absurd rfl (htmp hst)
    | some T =>
      obtain ⟨c, hc, hcl⟩ := ht T rfl
      have hne' : src.blk ≠ some T := hne.resolve_right (by simp)
      refine ⟨s.setCells T (cellsM l), ?_, rfl, ?_, ?_, ?_⟩
      · rw [show decide (stride ≠ 1) = true by simpa using hst]
        exact run_copyIn hc hcl hl hne' hs
      · intro q hq
        exact setCells_ne fun e => hq (by rw [e])
      · rintro T' ⟨⟩
        exact ⟨_, setCells_self, by simpa using hl⟩
      · rw [if_pos hst]
        exact SamplesAt.holds ⟨false, setCells_self⟩

/-- `if (make_temp)` copy the line out. -/
theorem run_copyOutIf {tmp : Option Ptr} {c : List (Option (Val R M))} {off stride : ℤ}
    (hp : s.heap p = some ⟨false, c⟩) (hst : stride ≠ 1)
    {T : Ptr} (htmp : tmp = some T) (hT : s.heap T = some ⟨false, cellsM l⟩) (hne : T ≠ p)
    (hl : l.length = n)
    (hb : ∀ j : ℕ, j < n → 0 ≤ off + j * stride ∧ off + j * stride < c.length)
    (hinj : ∀ i j : ℕ, i < n → j < n → off + i * stride = off + j * stride → i = j) :
    ∃ c', run t orc (copyOutIf (decide (stride ≠ 1)) ⟨some p, off⟩ ⟨tmp, 0⟩ stride n) s =
        .ok ((), s.setCells p c') ∧ WroteLine c c' off stride n l := by
  subst htmp
  obtain ⟨c', h1, h2⟩ := run_copyOut (t := t) (orc := orc) (n := n) hp
    (SamplesAt.holds ⟨false, hT⟩) (by simpa using hne) hl hb hinj
  refine ⟨c', ?_, h2⟩
  rw [show decide (stride ≠ 1) = true by simpa using hst]
  exact h1

end Steps

/-! ### Optional temporary buffers -/

theorem run_mallocIf_bind {α : Type} {s : St (Val R M)} (b : Bool) (n : ℕ)
    (k : Option Ptr → Prog (Val R M) α) :
    run t orc (mallocIf b n >>= k) s =
      if b then
        if orc s.next then
          run t orc (k (some (t, s.next))) (s.bump.setCells (t, s.next) (List.replicate n none))
        else run t orc (k none) s.bump
      else run t orc (k none) s := by
  cases b
  · rfl
  · simp only [if_true]
    unfold mallocIf malloc
    rw [if_pos rfl, run_malloc_bind]

/-- What `K` does when it writes a line: on every memory that has the blocks of `h0`, with at least
`N` allocations made, it writes `g` of its input to its output; all its allocations succeed, and it
frees them. -/
def LineOp (t : ℕ) (orc : ℕ → Bool) (h0 : Ptr → Option (Blk (Val R M))) (N nin nout : ℕ)
    (g : List M → List M) (K : Buf → Buf → Prog (Val R M) ℤ) : Prop :=
  ∀ (s0 : St (Val R M)) (p : Ptr) (c0 : List (Option (Val R M))) (o : ℕ) (x : Loc) (xl : List M),
    N ≤ s0.next → Ext h0 s0.heap → s0.heap p = none → s0.heap (t, s0.next) = none →
    p ≠ (t, s0.next) → HoldsM s0.heap x xl → xl.length = nin → o + nout ≤ c0.length →
    ∃ r n', s0.next ≤ n' ∧ AllOk orc s0.next n' ∧
      run t orc (K ⟨x, nin⟩ ⟨⟨some p, o⟩, nout⟩) (s0.setCells p c0) =
        .ok (r, (⟨s0.heap, n'⟩ : St (Val R M)).setCells p (over c0 o (cellsM (g xl))))

theorem AllOk.trans {a b c : ℕ} (h : AllOk orc a b) (h' : AllOk orc b c) : AllOk orc a c := by
  intro k h1 h2
  by_cases hk : k < b
  · exact h k h1 hk
  · exact h' k (by omega) h2

section Down
variable {s1 : St (Val R M)} {p : Ptr} {ti tout : Option Ptr} {nin nout : ℕ}

/-- The memory during the loop, `s1` being the memory before. -/
structure During (t : ℕ) (orc : ℕ → Bool) (s1 : St (Val R M)) (p : Ptr)
    (tmps : List (Option Ptr × ℕ)) (s : St (Val R M)) : Prop where
  next : s1.next ≤ s.next
  ok : AllOk orc s1.next s.next
  rest : ∀ q, q ≠ p → (∀ T ∈ tmps, T.1 ≠ some q) → s.heap q = s1.heap q
  tmp : ∀ T ∈ tmps, TmpAt s.heap T.1 T.2

variable {h0 : Ptr → Option (Blk (Val R M))} {q : Prec} {w : Ptr} {approx : Bool} {tr : Transform}
  {axis : ℕ} {c : Mem M} {x : Loc} {g : List M → List M}

/-- One line of `downcoef_axis`. -/
theorem run_downcoefRow (hK : LineOp t orc h0 s1.next nin nout g (kernel q tr approx (some w)))
    (hg : ∀ l : List M, l.length = nin → (g l).length = nout)
    (hu : Unused t s1.heap s1.next)
    (hext : ∀ r b, h0 r = some b → s1.heap r = some b ∧ r ≠ p ∧ ti ≠ some r ∧ tout ≠ some r)
    (hpm : p.1 = t → p.2 < s1.next)
    (hti : ∀ T, ti = some T → T ≠ p ∧ tout ≠ some T ∧ (T.1 = t → T.2 < s1.next))
    (hto : ∀ T, tout = some T → T ≠ p ∧ (T.1 = t → T.2 < s1.next))
    (hx : MemAt s1.heap x c) (hxp : x.blk ≠ some p) (hxi : x.blk ≠ ti ∨ ti = none)
    (hxo : x.blk ≠ tout ∨ tout = none) (hc : c.Ok)
    {oshape : List ℕ} (ha : axis < oshape.length) (hl : c.info.shape.length = oshape.length)
    (hs : ∀ k < oshape.length, k ≠ axis → c.info.shape.getD k 0 = oshape.getD k 0)
    (hnin : c.info.shape.getD axis 0 = nin) (hnout : oshape.getD axis 0 = nout) (h0n : 0 < nout)
    (hmi : c.info.strides.getD axis 0 ≠ 1 → ti ≠ none)
    (hmo : (cstrides oshape).getD axis 0 ≠ 1 ↔ tout ≠ none) {i : ℕ}
    (hi : i < numTo oshape axis oshape.length)
    {s : St (Val R M)} {cells : List (Option (Val R M))}
    (hP : During t orc s1 p [(ti, nin), (tout, nout)] s)
    (hp : s.heap p = some ⟨false, cells⟩) (hcl : cells.length = oshape.prod) :
    ∃ s' cells', run t orc (downcoefRow q x c.info ⟨some p, 0⟩ ⟨oshape, cstrides oshape⟩ (some w)
        axis approx tr ti tout i) s = .ok ((), s') ∧
      During t orc s1 p [(ti, nin), (tout, nout)] s' ∧ s'.heap p = some ⟨false, cells'⟩ ∧
      WroteLine cells cells' (rowOffset oshape (cstrides oshape) axis oshape.length i 0)
        ((cstrides oshape).getD axis 0) (oshape.getD axis 0)
        (g (c.line axis (digit oshape axis oshape.length i))) := by
  obtain ⟨P1, P2, P3, P4⟩ := hP
  have P4i := P4 (ti, nin) (by simp)
  have P4o := P4 (tout, nout) (by simp)
  set line := c.line axis (digit oshape axis oshape.length i) with hline
  have hlen : line.length = nin := by rw [hline, Mem.line_length, hnin]
  have hxs : MemAt s.heap x c := by
    obtain ⟨b, rfl, k, hb⟩ := hx
    refine ⟨b, rfl, k, ?_⟩
    rw [P3 b (by simpa using hxp) (by
      simp only [List.mem_cons, List.not_mem_nil, or_false, forall_eq_or_imp, forall_eq]
      refine ⟨?_, ?_⟩
      · rcases hxi with h | h
        · exact fun e => h e.symm
        · rw [h]; simp
      · rcases hxo with h | h
        · exact fun e => h e.symm
        · rw [h]; simp)]
    exact hb
  have hb := lineBound ha hi
  have hinj := lineInj ha hi
  rw [hnout] at hb hinj ⊢
  unfold downcoefRow
  simp only [Info.ndim, Loc.add, zero_add]
  -- the line is read
  obtain ⟨s2, e2, n2, r2, t2, l2⟩ := run_copyInIf (t := t) (orc := orc) (n := nin) (l := line)
    (src := ⟨x.blk, x.off + rowOffset oshape c.info.strides axis oshape.length i 0⟩)
    (stride := c.info.strides.getD axis 0) P4i hmi hlen hxi
    (by
      intro j hj
      exact hxs.load hc ha hl hs hi j (by omega))
  rw [hnin, run_bind_ok e2]
  have hext2 : ∀ r b, h0 r = some b → s2.heap r = some b ∧ r ≠ p ∧ ti ≠ some r ∧ tout ≠ some r := by
    intro r b hr
    obtain ⟨a1, a2, a3, a4⟩ := hext r b hr
    refine ⟨?_, a2, a3, a4⟩
    rw [r2 r (fun e => a3 e.symm), P3 r a2 (by simp [a3, a4]), a1]
  have hfresh : s2.heap (t, s2.next) = none := by
    have hne : ∀ T : Ptr, (T.1 = t → T.2 < s1.next) → T ≠ (t, s2.next) := by
      rintro T h rfl
      have := h rfl
      simp only at this; omega
    have h1 : ti ≠ some (t, s2.next) := fun e => hne _ (hti _ e).2.2 rfl
    have h2 : tout ≠ some (t, s2.next) := fun e => hne _ (hto _ e).2 rfl
    have h3 : (t, s2.next) ≠ p := (hne p hpm).symm
    rw [r2 _ (fun e => h1 e.symm), P3 _ h3 (by simp [h1, h2])]
    exact hu _ (by omega)
  have hirow : (if decide (c.info.strides.getD axis 0 ≠ 1) = true then (⟨ti, 0⟩ : Loc)
      else ⟨x.blk, x.off + rowOffset oshape c.info.strides axis oshape.length i 0⟩) =
      (if c.info.strides.getD axis 0 ≠ 1 then ⟨ti, 0⟩ else
        ⟨x.blk, x.off + rowOffset oshape c.info.strides axis oshape.length i 0⟩) := by
    simp only [decide_eq_true_eq]
  rw [hirow]
  set irow := (if c.info.strides.getD axis 0 ≠ 1 then (⟨ti, 0⟩ : Loc) else
        ⟨x.blk, x.off + rowOffset oshape c.info.strides axis oshape.length i 0⟩) with hir
  have hirne : ∀ Q : Ptr, Q = p ∨ tout = some Q → irow.blk ≠ some Q := by
    intro Q hQ
    rw [hir]
    split
    · rcases hQ with rfl | hQ
      · intro e; exact (hti _ e).1 rfl
      · intro e; exact (hti _ e).2.1 hQ
    · rcases hQ with rfl | hQ
      · exact hxp
      · rcases hxo with h | h
        · exact fun e => h (e.trans hQ.symm)
        · rw [h] at hQ; cases hQ
  -- the transform
  have hker : ∀ (Q : Ptr) (cQ : List (Option (Val R M))) (o : ℕ), (Q = p ∨ tout = some Q) →
      s2.heap Q = some ⟨false, cQ⟩ → o + nout ≤ cQ.length →
      ∃ r n', s2.next ≤ n' ∧ AllOk orc s2.next n' ∧
        run t orc (kernel q tr approx (some w) ⟨irow, nin⟩ ⟨⟨some Q, o⟩, nout⟩) s2 =
          .ok (r, (⟨s2.heap, n'⟩ : St (Val R M)).setCells Q (over cQ o (cellsM (g line)))) := by
    intro Q cQ o hQ hQc ho
    have hQne : Q ≠ (t, s2.next) := by rintro rfl; rw [hfresh] at hQc; cases hQc
    obtain ⟨r, n', h1, h2, h3⟩ := hK (s2.erase Q) Q cQ o irow line (by rw [erase_next]; omega) (by
        intro r b hr
        obtain ⟨a1, a2, a3, a4⟩ := hext2 r b hr
        rw [erase_ne _ (by rintro rfl; rcases hQ with h | h; exacts [a2 h, a4 h])]
        exact a1) (erase_self _ _) (by
          rw [erase_next, erase_ne _ (fun h => hQne h.symm)]; exact hfresh) hQne (by
        intro j hj
        have := l2 j hj
        rw [← erase_setCells_same hQc, load_setCells_ne (hirne Q hQ)] at this
        exact this) hlen ho
    refine ⟨r, n', h1, h2, ?_⟩
    rw [erase_setCells_same hQc] at h3
    rw [h3]
    congr 2
    simp [St.erase, St.setCells]
  have hp2 : s2.heap p = some ⟨false, cells⟩ := by
    rw [r2 p (by rintro e; exact (hti _ e.symm).1 rfl)]; exact hp
  have hglen := hg line hlen
  by_cases hst : (cstrides oshape).getD axis 0 = 1
  · -- written in place
    have hton : tout = none := by
      by_contra h
      exact hmo.mpr h hst
    have hoff : 0 ≤ rowOffset oshape (cstrides oshape) axis oshape.length i 0 := by
      simpa using (hb 0 h0n).1
    obtain ⟨o, ho⟩ := Int.eq_ofNat_of_zero_le hoff
    rw [hst, ho] at hb
    have hok : o + nout ≤ cells.length := by
      rw [hcl]
      have := (hb (nout - 1) (by omega)).2
      omega
    obtain ⟨r, n', k1, k2, k3⟩ := hker p cells o (Or.inl rfl) hp2 hok
    rw [ho, hst, hnout, show decide ((1 : ℤ) ≠ 1) = false by simp]
    simp only [Bool.false_eq_true, if_false]
    rw [run_bind_ok k3]
    refine ⟨_, _, rfl, ⟨?_, ?_, ?_, ?_⟩, setCells_self, wroteLine_over hglen hok⟩
    · simp only [setCells_next]; omega
    · simp only [setCells_next]; rw [← n2] at P2; exact P2.trans k2
    · intro Q hQ hQT
      rw [setCells_ne hQ]
      simp only [List.mem_cons, List.not_mem_nil, or_false, forall_eq_or_imp, forall_eq] at hQT
      show s2.heap Q = _
      rw [r2 Q (fun e => hQT.1 e.symm)]
      exact P3 Q hQ (by simpa using hQT)
    · simp only [List.mem_cons, List.not_mem_nil, or_false, forall_eq_or_imp, forall_eq]
      refine ⟨?_, ?_⟩
      · intro T hT
        rw [setCells_ne (hti T hT).1]
        exact t2 T hT
      · rw [hton]; rintro T ⟨⟩
  · -- written through a temporary buffer
    obtain ⟨T, hT⟩ := Option.ne_none_iff_exists'.mp (hmo.mp hst)
    obtain ⟨cT, hcT, hcTl⟩ := P4o T hT
    have hcT2 : s2.heap T = some ⟨false, cT⟩ := by
      rw [r2 T (by intro e; exact (hti T e.symm).2.1 hT)]; exact hcT
    obtain ⟨r, n', k1, k2, k3⟩ := hker T cT 0 (Or.inr hT) hcT2 (by omega)
    rw [over_full (by rw [cellsM_length, hglen, hcTl])] at k3
    rw [hnout, if_pos (show decide ((cstrides oshape).getD axis 0 ≠ 1) = true from
      decide_eq_true hst), hT, show (⟨some T, 0⟩ : Loc) = ⟨some T, ((0 : ℕ) : ℤ)⟩ from rfl,
      run_bind_ok k3]
    subst hT
    have hTp := (hto T rfl).1
    obtain ⟨c', h5, h6⟩ := run_copyOutIf (t := t) (orc := orc) (n := nout) (l := g line)
      (off := rowOffset oshape (cstrides oshape) axis oshape.length i 0)
      (s := (⟨s2.heap, n'⟩ : St (Val R M)).setCells T (cellsM (g line)))
      (by rw [setCells_ne hTp.symm]; exact hp2) hst rfl setCells_self hTp hglen
      (by rw [hcl]; exact hb) hinj
    refine ⟨_, c', h5, ⟨?_, ?_, ?_, ?_⟩, setCells_self, h6⟩
    · simp only [setCells_next]; omega
    · simp only [setCells_next]; rw [← n2] at P2; exact P2.trans k2
    · intro Q hQ hQT
      simp only [List.mem_cons, List.not_mem_nil, or_false, forall_eq_or_imp, forall_eq] at hQT
      rw [setCells_ne hQ, setCells_ne (by rintro rfl; exact hQT.2 rfl)]
      show s2.heap Q = _
      rw [r2 Q (fun e => hQT.1 e.symm)]
      exact P3 Q hQ (by simpa using hQT)
    · simp only [List.mem_cons, List.not_mem_nil, or_false, forall_eq_or_imp, forall_eq]
      refine ⟨?_, ?_⟩
      · intro T' hT'
        have := hti T' hT'
        rw [setCells_ne this.1, setCells_ne (by rintro rfl; exact this.2.1 rfl)]
        exact t2 T' hT'
      · rintro T' ⟨⟩
        rw [setCells_ne hTp]
        exact ⟨_, setCells_self, by simpa using hglen⟩

end Down

end Pywt.Heap
