import Verif.Proof.HeapWt
import Verif.Proof.AxisSpec

/-!
# The 1-D calls on the heap
-/

set_option linter.unusedSectionVars false
set_option linter.unusedVariables false

namespace Pywt.Heap

open Spec

variable {R M : Type} [Ring R] [AddCommGroup M] [Module R M]
variable {t : ℕ} {orc : ℕ → Bool}

/-! ### `idwt` -/

section Us
variable [Nontrivial M] {s0 : St (Val R M)} {p w : Ptr} {c0 : List (Option (Val R M))} {o n : ℕ}
  {q : Prec} {wl : Wavelet R} {x : Loc} {xl : List M} {f : Loc} {fl : List R}

theorem run_usConv (hp : s0.heap p = none) (hf : HoldsR s0.heap f fl) (hx : HoldsM s0.heap x xl)
    (hF : 2 ≤ fl.length) (hF2 : fl.length % 2 = 0) (hX : 1 ≤ xl.length) {mode : Mode}
    {out : List M} (hlen : 1 ≤ synthLen mode xl.length fl.length)
    (hout : out.length = synthLen mode xl.length fl.length) (hl : o + out.length ≤ c0.length) :
    run t orc (usConv (kfuel xl.length fl.length) ⟨x, xl.length⟩ ⟨f, fl.length⟩ ⟨some p, o⟩ mode)
      (s0.setCells p (over c0 o (cellsM out))) =
      .ok (0, s0.setCells p (over c0 o
        (cellsM (List.zipWith (· + ·) out (upPart mode fl xl out.length))))) := by
  obtain ⟨a, s', h1, h2, h3, h4⟩ := Sim.usConv (t := t) (orc := orc) (n := out.length) hl hf hx
    (hf.ne (by omega) hp) (hx.ne hX hp)
    (kfuel xl.length fl.length) mode (s := s0.setCells p (over c0 o (cellsM out))) ⟨rfl, rfl⟩ _
    (usConv_eq hF hF2 hlen hout)
  rw [h1, h2, h4]
  rfl

theorem HoldsM.blk_ne_none {h : Ptr → Option (Blk (Val R M))} (hx : HoldsM h x xl)
    (hX : 1 ≤ xl.length) : x.blk ≠ none := by
  intro e
  have := hx 0 hX
  rw [e] at this
  simp [load] at this

theorem run_idwtPart (hp : s0.heap p = none) (hw : WaveletAt s0.heap q w wl) (ok : wl.Ok)
    (hi : Bool) (hx : HoldsM s0.heap x xl) (hX : 1 ≤ xl.length) {mode : Mode}
    {out : List M} (hlen : 1 ≤ synthLen mode xl.length wl.dec_len)
    (hout : out.length = synthLen mode xl.length wl.dec_len) (hl : o + out.length ≤ c0.length) :
    run t orc (idwtPart q hi (some w) ⟨x, xl.length⟩ xl.length ⟨some p, o⟩ mode)
      (s0.setCells p (over c0 o (cellsM out))) =
      .ok (0, s0.setCells p (over c0 o
        (cellsM (List.zipWith (· + ·) out (upPart mode (filt wl true hi) xl out.length))))) := by
  have e := Ext.setCells hp (over c0 o (cellsM out))
  have hF := filt_length ok true hi
  have hr : wl.rec_len = wl.dec_len := ok.2.2.2.1
  unfold idwtPart
  rw [if_neg (hx.blk_ne_none hX)]
  obtain ⟨f, h1, h2⟩ := run_filter (t := t) (orc := orc) hw true hi
  rw [run_bind_ok (h2 _ e), run_bind_ok (run_recLen (hw.ext e)), hr]
  have := run_usConv (t := t) (orc := orc) (c0 := c0) (o := o) (out := out) hp h1.holds hx
    (by rw [hF]; exact ok.1) (by rw [hF]; exact ok.2.1) hX (mode := mode)
    (by rw [hF]; exact hlen) (by rw [hF]; exact hout) hl
  rw [hF] at this
  exact this

theorem run_idwt (hp : s0.heap p = none) (hw : WaveletAt s0.heap q w wl) (ok : wl.Ok)
    {a d : Loc} {al dl : List M} (ha : HoldsM s0.heap a al) (hd : HoldsM s0.heap d dl)
    (hA : 1 ≤ al.length) (hD : al.length = dl.length) {mode : Mode}
    (hlen : 1 ≤ synthLen mode al.length wl.rec_len)
    (hn : n = synthLen mode al.length wl.rec_len) (hl : o + n ≤ c0.length) :
    run t orc (idwt q (some w) ⟨a, al.length⟩ ⟨d, dl.length⟩ ⟨⟨some p, o⟩, n⟩ mode)
      (s0.setCells p (over c0 o (cellsM (zeros n)))) =
      .ok (0, s0.setCells p (over c0 o (cellsM (synthesis mode wl.rec_lo wl.rec_hi al dl)))) := by
  have hr : wl.rec_len = wl.dec_len := ok.2.2.2.1
  rw [hr] at hlen hn
  have e := Ext.setCells hp (over c0 o (cellsM (zeros n)))
  unfold idwt
  simp only [ne_eq, ha.blk_ne_none hA, hd.blk_ne_none (show 1 ≤ dl.length by omega), not_false_eq_true,
    true_and, if_true, hD, not_true, if_false]
  rw [run_bind_ok (run_recLen (hw.ext e)), hr, ← hD, idwtBufferLength_eq hlen,
    if_neg (by rw [hn]; exact fun h => h rfl)]
  have h1 := run_idwtPart (t := t) (orc := orc) (c0 := c0) (o := o) (out := zeros n) hp hw ok false
    ha hA hlen (by simpa using hn) (by simpa using hl)
  rw [run_bind_ok h1, if_neg (by omega), zeros_length, zipWith_zeros _ _ (by simp)]
  have h2 := run_idwtPart (t := t) (orc := orc) (c0 := c0) (o := o)
    (out := upPart mode (filt wl true false) al n) hp hw ok true
    hd (by omega) (by rw [← hD]; exact hlen) (by rw [upPart_length, ← hD]; exact hn)
    (by simpa using hl)
  rw [← hD] at h2
  rw [run_bind_ok h2, if_neg (by omega), upPart_length]
  have h3 : wl.rec_hi.length = wl.rec_lo.length := by
    rw [ok.2.2.2.2, ← ok.2.2.2.1]
  rw [synthesis_eq_upPart h3, show wl.rec_lo.length = wl.dec_len from ok.2.2.2.1, ← hn]
  rfl

end Us

/-! ### Arrays held during a call -/

/-- Every allocation from number `a` to number `b` succeeds. -/
def AllOk (orc : ℕ → Bool) (a b : ℕ) : Prop := ∀ k, a ≤ k → k < b → orc k = true

theorem AllOk.refl (a : ℕ) : AllOk orc a a := fun k h1 h2 => by omega

theorem AllOk.succ {a b : ℕ} (h : AllOk orc a b) (hb : orc b = true) : AllOk orc a (b + 1) := by
  intro k h1 h2
  rcases Nat.lt_succ_iff_lt_or_eq.mp h2 with h3 | rfl
  · exact h k h1 h3
  · exact hb

/-- Compared with the heap `h0`, there are also the blocks `ps`, made by thread `t`. -/
structure Held {V : Type} (t : ℕ) (h0 : Ptr → Option (Blk V)) (s : St V) (ps : List Ptr) : Prop where
  nodup : ps.Nodup
  mine : ∀ p ∈ ps, p.1 = t ∧ p.2 < s.next
  fresh : ∀ p ∈ ps, h0 p = none
  block : ∀ p ∈ ps, ∃ c, s.heap p = some ⟨false, c⟩
  rest : ∀ q, q ∉ ps → s.heap q = h0 q

section Held
variable {V : Type} {h0 : Ptr → Option (Blk V)} {s : St V} {ps : List Ptr}

theorem Held.nil (s : St V) : Held t s.heap s [] :=
  ⟨List.nodup_nil, by simp, by simp, by simp, fun _ _ => rfl⟩

theorem Held.perm {ps' : List Ptr} (h : Held t h0 s ps) (e : ps.Perm ps') : Held t h0 s ps' :=
  ⟨e.nodup_iff.mp h.nodup, fun p hp => h.mine p (e.mem_iff.mpr hp),
    fun p hp => h.fresh p (e.mem_iff.mpr hp), fun p hp => h.block p (e.mem_iff.mpr hp),
    fun q hq => h.rest q fun h' => hq (e.mem_iff.mp h')⟩

theorem Held.bump (h : Held t h0 s ps) : Held t h0 s.bump ps :=
  ⟨h.nodup, fun p hp => ⟨(h.mine p hp).1, by have := (h.mine p hp).2; simp only [bump_next]; omega⟩,
    h.fresh, h.block, h.rest⟩

theorem Held.alloc (h : Held t h0 s ps) (hu : h0 (t, s.next) = none) (c : List (Option V)) :
    Held t h0 (s.bump.setCells (t, s.next) c) ((t, s.next) :: ps) := by
  have hn : (t, s.next) ∉ ps := fun hp => by have := (h.mine _ hp).2; simp at this
  refine ⟨List.nodup_cons.mpr ⟨hn, h.nodup⟩, ?_, ?_, ?_, ?_⟩
  · intro p hp
    rcases List.mem_cons.mp hp with rfl | hp
    · simp
    · refine ⟨(h.mine p hp).1, ?_⟩
      have := (h.mine p hp).2
      simp only [setCells_next, bump_next]; omega
  · intro p hp
    rcases List.mem_cons.mp hp with rfl | hp
    · exact hu
    · exact h.fresh p hp
  · intro p hp
    rcases List.mem_cons.mp hp with rfl | hp
    · exact ⟨c, setCells_self⟩
    · rw [setCells_ne (by rintro rfl; exact hn hp)]
      exact h.block p hp
  · intro q hq
    rw [List.mem_cons, not_or] at hq
    rw [setCells_ne hq.1]
    exact h.rest q hq.2

theorem Held.setCells (h : Held t h0 s ps) {p : Ptr} (hp : p ∈ ps) (c : List (Option V)) :
    Held t h0 (s.setCells p c) ps := by
  refine ⟨h.nodup, h.mine, h.fresh, ?_, ?_⟩
  · intro p' hp'
    by_cases e : p' = p
    · subst e; exact ⟨c, setCells_self⟩
    · rw [setCells_ne e]; exact h.block p' hp'
  · intro q hq
    rw [setCells_ne (by rintro rfl; exact hq hp)]
    exact h.rest q hq

theorem Held.next {n : ℕ} (h : Held t h0 s ps) (hn : s.next ≤ n) : Held t h0 ⟨s.heap, n⟩ ps :=
  ⟨h.nodup, fun p hp => ⟨(h.mine p hp).1, lt_of_lt_of_le (h.mine p hp).2 hn⟩, h.fresh, h.block,
    h.rest⟩

theorem Held.unused (h : Held t h0 s ps) {n : ℕ} (hn : n ≤ s.next) (hu : Unused t h0 n) :
    Unused t s.heap s.next := by
  intro k hk
  rw [h.rest, hu k (by omega)]
  intro hp
  have := (h.mine _ hp).2
  simp at this; omega

end Held

/-- The memory without one block. -/
def St.erase {V : Type} (s : St V) (p : Ptr) : St V :=
  { s with heap := Function.update s.heap p none }

@[simp] theorem erase_next {V : Type} (s : St V) (p : Ptr) : (s.erase p).next = s.next := rfl
@[simp] theorem erase_self {V : Type} (s : St V) (p : Ptr) : (s.erase p).heap p = none := by
  simp [St.erase]

theorem erase_ne {V : Type} (s : St V) {p q : Ptr} (h : q ≠ p) :
    (s.erase p).heap q = s.heap q := by simp [St.erase, h]

theorem erase_setCells {V : Type} (s : St V) (p : Ptr) (c : List (Option V)) :
    (s.erase p).setCells p c = s.setCells p c := by
  simp [St.erase, St.setCells]

theorem setCells_same {V : Type} {s : St V} {p : Ptr} {c : List (Option V)}
    (h : s.heap p = some ⟨false, c⟩) : s.setCells p c = s := by
  cases s
  simp only [St.setCells]
  simp only at h
  rw [← h, Function.update_eq_self]

theorem erase_setCells_same {V : Type} {s : St V} {p : Ptr} {c : List (Option V)}
    (h : s.heap p = some ⟨false, c⟩) : (s.erase p).setCells p c = s := by
  rw [erase_setCells, setCells_same h]

theorem Held.ext {V : Type} {h0 : Ptr → Option (Blk V)} {s : St V} {ps : List Ptr}
    (h : Held t h0 s ps) {p : Ptr} (hp : p ∈ ps) : Ext h0 (s.erase p).heap := by
  intro q b hb
  have hq : q ∉ ps := fun hq => by rw [h.fresh q hq] at hb; cases hb
  rw [erase_ne _ (by rintro rfl; exact hq hp), h.rest q hq, hb]

/-- Freeing all of them gives the old heap back. -/
theorem run_freeAll {h0 : Ptr → Option (Blk (Val R M))} {s : St (Val R M)} {ps : List Ptr}
    (h : Held t h0 s ps) :
    run t orc (freeAll (ps.map some)) s = .ok ((), ⟨h0, s.next⟩) := by
  induction ps generalizing s with
  | nil =>
    have : s.heap = h0 := funext fun q => h.rest q (by simp)
    rw [← this]; rfl
  | cons p ps ih =>
    obtain ⟨c, hc⟩ := h.block p (by simp)
    have hnd := List.nodup_cons.mp h.nodup
    have hb : run t orc (free (some p)) s = .ok ((), s.erase p) := by
      conv_lhs => rw [← erase_setCells_same hc]
      exact run_free (erase_self s p) c
    show run t orc (free (some p) >>= fun _ => freeAll (ps.map some)) s = _
    rw [run_bind_ok hb, ih]
    · rfl
    · refine ⟨hnd.2, fun p' hp' => h.mine p' (by simp [hp']), fun p' hp' => h.fresh p' (by simp [hp']),
        ?_, ?_⟩
      · intro p' hp'
        rw [erase_ne _ (by rintro rfl; exact hnd.1 hp')]
        exact h.block p' (by simp [hp'])
      · intro q hq
        by_cases e : q = p
        · subst e; rw [erase_self, h.fresh q (by simp)]
        · rw [erase_ne _ e]; exact h.rest q (by simp [e, hq])

theorem run_raise {h0 : Ptr → Option (Blk (Val R M))} {s : St (Val R M)} {ps : List Ptr}
    (h : Held t h0 s ps) (e : PyErr) :
    run t orc (raise e (ps.map some)) s = .ok (.error e, ⟨h0, s.next⟩) := by
  unfold raise
  rw [run_bind_ok (run_freeAll h)]
  rfl

theorem run_npZeros {s : St (Val R M)} (n : ℕ) (held : List (Option Ptr))
    (k : Ptr → Prog (Val R M) Res) :
    run t orc (npZeros n held k) s =
      if orc s.next then
        run t orc (k (t, s.next)) (s.bump.setCells (t, s.next) (cellsM (zeros n)))
      else run t orc (raise .alloc held) s.bump := by
  unfold npZeros callocM
  rw [run_malloc_bind]
  simp only [cellsM, zeros, List.map_replicate]

theorem run_npEmpty {s : St (Val R M)} (n : ℕ) (held : List (Option Ptr))
    (k : Ptr → Prog (Val R M) Res) :
    run t orc (npEmpty n held k) s =
      if orc s.next then
        run t orc (k (t, s.next)) (s.bump.setCells (t, s.next) (List.replicate n none))
      else run t orc (raise .alloc held) s.bump := by
  unfold npEmpty malloc
  rw [run_malloc_bind]

/-! ### What a call does -/

/-- The outcome of a call that started with the heap `h0` and allocation number `n0`. -/
def Outcome (orc : ℕ → Bool) (h0 : Ptr → Option (Blk (Val R M))) (n0 : ℕ)
    (res : Py (List (List M))) (r : Res) (s' : St (Val R M)) : Prop :=
  n0 ≤ s'.next ∧
  match r with
  | .ok ps => ∃ ls, res = .ok ls ∧ Returned h0 s'.heap ps ls ∧ AllOk orc n0 s'.next
  | .error e => s'.heap = h0 ∧ (res = .error e ∧ AllOk orc n0 s'.next ∨
      (e = .alloc ∨ e = .runtime) ∧ (∃ ls, res = .ok ls) ∧
        ∃ k, n0 ≤ k ∧ k < s'.next ∧ orc k = false)

/-- A run that ends in such an outcome. -/
def Runs (t : ℕ) (orc : ℕ → Bool) (h0 : Ptr → Option (Blk (Val R M))) (n0 : ℕ)
    (res : Py (List (List M))) (P : Prog (Val R M) Res) (s : St (Val R M)) : Prop :=
  ∃ r s', run t orc P s = .ok (r, s') ∧ Outcome orc h0 n0 res r s'

section Runs
variable {h0 : Ptr → Option (Blk (Val R M))} {n0 : ℕ} {res : Py (List (List M))}
  {s : St (Val R M)} {ps : List Ptr}

theorem Runs.raise (h : Held t h0 s ps) (hn : n0 ≤ s.next) (ha : AllOk orc n0 s.next) {e : PyErr} :
    Runs t orc h0 n0 (.error e) (Heap.raise e (ps.map some)) s :=
  ⟨_, _, run_raise h e, hn, rfl, Or.inl ⟨rfl, ha⟩⟩

theorem Runs.failed (h : Held t h0 s ps) (hn : n0 ≤ s.next) {ls : List (List M)} {e : PyErr}
    (he : e = .alloc ∨ e = .runtime) (hk : ∃ k, n0 ≤ k ∧ k < s.next ∧ orc k = false) :
    Runs t orc h0 n0 (.ok ls) (Heap.raise e (ps.map some)) s :=
  ⟨_, _, run_raise h e, hn, rfl, Or.inr ⟨he, ⟨ls, rfl⟩, hk⟩⟩

theorem Runs.npZeros (h : Held t h0 s ps) (hn : n0 ≤ s.next) (ha : AllOk orc n0 s.next)
    {ls : List (List M)} {n : ℕ} {k : Ptr → Prog (Val R M) Res}
    (hk : orc s.next = true → Runs t orc h0 n0 (.ok ls) (k (t, s.next))
      (s.bump.setCells (t, s.next) (cellsM (zeros n)))) :
    Runs t orc h0 n0 (.ok ls) (Heap.npZeros n (ps.map some) k) s := by
  unfold Runs
  rw [run_npZeros]
  by_cases ho : orc s.next = true
  · rw [if_pos ho]; exact hk ho
  · rw [if_neg ho]
    exact Runs.failed h.bump (by simp only [bump_next]; omega) (Or.inl rfl)
      ⟨s.next, hn, by simp, by simpa using ho⟩

theorem Runs.npEmpty (h : Held t h0 s ps) (hn : n0 ≤ s.next) (ha : AllOk orc n0 s.next)
    {ls : List (List M)} {n : ℕ} {k : Ptr → Prog (Val R M) Res}
    (hk : orc s.next = true → Runs t orc h0 n0 (.ok ls) (k (t, s.next))
      (s.bump.setCells (t, s.next) (List.replicate n none))) :
    Runs t orc h0 n0 (.ok ls) (Heap.npEmpty n (ps.map some) k) s := by
  unfold Runs
  rw [run_npEmpty]
  by_cases ho : orc s.next = true
  · rw [if_pos ho]; exact hk ho
  · rw [if_neg ho]
    exact Runs.failed h.bump (by simp only [bump_next]; omega) (Or.inl rfl)
      ⟨s.next, hn, by simp, by simpa using ho⟩

theorem Runs.step {α : Type} {P : Prog (Val R M) α} {k : α → Prog (Val R M) Res} {a : α}
    {s' : St (Val R M)} (h : run t orc P s = .ok (a, s')) (hk : Runs t orc h0 n0 res (k a) s') :
    Runs t orc h0 n0 res (P >>= k) s := by
  unfold Runs
  rw [run_bind_ok h]
  exact hk

theorem Runs.ret (h : Held t h0 s ps) (hn : n0 ≤ s.next) (ha : AllOk orc n0 s.next)
    {ls : List (List M)}
    (hc : List.Forall₂ (fun p (l : List M) => s.heap p = some ⟨false, cellsM l⟩) ps ls) :
    Runs t orc h0 n0 (.ok ls) (pure (.ok ps)) s :=
  ⟨_, _, rfl, hn, ls, rfl, ⟨h.nodup, h.fresh, hc, h.rest⟩, ha⟩

end Runs

end Pywt.Heap
