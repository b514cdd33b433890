import Verif.Proof.HeapSim2
import Verif.Proof.Swt
import Verif.Spec.Heap

/-!
# The 1-D drivers on the heap
-/

set_option linter.unusedSectionVars false
set_option linter.unusedVariables false

namespace Pywt.Heap

open Spec

variable {R M : Type} [Ring R] [AddCommGroup M] [Module R M]
variable {t : ℕ} {orc : ℕ → Bool}

/-- Every block of `h` is also in `h'`. -/
def Ext {V : Type} (h h' : Ptr → Option (Blk V)) : Prop := ∀ p b, h p = some b → h' p = some b

theorem Ext.refl {V : Type} (h : Ptr → Option (Blk V)) : Ext h h := fun _ _ e => e

theorem Ext.trans {V : Type} {h h' h'' : Ptr → Option (Blk V)} (a : Ext h h') (b : Ext h' h'') :
    Ext h h'' := fun p c e => b p c (a p c e)

theorem Ext.setCells {V : Type} {s : St V} {p : Ptr} (hp : s.heap p = none)
    (c : List (Option V)) : Ext s.heap (s.setCells p c).heap := by
  intro q b hq
  rw [setCells_ne]
  · exact hq
  · rintro rfl; rw [hp] at hq; cases hq

theorem FilterAt.ext {h h' : Ptr → Option (Blk (Val R M))} (e : Ext h h') {p : Ptr} {f : List R}
    (a : FilterAt h p f) : FilterAt h' p f := by
  obtain ⟨b, hb⟩ := a; exact ⟨b, e _ _ hb⟩

theorem SamplesAt.ext {h h' : Ptr → Option (Blk (Val R M))} (e : Ext h h') {p : Ptr} {f : List M}
    (a : SamplesAt h p f) : SamplesAt h' p f := by
  obtain ⟨b, hb⟩ := a; exact ⟨b, e _ _ hb⟩

theorem WaveletAt.ext {h h' : Ptr → Option (Blk (Val R M))} (e : Ext h h') {q : Prec} {w : Ptr}
    {wl : Wavelet R} (a : WaveletAt h q w wl) : WaveletAt h' q w wl := by
  obtain ⟨b, c, h0, h1, h2, ⟨p3, h3, h3'⟩, ⟨p4, h4, h4'⟩, ⟨p5, h5, h5'⟩, ⟨p6, h6, h6'⟩⟩ := a
  exact ⟨b, c, e _ _ h0, h1, h2, ⟨p3, h3, h3'.ext e⟩, ⟨p4, h4, h4'.ext e⟩, ⟨p5, h5, h5'.ext e⟩,
    ⟨p6, h6, h6'.ext e⟩⟩

/-- Moving to a larger heap keeps what is loaded. -/
theorem Ext.load {V : Type} {h h' : Ptr → Option (Blk V)} (e : Ext h h') {p : Option Ptr} {i : ℤ}
    {v : V} (hl : load h p i = .ok v) : Heap.load h' p i = .ok v := by
  cases p with
  | none => simp [Heap.load] at hl
  | some p =>
    cases hb : h p with
    | none => simp [Heap.load, hb] at hl
    | some b =>
      simp only [Heap.load, hb] at hl
      simp only [Heap.load, e _ _ hb]
      exact hl

theorem HoldsM.ext {h h' : Ptr → Option (Blk (Val R M))} (e : Ext h h') {x : Loc} {l : List M}
    (a : HoldsM h x l) : HoldsM h' x l := fun i hi => e.load (a i hi)

theorem HoldsR.ext {h h' : Ptr → Option (Blk (Val R M))} (e : Ext h h') {x : Loc} {l : List R}
    (a : HoldsR h x l) : HoldsR h' x l := fun i hi => e.load (a i hi)

theorem SamplesAt.holds {h : Ptr → Option (Blk (Val R M))} {p : Ptr} {l : List M}
    (a : SamplesAt h p l) : HoldsM h ⟨some p, 0⟩ l := by
  obtain ⟨b, hb⟩ := a
  intro i hi
  simp [load, hb, hi]

theorem FilterAt.holds {h : Ptr → Option (Blk (Val R M))} {p : Ptr} {l : List R}
    (a : FilterAt h p l) : HoldsR h ⟨some p, 0⟩ l := by
  obtain ⟨b, hb⟩ := a
  intro i hi
  simp [load, hb, hi]

theorem HoldsM.ne {h : Ptr → Option (Blk (Val R M))} {x : Loc} {l : List M} (a : HoldsM h x l)
    (hl : 1 ≤ l.length) {p : Ptr} (hp : h p = none) : x.blk ≠ some p := by
  intro e
  have := a 0 hl
  rw [e] at this
  simp [load, hp] at this

theorem HoldsR.ne {h : Ptr → Option (Blk (Val R M))} {x : Loc} {l : List R} (a : HoldsR h x l)
    (hl : 1 ≤ l.length) {p : Ptr} (hp : h p = none) : x.blk ≠ some p := by
  intro e
  have := a 0 hl
  rw [e] at this
  simp [load, hp] at this

/-- One of the four filters. -/
def filt (wl : Wavelet R) (rec hi : Bool) : List R :=
  match rec, hi with
  | false, false => wl.dec_lo
  | false, true => wl.dec_hi
  | true, false => wl.rec_lo
  | true, true => wl.rec_hi

theorem filt_length {wl : Wavelet R} (hw : wl.Ok) (rec hi : Bool) :
    (filt wl rec hi).length = wl.dec_len := by
  obtain ⟨_, _, h3, h4, h5⟩ := hw
  cases rec <;> cases hi
  · rfl
  · exact h3
  · exact h4
  · exact h5

section Read
variable {q : Prec} {w : Ptr} {wl : Wavelet R} {s : St (Val R M)}

theorem run_decLen (a : WaveletAt s.heap q w wl) :
    run t orc (rdNum (some w) fDecLen) s = .ok (wl.dec_len, s) := by
  obtain ⟨b, c, h0, h1, -⟩ := a
  simp only [rdNum, run, load, h0]
  simp [h1, run]

theorem run_recLen (a : WaveletAt s.heap q w wl) :
    run t orc (rdNum (some w) fRecLen) s = .ok (wl.rec_len, s) := by
  obtain ⟨b, c, h0, -, h1, -⟩ := a
  simp only [rdNum, run, load, h0]
  simp [h1, run]

theorem run_filter (a : WaveletAt s.heap q w wl) (rec hi : Bool) :
    ∃ p, FilterAt s.heap p (filt wl rec hi) ∧ ∀ s' : St (Val R M), Ext s.heap s'.heap →
      run t orc (rdPtr (some w) (fFilter rec hi q)) s' = .ok (some p, s') := by
  obtain ⟨b, c, h0, -, -, ⟨p3, h3, h3'⟩, ⟨p4, h4, h4'⟩, ⟨p5, h5, h5'⟩, ⟨p6, h6, h6'⟩⟩ := a
  have key : ∀ {i p}, c[i]? = some (some (.ptr (some p))) → ∀ s' : St (Val R M),
      Ext s.heap s'.heap → run t orc (rdPtr (some w) i) s' = .ok (some p, s') := by
    intro i p hi s' e
    simp only [rdPtr, run, load, e _ _ h0]
    simp [hi, run]
  cases rec <;> cases hi
  · exact ⟨_, h3', key h3⟩
  · exact ⟨_, h4', key h4⟩
  · exact ⟨_, h5', key h5⟩
  · exact ⟨_, h6', key h6⟩

end Read

/-- The cells of samples. -/
def cellsM (l : List M) : List (Option (Val R M)) := l.map fun m => some (.samp m)

@[simp] theorem cellsM_length (l : List M) : (cellsM l : List (Option (Val R M))).length = l.length := by
  simp [cellsM]

section Dec
variable [Nontrivial M] {s0 : St (Val R M)} {p w : Ptr} {c0 : List (Option (Val R M))} {o n : ℕ}
  {q : Prec} {wl : Wavelet R} {x : Loc} {xl : List M} {f : Loc} {fl : List R}

/-- A kernel whose result does not depend on the old contents of its output. -/
theorem run_over {c : List M → C (List M)} {P : Prog (Val R M) Unit}
    {r : List M} (hr : r.length = n) (hl : o + n ≤ c0.length)
    (hc : ∀ out : List M, out.length = n → c out = .ok r)
    (hs : ∀ (l0 : List (Option (Val R M))) (out : List M) s, l0.length = n → out.length = n →
      o + l0.length ≤ c0.length → Wrote s0 p c0 o l0 out out s →
      Sim t orc (fun r _ s' => Wrote s0 p c0 o l0 out r s') (c out) P s) :
    run t orc P (s0.setCells p c0) = .ok ((), s0.setCells p (over c0 o (cellsM r))) := by
  have hlen : ((c0.drop o).take n).length = n := by
    simp only [List.length_take, List.length_drop]; omega
  have h := overwritten (t := t) (orc := orc) (s0 := s0) (p := p) (c0 := c0) (o := o)
    (l0 := (c0.drop o).take n) (c := c) (P := P) (r := r) (by omega)
    (fun out ho => hc out (by omega)) (fun out ho => by
      refine hs _ out _ hlen (by omega) (by omega) ⟨ho, _, rfl, rfl, fun j hj => Or.inr ⟨rfl, rfl⟩⟩)
  rw [over_self hl] at h
  obtain ⟨a, h⟩ := h
  exact h

theorem run_dsConv (hp : s0.heap p = none) (hf : HoldsR s0.heap f fl) (hx : HoldsM s0.heap x xl)
    (hF : 1 ≤ fl.length) {mode : Mode} (sig : SignalOk mode xl)
    (hn : n = coeffLen mode xl.length fl.length) (hl : o + n ≤ c0.length) :
    run t orc (dsConv (kfuel xl.length fl.length) ⟨x, xl.length⟩ ⟨f, fl.length⟩ ⟨some p, o⟩ 2 mode)
      (s0.setCells p c0) =
      .ok ((), s0.setCells p (over c0 o (cellsM (analysis mode fl xl)))) := by
  refine run_over (n := n) (c := fun out => Pywt.dsConv (kfuel xl.length fl.length) xl fl out 2 mode)
    (by rw [analysis_length, hn]) hl ?_ ?_
  · intro out ho
    exact dsConv_two_eq sig.1 sig.2 hF (by rw [analysis_length, ho, hn]) (by unfold kfuel; omega)
  · intro l0 out s h1 h2 h3 h4
    exact Sim.dsConv h3 hf hx (hf.ne hF hp) (hx.ne sig.1 hp) _ _ _ h4

theorem run_dec (hp : s0.heap p = none) (hw : WaveletAt s0.heap q w wl) (ok : wl.Ok) (hi : Bool)
    (hx : HoldsM s0.heap x xl) {mode : Mode} (sig : SignalOk mode xl)
    (hn : n = coeffLen mode xl.length wl.dec_len) (hl : o + n ≤ c0.length) :
    run t orc (dec q hi (some w) ⟨x, xl.length⟩ ⟨⟨some p, o⟩, n⟩ mode) (s0.setCells p c0) =
      .ok (0, s0.setCells p (over c0 o (cellsM (analysis mode (filt wl false hi) xl)))) := by
  have hF : 2 ≤ wl.dec_len := ok.1
  have e := Ext.setCells hp c0
  unfold dec
  rw [run_bind_ok (run_decLen (hw.ext e))]
  rw [if_neg (by rw [dwtBufferLength_eq sig.1 (by omega), hn]; exact fun h => h rfl)]
  obtain ⟨f, h1, h2⟩ := run_filter (t := t) (orc := orc) hw false hi
  rw [run_bind_ok (h2 _ e)]
  have := run_dsConv (t := t) (orc := orc) (c0 := c0) (o := o) hp h1.holds hx
    (by rw [filt_length ok]; omega) sig (n := n) (by rw [filt_length ok]; exact hn) hl
  rw [filt_length ok] at this
  rw [run_bind_ok this]
  rfl

end Dec

/-! ### Allocating and freeing -/

/-- The memory after one more allocation has been tried. -/
def St.bump {V : Type} (s : St V) : St V := { s with next := s.next + 1 }

@[simp] theorem bump_heap {V : Type} (s : St V) : s.bump.heap = s.heap := rfl
@[simp] theorem bump_next {V : Type} (s : St V) : s.bump.next = s.next + 1 := rfl

theorem setCells_bump {V : Type} (s : St V) (p : Ptr) (c : List (Option V)) :
    (s.setCells p c).bump = s.bump.setCells p c := rfl

theorem setCells_comm {V : Type} (s : St V) {p q : Ptr} (h : p ≠ q) (c d : List (Option V)) :
    (s.setCells p c).setCells q d = (s.setCells q d).setCells p c := by
  simp only [St.setCells, Function.update_comm h]

theorem run_alloc {V α : Type} {s : St V} (cells : List (Option V)) (k : Option Ptr → Prog V α) :
    run t orc (.malloc cells k) s =
      if orc s.next then run t orc (k (some (t, s.next))) (s.bump.setCells (t, s.next) cells)
      else run t orc (k none) s.bump := by
  simp only [run]
  rfl

theorem run_malloc_bind {V α : Type} {s : St V} (cells : List (Option V))
    (k : Option Ptr → Prog V α) :
    run t orc (Prog.malloc cells .ret >>= k) s =
      if orc s.next then run t orc (k (some (t, s.next))) (s.bump.setCells (t, s.next) cells)
      else run t orc (k none) s.bump :=
  run_alloc cells k

theorem run_free {s : St (Val R M)} {p : Ptr} (hp : s.heap p = none)
    (c : List (Option (Val R M))) :
    run t orc (free (some p)) (s.setCells p c) = .ok ((), s) := by
  simp only [free, run, release, setCells_self]
  simp only [Bool.false_eq_true, if_false]
  cases s
  simp only [St.setCells, Function.update_idem]
  simp only at hp
  rw [← hp, Function.update_eq_self]

@[simp] theorem run_free_none {s : St (Val R M)} : run t orc (free none) s = .ok ((), s) := rfl

theorem forN_spec {V : Type} {body : ℕ → Prog V Unit} (I : ℕ → St V → Prop) {s : St V} :
    ∀ {n : ℕ}, I 0 s →
      (∀ i < n, ∀ s, I i s → ∃ s', run t orc (body i) s = .ok ((), s') ∧ I (i + 1) s') →
      ∃ s', run t orc (forN body n) s = .ok ((), s') ∧ I n s'
  | 0, h0, _ => ⟨s, rfl, h0⟩
  | n + 1, h0, hs => by
    obtain ⟨s1, h1, h2⟩ := forN_spec I (n := n) h0 fun i hi => hs i (by omega)
    obtain ⟨s2, h3, h4⟩ := hs n (by omega) s1 h2
    refine ⟨s2, ?_, h4⟩
    unfold forN
    rw [run_bind_ok h1, h3]

/-! ### `swt_` -/

theorem callC_ok {α : Type} {c : C (Option α)} {a : α} (h : callC c = .ok a) : c = .ok (some a) := by
  unfold callC at h
  cases c with
  | error e => cases h
  | ok o => cases o with
    | none => cases h
    | some b => cases h; rfl

section Swt
variable [Nontrivial M] {s0 : St (Val R M)} {p w : Ptr} {c0 : List (Option (Val R M))} {o n : ℕ}
  {q : Prec} {wl : Wavelet R} {x : Loc} {xl : List M} {f : Loc} {fl : List R}

theorem run_dsConvPer (hp : s0.heap p = none) (hf : HoldsR s0.heap f fl) (hx : HoldsM s0.heap x xl)
    (hF : 1 ≤ fl.length) (hX : 1 ≤ xl.length) {r : List M} {fuel step fstep : ℕ}
    (hr : r.length = n) (hl : o + n ≤ c0.length)
    (hc : ∀ out : List M, out.length = n → Pywt.dsConvPer fuel xl fl out step fstep = .ok r) :
    run t orc (dsConvPer fuel ⟨x, xl.length⟩ ⟨f, fl.length⟩ ⟨some p, o⟩ step fstep)
      (s0.setCells p c0) =
      .ok ((), s0.setCells p (over c0 o (cellsM r))) := by
  refine run_over (n := n) (c := fun out => Pywt.dsConvPer fuel xl fl out step fstep) hr hl hc ?_
  intro l0 out s h1 h2 h3 h4
  exact Sim.dsConvPer h3 hf hx (hf.ne hF hp) (hx.ne hX hp) _ _ _ h4

/-- Filling the filter with zeros between the taps (wt.template.c L474-478). -/
theorem run_eFilter {e : Ptr} (he : s0.heap e = none) (hf : HoldsR s0.heap f fl) (level : ℕ) :
    run t orc (forN (fun i => do
        let v ← rdR f i
        put ⟨some e, 0⟩ ((i * 2 ^ (level - 1) : ℕ) : ℤ) (.coef v)) fl.length)
      (s0.setCells e (List.replicate (fl.length * 2 ^ (level - 1)) (some (.coef 0)))) =
      .ok ((), s0.setCells e ((eFilter fl level).map fun r => some (.coef r))) := by
  obtain ⟨s', h1, h2⟩ := forN_spec (t := t) (orc := orc)
    (I := fun i s => s = s0.setCells e
      (((List.range i).foldl (fun e i => e.set (i * 2 ^ (level - 1)) (fl.getD i 0))
        (List.replicate (fl.length * 2 ^ (level - 1)) 0)).map fun r => some (.coef r)))
    (s := s0.setCells e (List.replicate (fl.length * 2 ^ (level - 1)) (some (.coef 0))))
    (n := fl.length) (body := fun i => do
        let v ← rdR f i
        put ⟨some e, 0⟩ ((i * 2 ^ (level - 1) : ℕ) : ℤ) (.coef v)) (by simp) (by
      rintro i hi s rfl
      have hr : ∀ s, Ext s0.heap s.heap →
          run t orc (rdR f i : Prog (Val R M) R) s = .ok (fl.getD i 0, s) := by
        intro s hs
        simp only [rdR, run, (hf.ext hs) i hi, List.getD_eq_getElem _ _ hi]
      have hlen : ∀ i, ((List.range i).foldl (fun e i => e.set (i * 2 ^ (level - 1)) (fl.getD i 0))
          (List.replicate (fl.length * 2 ^ (level - 1)) 0)).length =
            fl.length * 2 ^ (level - 1) := by
        intro i
        induction i with
        | zero => simp
        | succ i ih => rw [List.range_succ, List.foldl_append]; simpa using ih
      refine ⟨_, ?_, rfl⟩
      rw [run_bind_ok (hr _ (Ext.setCells he _))]
      rw [List.range_succ, List.foldl_append, List.foldl_cons, List.foldl_nil, List.map_set]
      have hlt : i * 2 ^ (level - 1) < fl.length * 2 ^ (level - 1) :=
        Nat.mul_lt_mul_of_pos_right hi (by positivity)
      simp only [put, run, zero_add]
      rw [store_setCells (by rw [List.length_map, hlen]; exact hlt)]
      rfl)
  rw [h1, h2]
  rfl

/-- The two outcomes of `swt_`: done, or the enlarged filter could not be allocated. -/
theorem run_swtStep (hp : s0.heap p = none) (hpe : p ≠ (t, s0.next))
    (hfr : s0.heap (t, s0.next) = none) (hf : HoldsR s0.heap f fl) (hx : HoldsM s0.heap x xl)
    (hF : 2 ≤ fl.length) (hF2 : fl.length % 2 = 0) (hX : 1 ≤ xl.length) {level : ℕ}
    (hlv : 1 ≤ level) (hd : 2 ^ level ∣ xl.length) (hl : o + xl.length ≤ c0.length) :
    run t orc (swtStep ⟨x, xl.length⟩ ⟨f, fl.length⟩ ⟨⟨some p, o⟩, xl.length⟩ level)
      (s0.setCells p c0) =
      if level = 1 then .ok (0, s0.setCells p (over c0 o (cellsM (atrous fl 1 xl))))
      else if orc s0.next then
        .ok (0, s0.bump.setCells p (over c0 o (cellsM (atrous fl (2 ^ (level - 1)) xl))))
      else .ok (-3, s0.bump.setCells p c0) := by
  have heq : ∀ out : List M, out.length = xl.length →
      Pywt.swtStep fl xl out level = .ok (some (atrous fl (2 ^ (level - 1)) xl)) :=
    fun out ho => callC_ok (swtStep_eq hF hF2 hX hlv hd ho)
  have hmax : ¬ level > swtMaxLevelC xl.length := by
    have := (le_swtMaxLevelC hX).mpr hd; omega
  unfold swtStep
  rw [if_neg (by omega), if_neg hmax, if_neg (by simp [swtBufferLength])]
  have hunf : ∀ {c : C (List M)} {v : List M}, (c >>= fun r => pure (some r)) = .ok (some v) →
      c = .ok v := by
    intro c v h
    cases c with
    | error e => cases h
    | ok a => cases h; rfl
  by_cases h1 : level = 1
  · subst h1
    rw [if_neg (by omega), if_pos rfl]
    have := run_dsConvPer (t := t) (orc := orc) (c0 := c0) (o := o) hp hf hx (by omega) hX
      (n := xl.length) (r := atrous fl 1 xl) (fuel := kfuel xl.length fl.length) (step := 1)
      (fstep := 1) (by simp) hl (by
        intro out ho
        have := heq out ho
        unfold Pywt.swtStep at this
        rw [if_neg (by omega), if_neg hmax, if_neg (by simp [swtBufferLength, ho]),
          if_neg (by omega)] at this
        exact hunf this)
    rw [run_bind_ok this]
    rfl
  · rw [if_pos (by omega), if_neg h1]
    unfold callocR
    rw [run_malloc_bind]
    by_cases ho : orc s0.next = true
    · rw [if_pos ho, if_pos (show orc (s0.setCells p c0).next = true from ho)]
      rw [setCells_bump, if_neg (by simp)]
      simp only [setCells_next]
      have he1 : (s0.bump.setCells p c0).heap (t, s0.next) = none := by
        rw [setCells_ne (fun h => hpe h.symm)]; exact hfr
      have hfe := hf.ext (h' := (s0.bump.setCells p c0).heap)
        (Ext.setCells (s := s0.bump) (by simpa using hp) c0)
      rw [run_bind_ok (run_eFilter he1 hfe level)]
      rw [setCells_comm _ hpe]
      have he2 : s0.bump.heap (t, s0.next) = none := hfr
      have hp2 : (s0.bump.setCells (t, s0.next)
          ((eFilter fl level).map fun r => some (.coef r))).heap p = none := by
        rw [setCells_ne hpe]; exact hp
      have hE : FilterAt (s0.bump.setCells (t, s0.next)
          ((eFilter fl level).map fun r => some (.coef r))).heap (t, s0.next) (eFilter fl level) :=
        ⟨false, setCells_self⟩
      have hpos : 0 < fl.length * 2 ^ (level - 1) := by positivity
      have := run_dsConvPer (t := t) (orc := orc) (c0 := c0) (o := o) hp2 hE.holds
        (hx.ext (Ext.setCells he2 _)) (by rw [eFilter_length]; omega) hX
        (n := xl.length) (r := atrous fl (2 ^ (level - 1)) xl)
        (fuel := kfuel xl.length (eFilter fl level).length) (step := 1)
        (fstep := 2 ^ (level - 1)) (by simp) hl (by
          intro out ho
          have := heq out ho
          unfold Pywt.swtStep at this
          rw [if_neg (by omega), if_neg hmax, if_neg (by simp [swtBufferLength, ho]),
            if_pos (by omega)] at this
          exact hunf this)
      rw [eFilter_length] at this
      rw [run_bind_ok this, ← setCells_comm _ hpe]
      rw [run_bind_ok (run_free (by rw [setCells_ne (fun h => hpe h.symm)]; exact hfr) _)]
      rfl
    · rw [if_neg ho, if_neg (show ¬ orc (s0.setCells p c0).next = true from ho)]
      rfl

theorem run_swtDec (hp : s0.heap p = none) (hpe : p ≠ (t, s0.next))
    (hfr : s0.heap (t, s0.next) = none) (hw : WaveletAt s0.heap q w wl) (ok : wl.Ok) (hi : Bool)
    (hx : HoldsM s0.heap x xl) (hX : 1 ≤ xl.length) {level : ℕ}
    (hlv : 1 ≤ level) (hd : 2 ^ level ∣ xl.length) (hl : o + xl.length ≤ c0.length) :
    run t orc (swtDec q hi (some w) ⟨x, xl.length⟩ ⟨⟨some p, o⟩, xl.length⟩ level)
      (s0.setCells p c0) =
      if level = 1 then
        .ok (0, s0.setCells p (over c0 o (cellsM (atrous (filt wl false hi) 1 xl))))
      else if orc s0.next then
        .ok (0, s0.bump.setCells p
          (over c0 o (cellsM (atrous (filt wl false hi) (2 ^ (level - 1)) xl))))
      else .ok (-3, s0.bump.setCells p c0) := by
  have e := Ext.setCells hp c0
  unfold swtDec
  obtain ⟨f, h1, h2⟩ := run_filter (t := t) (orc := orc) hw false hi
  rw [run_bind_ok (h2 _ e), run_bind_ok (run_decLen (hw.ext e))]
  have hF := filt_length ok false hi
  have := run_swtStep (t := t) (orc := orc) (c0 := c0) (o := o) hp hpe hfr h1.holds hx
    (by rw [hF]; exact ok.1) (by rw [hF]; exact ok.2.1) hX hlv hd hl
  rw [hF] at this
  exact this

end Swt

end Pywt.Heap
