import Verif.Proof.HeapSim

/-!
# The heap kernels compute what the list kernels compute: writing
-/

set_option linter.unusedSectionVars false
set_option linter.unusedVariables false

namespace Pywt.Heap

section General
variable {V β γ β' γ' σ τ : Type} {t : ℕ} {orc : ℕ → Bool}

/-- When the list program succeeds, so does the heap program, and the results are related. -/
def Sim (t : ℕ) (orc : ℕ → Bool) (Q : β → γ → St V → Prop) (c : C β) (P : Prog V γ) (s : St V) :
    Prop :=
  ∀ r, c = .ok r → ∃ a s', run t orc P s = .ok (a, s') ∧ Q r a s'

theorem Sim.pure {Q : β → γ → St V → Prop} {b : β} {a : γ} {s : St V} (h : Q b a s) :
    Sim t orc Q (Pure.pure b) (Pure.pure a) s := by
  rintro r ⟨⟩; exact ⟨a, s, rfl, h⟩

theorem Sim.bind {Q : β → γ → St V → Prop} {Q' : β' → γ' → St V → Prop} {c : C β} {P : Prog V γ}
    {k : β → C β'} {K : γ → Prog V γ'} {s : St V} (h : Sim t orc Q c P s)
    (hk : ∀ r a s', Q r a s' → Sim t orc Q' (k r) (K a) s') :
    Sim t orc Q' (c >>= k) (P >>= K) s := by
  intro b hb
  cases hc : c with
  | error e => rw [hc] at hb; cases hb
  | ok r =>
    rw [hc] at hb
    obtain ⟨a, s', h1, h2⟩ := h r hc
    rw [run_bind_ok h1]
    exact hk r a s' h2 b hb

/-- A reading step before the rest. -/
theorem Sim.bindR {S : St V → Prop} {Q' : β' → γ' → St V → Prop} {c : C β} {P : Prog V β}
    {k : β → C β'} {K : β → Prog V γ'} {s : St V} (h : RSim t orc S c P) (hs : S s)
    (hk : ∀ r, Sim t orc Q' (k r) (K r) s) :
    Sim t orc Q' (c >>= k) (P >>= K) s := by
  intro b hb
  cases hc : c with
  | error e => rw [hc] at hb; cases hb
  | ok r =>
    rw [hc] at hb
    rw [run_bind_ok (h r hc s hs)]
    exact hk r b hb

theorem Sim.ite {Q : β → γ → St V → Prop} {p : Prop} [Decidable p] {c c' : C β}
    {P P' : Prog V γ} {s : St V}
    (h : p → Sim t orc Q c P s) (h' : ¬ p → Sim t orc Q c' P' s) :
    Sim t orc Q (if p then c else c') (if p then P else P') s := by
  split_ifs with hp
  · exact h hp
  · exact h' hp

theorem Sim.mono {Q Q' : β → γ → St V → Prop} {c : C β} {P : Prog V γ} {s : St V}
    (h : Sim t orc Q c P s) (hq : ∀ r a s', Q r a s' → Q' r a s') : Sim t orc Q' c P s := by
  intro r hr
  obtain ⟨a, s', h1, h2⟩ := h r hr
  exact ⟨a, s', h1, hq _ _ _ h2⟩

theorem Sim.loop {S : St V → Prop} {Inv : σ → τ → St V → Prop} {cond : σ → C Bool}
    {cond' : τ → Prog V Bool} {body : σ → C σ} {body' : τ → Prog V τ}
    (hS : ∀ x y s, Inv x y s → S s)
    (hc : ∀ x y s, Inv x y s → RSim t orc S (cond x) (cond' y))
    (hb : ∀ x y s, Inv x y s → Sim t orc Inv (body x) (body' y) s) :
    ∀ (fuel : ℕ) (x : σ) (y : τ) (s : St V), Inv x y s →
      Sim t orc Inv (Pywt.loop cond body fuel x) (Heap.loop cond' body' fuel y) s
  | 0, x, y, s, _ => by rintro a ⟨⟩
  | n + 1, x, y, s, hi => by
    unfold Pywt.loop Heap.loop
    refine Sim.bindR (hc x y s hi) (hS x y s hi) fun b => ?_
    refine Sim.ite (fun _ => ?_) fun _ => Sim.pure hi
    exact Sim.bind (hb x y s hi) fun r a s' h => Sim.loop hS hc hb n r a s' h

end General

/-! ### Overlaying a part of a block -/

section Over
variable {V : Type}

/-- The cells `c` with `l` written over them from cell `o` on. -/
def over (c : List V) (o : ℕ) (l : List V) : List V := c.take o ++ l ++ c.drop (o + l.length)

theorem over_length {c l : List V} {o : ℕ} (h : o + l.length ≤ c.length) :
    (over c o l).length = c.length := by
  simp only [over, List.length_append, List.length_take, List.length_drop]; omega

theorem over_getElem? {c l : List V} {o : ℕ} (h : o + l.length ≤ c.length) {j : ℕ}
    (hj : j < l.length) : (over c o l)[o + j]? = l[j]? := by
  unfold over
  rw [List.append_assoc, List.getElem?_append_right (by rw [List.length_take]; omega),
    List.length_take, show o + j - min o c.length = j by omega, List.getElem?_append_left hj]

theorem over_getElem?_out {c l : List V} {o : ℕ} (h : o + l.length ≤ c.length) {j : ℕ}
    (hj : j < o ∨ o + l.length ≤ j) : (over c o l)[j]? = c[j]? := by
  unfold over
  rcases hj with hj | hj
  · rw [List.append_assoc, List.getElem?_append_left (by rw [List.length_take]; omega),
      List.getElem?_take_of_lt hj]
  · rw [List.getElem?_append_right (by simp only [List.length_append, List.length_take]; omega),
      List.getElem?_drop]
    congr 1
    simp only [List.length_append, List.length_take]; omega

theorem over_set {c l : List V} {o : ℕ} (h : o + l.length ≤ c.length) {j : ℕ}
    (hj : j < l.length) (v : V) : (over c o l).set (o + j) v = over c o (l.set j v) := by
  unfold over
  rw [List.append_assoc, List.set_append_right _ _ (by rw [List.length_take]; omega),
    List.length_take, show o + j - min o c.length = j by omega, List.set_append_left _ _ hj,
    List.length_set, List.append_assoc]

theorem over_self {c : List V} {o n : ℕ} (h : o + n ≤ c.length) :
    over c o ((c.drop o).take n) = c := by
  unfold over
  rw [List.length_take, List.length_drop, show o + min n (c.length - o) = o + n by omega,
    List.append_assoc, ← List.drop_drop, List.take_append_drop, List.take_append_drop]

theorem over_over {c l l' : List V} {o : ℕ} (h : o + l.length ≤ c.length)
    (hl : l'.length = l.length) : over (over c o l) o l' = over c o l' := by
  apply List.ext_getElem?
  intro j
  have h1 := over_length h
  by_cases hj : j < o ∨ o + l.length ≤ j
  · rw [over_getElem?_out (by omega) (by omega), over_getElem?_out h hj,
      over_getElem?_out (by omega) (by omega)]
  · obtain ⟨k, rfl⟩ : ∃ k, j = o + k := ⟨j - o, by omega⟩
    rw [over_getElem? (by omega) (by omega), over_getElem? (by omega) (by omega)]

end Over

/-- The memory in which block `p` has the cells `c`. -/
def St.setCells {V : Type} (s : St V) (p : Ptr) (c : List (Option V)) : St V :=
  { s with heap := Function.update s.heap p (some ⟨false, c⟩) }

section Store
variable {V : Type} {s : St V} {p : Ptr} {c : List (Option V)}

@[simp] theorem setCells_next : (s.setCells p c).next = s.next := rfl

@[simp] theorem setCells_self : (s.setCells p c).heap p = some ⟨false, c⟩ := by
  simp [St.setCells]

theorem setCells_ne {q : Ptr} (h : q ≠ p) : (s.setCells p c).heap q = s.heap q := by
  simp [St.setCells, h]

@[simp] theorem setCells_setCells {c' : List (Option V)} :
    (s.setCells p c).setCells p c' = s.setCells p c' := by
  simp [St.setCells]

theorem setCells_eq (h : s.heap p = some ⟨false, c⟩) : s.setCells p c = s := by
  cases s
  simp only [St.setCells, St.mk.injEq, and_true]
  simp only at h
  rw [← h]; exact Function.update_eq_self _ _

theorem load_setCells_ne {q : Option Ptr} (h : q ≠ some p) (i : ℤ) :
    load (s.setCells p c).heap q i = load s.heap q i := by
  cases q with
  | none => rfl
  | some q =>
    simp only [load]
    rw [setCells_ne (fun h' => h (by rw [h']))]

theorem load_setCells_self {i : ℕ} {v : V} (h : c[i]? = some (some v)) :
    load (s.setCells p c).heap (some p) (i : ℤ) = .ok v := by
  simp [load, h]

theorem store_setCells {i : ℕ} (h : i < c.length) (v : V) :
    store (s.setCells p c).heap (some p) (i : ℤ) v = .ok (s.setCells p (c.set i (some v))).heap := by
  simp only [store, setCells_self]
  rw [if_neg (by simp), if_pos ⟨by omega, by simpa using h⟩]
  simp [St.setCells]

end Store

variable {R M : Type} [Ring R] [AddCommGroup M] [Module R M]
variable {t : ℕ} {orc : ℕ → Bool}

theorem run_put {s : St (Val R M)} {p : Ptr} {c0 l : List (Option (Val R M))} {o j : ℕ}
    (h : o + l.length ≤ c0.length) (hj : j < l.length) (v : Val R M) :
    run t orc (put ⟨some p, o⟩ j v) (s.setCells p (over c0 o l)) =
      .ok ((), s.setCells p (over c0 o (l.set j (some v)))) := by
  have h1 : store (s.setCells p (over c0 o l)).heap (some p) ((o : ℤ) + (j : ℤ)) v =
      .ok (s.setCells p (over c0 o (l.set j (some v)))).heap := by
    rw [← over_set h hj]
    exact store_setCells (i := o + j) (by rw [over_length h]; omega) v
  simp only [put, run]
  rw [h1]
  rfl

/-! ### Kernels that overwrite their output -/

/-- What is known about the output while it is being written: a cell holds the value of the list
program, or has not been touched by either program. -/
def Wrote (s0 : St (Val R M)) (p : Ptr) (c0 : List (Option (Val R M))) (o : ℕ)
    (l0 : List (Option (Val R M))) (out0 out : List M) (s : St (Val R M)) : Prop :=
  out.length = l0.length ∧ ∃ l, l.length = l0.length ∧ s = s0.setCells p (over c0 o l) ∧
    ∀ j, j < l0.length → l[j]? = (out[j]?).map (fun m => some (.samp m)) ∨
      l[j]? = l0[j]? ∧ out[j]? = out0[j]?

section Ds
variable {s0 : St (Val R M)} {p : Ptr} {c0 : List (Option (Val R M))} {o : ℕ}
  {l0 : List (Option (Val R M))} {out0 : List M} {x f : Loc} {xl : List M} {fl : List R}

theorem Wrote.set {out : List M} {s : St (Val R M)} (hl : o + l0.length ≤ c0.length)
    (h : Wrote s0 p c0 o l0 out0 out s) {j : ℕ} (hj : j < out.length) (m : M) :
    ∃ s', run t orc (put ⟨some p, o⟩ j (.samp m)) s = .ok ((), s') ∧
      Wrote s0 p c0 o l0 out0 (out.set j m) s' := by
  obtain ⟨h1, l, h2, rfl, h3⟩ := h
  refine ⟨_, run_put (by omega) (by omega) _, by simpa using h1, _, by simpa using h2, rfl, ?_⟩
  intro k hk
  by_cases hjk : k = j
  · subst hjk
    left
    rw [List.getElem?_set_self (by omega), List.getElem?_set_self (by omega)]
    rfl
  · rw [List.getElem?_set_ne (fun e => hjk e.symm), List.getElem?_set_ne (fun e => hjk e.symm)]
    exact h3 k hk

/-- The states in which only block `p` differs. -/
def Only (s0 : St (Val R M)) (p : Ptr) (s : St (Val R M)) : Prop := ∃ c, s = s0.setCells p c

theorem Only.holdsM (hx : HoldsM s0.heap x xl) (hp : x.blk ≠ some p) :
    ∀ s, Only s0 p s → HoldsM s.heap x xl := by
  rintro s ⟨c, rfl⟩ i hi
  rw [load_setCells_ne hp]; exact hx i hi

theorem Only.holdsR (hf : HoldsR s0.heap f fl) (hp : f.blk ≠ some p) :
    ∀ s, Only s0 p s → HoldsR s.heap f fl := by
  rintro s ⟨c, rfl⟩ i hi
  rw [load_setCells_ne hp]; exact hf i hi

theorem Wrote.only {out : List M} {s : St (Val R M)} (h : Wrote s0 p c0 o l0 out0 out s) :
    Only s0 p s := by
  obtain ⟨_, l, _, rfl, _⟩ := h; exact ⟨_, rfl⟩

theorem Sim.forOut (hl : o + l0.length ≤ c0.length) {fuel step : ℕ} {cond : ℕ → Bool}
    {sumAt : ℕ → C M} {sumAt' : ℕ → Prog (Val R M) M}
    (hsum : ∀ i, RSim t orc (Only s0 p) (sumAt i) (sumAt' i))
    {i k : ℕ} {out : List M} {s : St (Val R M)} (h : Wrote s0 p c0 o l0 out0 out s) :
    Sim t orc (fun r a s' => a = (r.1, r.2.1) ∧ Wrote s0 p c0 o l0 out0 r.2.2 s')
      (Pywt.forOut fuel step cond sumAt (i, k, out))
      (Heap.forOut fuel step cond sumAt' ⟨some p, o⟩ (i, k)) s := by
  refine Sim.loop (S := Only s0 p)
    (Inv := fun (r : ℕ × ℕ × List M) (a : ℕ × ℕ) s' => a = (r.1, r.2.1) ∧ Wrote s0 p c0 o l0 out0 r.2.2 s')
    (fun x y s hi => hi.2.only) ?_ ?_ fuel _ _ s ⟨rfl, h⟩
  · rintro ⟨i, k, out⟩ _ s ⟨rfl, hi⟩
    exact RSim.pure _
  · rintro ⟨i, k, out⟩ _ s ⟨rfl, hi⟩
    refine Sim.bindR (hsum i) hi.only fun m => ?_
    intro r hr
    unfold wr at hr
    simp only at hr
    split_ifs at hr with hk
    · obtain ⟨s', h1, h2⟩ := hi.set (t := t) (orc := orc) hl hk m
      cases hr
      refine ⟨_, s', ?_, rfl, h2⟩
      rw [run_bind_ok h1]
      rfl
    · cases hr

theorem Sim.dsConvBody (hl : o + l0.length ≤ c0.length) (hf : HoldsR s0.heap f fl)
    (hx : HoldsM s0.heap x xl) (hfp : f.blk ≠ some p) (hxp : x.blk ≠ some p)
    (fuel step : ℕ) (mode : Mode) {s : St (Val R M)} (h : Wrote s0 p c0 o l0 out0 out0 s) :
    Sim t orc (fun r _ s' => Wrote s0 p c0 o l0 out0 r s')
      (Pywt.dsConvBody fuel xl fl out0 step mode)
      (Heap.dsConvBody fuel ⟨x, xl.length⟩ ⟨f, fl.length⟩ ⟨some p, o⟩ step mode) s := by
  have hf' := Only.holdsR (R := R) (M := M) (p := p) hf hfp
  have hx' := Only.holdsM (R := R) (M := M) (p := p) hx hxp
  refine Sim.bindR (RSim.sub _ _) h.only fun i0 => ?_
  refine Sim.bind (Sim.forOut hl (fun i => ?_) h) ?_
  · exact RSim.bind (RSim.forJ (fun j => RSim.pure _)
      (fun j => RSim.bind (RSim.sub _ _) fun _ => RSim.prod hf' hx' _ _) _) fun _ =>
      RSim.bind (RSim.leftSwitch hf' hx' _ _ _) fun _ => RSim.pure _
  rintro ⟨i, k, out⟩ _ s ⟨rfl, h⟩
  refine Sim.bind (Sim.forOut hl (fun i => ?_) h) ?_
  · exact RSim.bind (RSim.forJ (fun j => RSim.ltF _ _)
      (fun j => RSim.bind (RSim.sub _ _) fun _ => RSim.prod hf' hx' _ _) _) fun _ => RSim.pure _
  rintro ⟨i, k, out⟩ _ s ⟨rfl, h⟩
  refine Sim.bind (Sim.forOut hl (fun i => ?_) h) ?_
  · exact RSim.bind (RSim.rightSwitch hf' hx' _ _ _) fun _ =>
      RSim.bind (RSim.forJ (fun j => RSim.pure _)
        (fun j => RSim.bind (RSim.sub _ _) fun _ => RSim.prod hf' hx' _ _) _) fun _ =>
      RSim.bind (RSim.leftSwitch hf' hx' _ _ _) fun _ => RSim.pure _
  rintro ⟨i, k, out⟩ _ s ⟨rfl, h⟩
  refine Sim.bindR (RSim.sub _ _) h.only fun lim => ?_
  refine Sim.bind (Sim.forOut hl (fun i => ?_) h) ?_
  · exact RSim.bind (RSim.rightSwitch hf' hx' _ _ _) fun _ =>
      RSim.bind (RSim.forJ (fun j => RSim.ltF _ _)
        (fun j => RSim.bind (RSim.sub _ _) fun _ => RSim.prod hf' hx' _ _) _) fun _ => RSim.pure _
  rintro ⟨i, k, out⟩ _ s ⟨rfl, h⟩
  exact Sim.pure h

theorem Sim.dsConvPer (hl : o + l0.length ≤ c0.length) (hf : HoldsR s0.heap f fl)
    (hx : HoldsM s0.heap x xl) (hfp : f.blk ≠ some p) (hxp : x.blk ≠ some p)
    (fuel step fstep : ℕ) {s : St (Val R M)} (h : Wrote s0 p c0 o l0 out0 out0 s) :
    Sim t orc (fun r _ s' => Wrote s0 p c0 o l0 out0 r s')
      (Pywt.dsConvPer fuel xl fl out0 step fstep)
      (Heap.dsConvPer fuel ⟨x, xl.length⟩ ⟨f, fl.length⟩ ⟨some p, o⟩ step fstep) s := by
  have hf' := Only.holdsR (R := R) (M := M) (p := p) hf hfp
  have hx' := Only.holdsM (R := R) (M := M) (p := p) hx hxp
  refine Sim.bindR (RSim.sub _ _) h.only fun i0 => ?_
  refine Sim.bind (Sim.forOut hl (fun i => ?_) h) ?_
  · exact RSim.bind (RSim.forJ (fun j => RSim.pure _)
      (fun j => RSim.bind (RSim.sub _ _) fun _ => RSim.prod hf' hx' _ _) _) fun _ =>
      RSim.bind (RSim.perKStart _ _ _) fun _ =>
      RSim.bind (RSim.perLeft hf' hx' _ _ _ _ _) fun _ => RSim.pure _
  rintro ⟨i, k, out⟩ _ s ⟨rfl, h⟩
  refine Sim.bind (Sim.forOut hl (fun i => ?_) h) ?_
  · exact RSim.bind (RSim.forJ (fun j => RSim.ltF _ _)
      (fun j => RSim.bind (RSim.sub _ _) fun _ => RSim.prod hf' hx' _ _) _) fun _ => RSim.pure _
  rintro ⟨i, k, out⟩ _ s ⟨rfl, h⟩
  refine Sim.bind (Sim.forOut hl (fun i => ?_) h) ?_
  · exact RSim.bind (RSim.perRight hf' hx' _ _ _) fun _ => RSim.bind (RSim.perAlign _ _) fun _ =>
      RSim.bind (RSim.forJ (fun j => RSim.pure _)
        (fun j => RSim.bind (RSim.sub _ _) fun _ => RSim.prod hf' hx' _ _) _) fun _ =>
      RSim.bind (RSim.perKStart _ _ _) fun _ =>
      RSim.bind (RSim.perLeft hf' hx' _ _ _ _ _) fun _ => RSim.pure _
  rintro ⟨i, k, out⟩ _ s ⟨rfl, h⟩
  refine Sim.bind (Sim.forOut hl (fun i => ?_) h) ?_
  · exact RSim.bind (RSim.perRight hf' hx' _ _ _) fun _ => RSim.bind (RSim.perAlign _ _) fun _ =>
      RSim.bind (RSim.forJ (fun j => RSim.ltF _ _)
        (fun j => RSim.bind (RSim.sub _ _) fun _ => RSim.prod hf' hx' _ _) _) fun _ => RSim.pure _
  rintro ⟨i, k, out⟩ _ s ⟨rfl, h⟩
  exact Sim.pure h

theorem Sim.dsConv (hl : o + l0.length ≤ c0.length) (hf : HoldsR s0.heap f fl)
    (hx : HoldsM s0.heap x xl) (hfp : f.blk ≠ some p) (hxp : x.blk ≠ some p)
    (fuel step : ℕ) (mode : Mode) {s : St (Val R M)} (h : Wrote s0 p c0 o l0 out0 out0 s) :
    Sim t orc (fun r _ s' => Wrote s0 p c0 o l0 out0 r s')
      (Pywt.dsConv fuel xl fl out0 step mode)
      (Heap.dsConv fuel ⟨x, xl.length⟩ ⟨f, fl.length⟩ ⟨some p, o⟩ step mode) s :=
  Sim.ite (fun _ => Sim.dsConvPer hl hf hx hfp hxp _ _ _ h)
    fun _ => Sim.dsConvBody hl hf hx hfp hxp _ _ _ h

/-- When the list program's result does not depend on the old contents of the output, the heap
program has written every cell. -/
theorem overwritten [Nontrivial M] {γ : Type} {c : List M → C (List M)} {P : Prog (Val R M) γ}
    {r : List M} (hl : o + l0.length ≤ c0.length)
    (hc : ∀ out : List M, out.length = l0.length → c out = .ok r)
    (hs : ∀ out : List M, out.length = l0.length →
      Sim t orc (fun r _ s' => Wrote s0 p c0 o l0 out r s') (c out) P
        (s0.setCells p (over c0 o l0))) :
    ∃ a, run t orc P (s0.setCells p (over c0 o l0)) =
      .ok (a, s0.setCells p (over c0 o (r.map fun m => some (.samp m)))) := by
  obtain ⟨m, hm⟩ := exists_ne (0 : M)
  have z : ∀ v : M, (List.replicate l0.length v).length = l0.length := by simp
  obtain ⟨a, s', h1, hr, l, h2, h3, h4⟩ := hs _ (z 0) r (hc _ (z 0))
  obtain ⟨b, s'', k1, _, l', k2, k3, k4⟩ := hs _ (z m) r (hc _ (z m))
  rw [h1] at k1
  obtain ⟨rfl, rfl⟩ : a = b ∧ s' = s'' := by
    have := Except.ok.inj k1
    exact ⟨congrArg Prod.fst this, congrArg Prod.snd this⟩
  have e : over c0 o l = over c0 o l' := by
    rw [h3] at k3
    have := congrFun (congrArg St.heap k3) p
    rw [setCells_self, setCells_self] at this
    exact congrArg Blk.cells (Option.some.inj this)
  refine ⟨a, ?_⟩
  rw [h1, h3]
  congr 4
  apply List.ext_getElem?
  intro j
  by_cases hj : j < l0.length
  · rw [List.getElem?_map]
    rcases h4 j hj with h | ⟨_, h⟩
    · exact h
    · rcases k4 j hj with k | ⟨_, k⟩
      · rw [← k, ← over_getElem? (c := c0) (o := o) (by omega) (by omega), e,
          over_getElem? (by omega) (by omega)]
      · rw [h] at k
        simp only [List.getElem?_replicate, hj, if_true] at k
        exact absurd (Option.some.inj k).symm hm
  · rw [List.getElem?_eq_none (by omega), List.getElem?_eq_none (by simp; omega)]

end Ds

/-! ### Kernels that add to their output -/

/-- The output block holds the samples `out`. -/
def Has (s0 : St (Val R M)) (p : Ptr) (c0 : List (Option (Val R M))) (o n : ℕ) (out : List M)
    (s : St (Val R M)) : Prop :=
  out.length = n ∧ s = s0.setCells p (over c0 o (out.map fun m => some (.samp m)))

section Us
variable {s0 : St (Val R M)} {p : Ptr} {c0 : List (Option (Val R M))} {o n : ℕ}
  {x f : Loc} {xl : List M} {fl : List R}

theorem Has.only {out : List M} {s : St (Val R M)} (h : Has s0 p c0 o n out s) : Only s0 p s :=
  ⟨_, h.2⟩

theorem Sim.addTo (hl : o + n ≤ c0.length) {out : List M} {s : St (Val R M)}
    (h : Has s0 p c0 o n out s) (k : ℕ) (v : M) :
    Sim t orc (fun r _ s' => Has s0 p c0 o n r s') (Pywt.addTo out k v)
      (Heap.addTo ⟨some p, o⟩ k v) s := by
  obtain ⟨h1, rfl⟩ := h
  intro r hr
  unfold Pywt.addTo rd wr at hr
  cases hk : out[k]? with
  | none => rw [hk] at hr; cases hr
  | some u =>
    rw [hk] at hr
    obtain ⟨hk', rfl⟩ := List.getElem?_eq_some_iff.mp hk
    simp only [C_bind_ok, if_pos hk', Except.ok.injEq] at hr
    subst hr
    have hlen : (out.map fun m => (some (.samp m) : Option (Val R M))).length = n := by simpa
    have e : load (s0.setCells p (over c0 o (out.map fun m => some (.samp m)))).heap (some p)
        ((o : ℤ) + (k : ℤ)) = .ok (.samp out[k]) := by
      have := load_setCells_self (s := s0) (p := p)
        (c := over c0 o (out.map fun m => (some (.samp m) : Option (Val R M)))) (i := o + k)
        (v := .samp out[k]) (by
          rw [over_getElem? (by omega) (by omega), List.getElem?_map, hk]; rfl)
      simpa using this
    have e1 : run t orc (Heap.rdM ⟨some p, (o : ℤ)⟩ (k : ℤ) : Prog (Val R M) M)
        (s0.setCells p (over c0 o (out.map fun m => some (.samp m)))) =
          .ok (out[k], s0.setCells p (over c0 o (out.map fun m => some (.samp m)))) := by
      simp only [Heap.rdM, run, e]
    refine ⟨(), _, ?_, by simpa using h1, rfl⟩
    unfold Heap.addTo
    rw [run_bind_ok e1, run_put (by omega) (by omega), List.map_set]

theorem Sim.acc2 (hl : o + n ≤ c0.length) (hf : HoldsR s0.heap f fl) (hx : HoldsM s0.heap x xl)
    (hfp : f.blk ≠ some p) (hxp : x.blk ≠ some p) {out : List M} {s : St (Val R M)}
    (h : Has s0 p c0 o n out s) (oe oo j k : ℕ) :
    Sim t orc (fun r _ s' => Has s0 p c0 o n r s') (Pywt.acc2 fl xl oe oo j k out)
      (Heap.acc2 ⟨f, fl.length⟩ ⟨x, xl.length⟩ ⟨some p, o⟩ oe oo j k) s := by
  have hf' := Only.holdsR (R := R) (M := M) (p := p) hf hfp
  have hx' := Only.holdsM (R := R) (M := M) (p := p) hx hxp
  refine Sim.bindR (RSim.prod hf' hx' _ _) h.only fun a => ?_
  refine Sim.bind (Sim.addTo hl h _ _) fun r _ s' h => ?_
  exact Sim.bindR (RSim.prod hf' hx' _ _) h.only fun a => Sim.addTo hl h _ _

theorem Sim.forKJs {fuel N k0 : ℕ} {more : ℕ → C Bool} {more' : ℕ → Prog (Val R M) Bool}
    {body : ℕ → ℕ → List M → C (List M)} {body' : ℕ → ℕ → Prog (Val R M) Unit}
    (hm : ∀ j, RSim t orc (Only s0 p) (more j) (more' j))
    (hb : ∀ j k out s, Has s0 p c0 o n out s →
      Sim t orc (fun r _ s' => Has s0 p c0 o n r s') (body j k out) (body' j k) s)
    {j : ℕ} {out : List M} {s : St (Val R M)} (h : Has s0 p c0 o n out s) :
    Sim t orc (fun r a s' => a = r.1 ∧ Has s0 p c0 o n r.2 s')
      (Pywt.forKJs fuel N k0 more body (j, out)) (Heap.forKJs fuel N k0 more' body' j) s := by
  refine Sim.bind (Q := fun (r : ℕ × ℕ × List M) (a : ℕ × ℕ) s' =>
      a = (r.1, r.2.1) ∧ Has s0 p c0 o n r.2.2 s') (Sim.loop (S := Only s0 p)
      (fun x y s hi => hi.2.only) ?_ ?_ fuel _ _ s ⟨rfl, h⟩) ?_
  · rintro ⟨k, j, out⟩ _ s ⟨rfl, hi⟩
    exact RSim.ite (hm _) (RSim.pure _)
  · rintro ⟨k, j, out⟩ _ s ⟨rfl, hi⟩
    exact Sim.bind (hb _ _ _ _ hi) fun r _ s' h => Sim.pure ⟨rfl, h⟩
  · rintro ⟨k, j, out⟩ _ s ⟨rfl, hi⟩
    exact Sim.pure ⟨rfl, hi⟩

theorem Sim.forJs {fuel : ℕ} {more : ℕ → C Bool} {more' : ℕ → Prog (Val R M) Bool}
    {body : ℕ → List M → C (List M)} {body' : ℕ → Prog (Val R M) Unit}
    (hm : ∀ j, RSim t orc (Only s0 p) (more j) (more' j))
    (hb : ∀ j out s, Has s0 p c0 o n out s →
      Sim t orc (fun r _ s' => Has s0 p c0 o n r s') (body j out) (body' j) s)
    {j : ℕ} {out : List M} {s : St (Val R M)} (h : Has s0 p c0 o n out s) :
    Sim t orc (fun r a s' => a = r.1 ∧ Has s0 p c0 o n r.2 s')
      (Pywt.forJs fuel more body (j, out)) (Heap.forJs fuel more' body' j) s := by
  refine Sim.loop (S := Only s0 p)
    (Inv := fun (r : ℕ × List M) (a : ℕ) s' => a = r.1 ∧ Has s0 p c0 o n r.2 s')
    (fun x y s hi => hi.2.only) ?_ ?_ fuel _ _ s ⟨rfl, h⟩
  · rintro ⟨j, out⟩ _ s ⟨rfl, hi⟩
    exact hm _
  · rintro ⟨j, out⟩ _ s ⟨rfl, hi⟩
    exact Sim.bind (hb _ _ _ hi) fun r _ s' h => Sim.pure ⟨rfl, h⟩

theorem Sim.forUp {fuel : ℕ} {cond : ℕ → Bool}
    {inner : ℕ → ℕ → List M → C (List M)} {inner' : ℕ → ℕ → Prog (Val R M) Unit}
    (hb : ∀ i k out s, Has s0 p c0 o n out s →
      Sim t orc (fun r _ s' => Has s0 p c0 o n r s') (inner i k out) (inner' i k) s)
    {i k : ℕ} {out : List M} {s : St (Val R M)} (h : Has s0 p c0 o n out s) :
    Sim t orc (fun r a s' => a = (r.1, r.2.1) ∧ Has s0 p c0 o n r.2.2 s')
      (Pywt.forUp fuel cond inner (i, k, out)) (Heap.forUp fuel cond inner' (i, k)) s := by
  refine Sim.loop (S := Only s0 p)
    (Inv := fun (r : ℕ × ℕ × List M) (a : ℕ × ℕ) s' =>
      a = (r.1, r.2.1) ∧ Has s0 p c0 o n r.2.2 s')
    (fun x y s hi => hi.2.only) ?_ ?_ fuel _ _ s ⟨rfl, h⟩
  · rintro ⟨i, k, out⟩ _ s ⟨rfl, hi⟩
    exact RSim.pure _
  · rintro ⟨i, k, out⟩ _ s ⟨rfl, hi⟩
    exact Sim.bind (hb _ _ _ _ hi) fun r _ s' h => Sim.pure ⟨rfl, h⟩

/-- The return code of a kernel that reports failure: `0` with the new output, or negative. -/
def Ret (s0 : St (Val R M)) (p : Ptr) (c0 : List (Option (Val R M))) (o n : ℕ) (out : List M)
    (r : Option (List M)) (a : ℤ) (s : St (Val R M)) : Prop :=
  match r with
  | some r => a = 0 ∧ Has s0 p c0 o n r s
  | none => a < 0 ∧ Has s0 p c0 o n out s

section
variable (hl : o + n ≤ c0.length) (hf : HoldsR s0.heap f fl) (hx : HoldsM s0.heap x xl)
    (hfp : f.blk ≠ some p) (hxp : x.blk ≠ some p)
include hl hf hx hfp hxp

/-- `for (; more(j); ++j) acc2(…, j, i-j)`. -/
theorem Sim.forAcc {fuel : ℕ} {more : ℕ → C Bool} {more' : ℕ → Prog (Val R M) Bool}
    (hm : ∀ j, RSim t orc (Only s0 p) (more j) (more' j)) (oe oo i : ℕ) {j : ℕ} {out : List M}
    {s : St (Val R M)} (h : Has s0 p c0 o n out s) :
    Sim t orc (fun r a s' => a = r.1 ∧ Has s0 p c0 o n r.2 s')
      (Pywt.forJs fuel more
        (fun j out => do Pywt.acc2 fl xl oe oo j (← Pywt.sub i j) out) (j, out))
      (Heap.forJs fuel more' (fun j => do
        Heap.acc2 ⟨f, fl.length⟩ ⟨x, xl.length⟩ ⟨some p, o⟩ oe oo j (← Heap.sub i j)) j) s := by
  refine Sim.forJs hm (fun j out s h => ?_) h
  exact Sim.bindR (RSim.sub _ _) h.only fun _ => Sim.acc2 hl hf hx hfp hxp h _ _ _ _

theorem Sim.usFull (fuel : ℕ) {out : List M} {s : St (Val R M)} (h : Has s0 p c0 o n out s) :
    Sim t orc (Ret s0 p c0 o n out) (Pywt.usFull fuel xl fl out)
      (Heap.usFull fuel ⟨x, xl.length⟩ ⟨f, fl.length⟩ ⟨some p, o⟩) s := by
  refine Sim.ite (fun _ => Sim.pure ⟨by omega, h⟩) fun _ =>
    Sim.ite (fun _ => Sim.pure ⟨by omega, h⟩) fun _ => ?_
  refine Sim.bind (Sim.forUp (fun i k out s h => ?_) h) ?_
  · refine Sim.bind (Sim.forAcc hl hf hx hfp hxp (fun j => RSim.pure _) _ _ _ h) ?_
    rintro ⟨j, out⟩ _ s ⟨rfl, h⟩; exact Sim.pure h
  rintro ⟨i, k, out⟩ _ s ⟨rfl, h⟩
  refine Sim.bind (Sim.forUp (fun i k out s h => ?_) h) ?_
  · refine Sim.bind (Sim.forAcc hl hf hx hfp hxp (fun j => RSim.ltF _ _) _ _ _ h) ?_
    rintro ⟨j, out⟩ _ s ⟨rfl, h⟩; exact Sim.pure h
  rintro ⟨i, k, out⟩ _ s ⟨rfl, h⟩
  refine Sim.bind (Sim.forUp (fun i k out s h => ?_) h) ?_
  · refine Sim.bindR (RSim.sub _ _) h.only fun _ => ?_
    refine Sim.bindR (RSim.sub _ _) h.only fun _ => ?_
    refine Sim.bind (Sim.forAcc hl hf hx hfp hxp (fun j => RSim.pure _) _ _ _ h) ?_
    rintro ⟨j, out⟩ _ s ⟨rfl, h⟩; exact Sim.pure h
  rintro ⟨i, k, out⟩ _ s ⟨rfl, h⟩
  refine Sim.bind (Sim.forUp (fun i k out s h => ?_) h) ?_
  · refine Sim.bindR (RSim.sub _ _) h.only fun _ => ?_
    refine Sim.bindR (RSim.sub _ _) h.only fun _ => ?_
    refine Sim.bind (Sim.forAcc hl hf hx hfp hxp (fun j => RSim.ltF _ _) _ _ _ h) ?_
    rintro ⟨j, out⟩ _ s ⟨rfl, h⟩; exact Sim.pure h
  rintro ⟨i, k, out⟩ _ s ⟨rfl, h⟩
  exact Sim.pure ⟨rfl, h⟩

theorem Sim.upRight (fuel i oe oo : ℕ) {j : ℕ} {out : List M} {s : St (Val R M)}
    (h : Has s0 p c0 o n out s) :
    Sim t orc (fun r a s' => a = r.1 ∧ Has s0 p c0 o n r.2 s')
      (Pywt.upRight fuel xl fl i oe oo (j, out))
      (Heap.upRight fuel ⟨x, xl.length⟩ ⟨f, fl.length⟩ ⟨some p, o⟩ i oe oo j) s := by
  refine Sim.loop (S := Only s0 p)
    (Inv := fun (r : ℕ × List M) (a : ℕ) s' => a = r.1 ∧ Has s0 p c0 o n r.2 s')
    (fun x y s hi => hi.2.only) ?_ ?_ fuel _ _ s ⟨rfl, h⟩
  · rintro ⟨j, out⟩ _ s ⟨rfl, hi⟩
    exact RSim.geN _ _ _
  · rintro ⟨j, out⟩ _ s ⟨rfl, hi⟩
    refine Sim.forKJs (fun j => RSim.geN _ _ _) (fun j k out s h => ?_) hi
    exact Sim.bindR (RSim.sub3 _ _ _) h.only fun _ => Sim.acc2 hl hf hx hfp hxp h _ _ _ _

theorem Sim.upLeft (fuel oe oo : ℕ) {j : ℕ} {out : List M} {s : St (Val R M)}
    (h : Has s0 p c0 o n out s) :
    Sim t orc (fun r a s' => a = r.1 ∧ Has s0 p c0 o n r.2 s')
      (Pywt.upLeft fuel xl fl oe oo (j, out))
      (Heap.upLeft fuel ⟨x, xl.length⟩ ⟨f, fl.length⟩ ⟨some p, o⟩ oe oo j) s := by
  refine Sim.loop (S := Only s0 p)
    (Inv := fun (r : ℕ × List M) (a : ℕ) s' => a = r.1 ∧ Has s0 p c0 o n r.2 s')
    (fun x y s hi => hi.2.only) ?_ ?_ fuel _ _ s ⟨rfl, h⟩
  · rintro ⟨j, out⟩ _ s ⟨rfl, hi⟩
    exact RSim.ltF _ _
  · rintro ⟨j, out⟩ _ s ⟨rfl, hi⟩
    refine Sim.forKJs (fun j => RSim.ltF _ _) (fun j k out s h => ?_) hi
    exact Sim.bindR (RSim.sub _ _) h.only fun _ => Sim.bindR (RSim.sub _ _) h.only fun _ =>
        Sim.acc2 hl hf hx hfp hxp h _ _ _ _

theorem Sim.upPerFirst (fuel start : ℕ) {out : List M} {s : St (Val R M)}
    (h : Has s0 p c0 o n out s) :
    Sim t orc (fun r _ s' => Has s0 p c0 o n r s')
      (Pywt.upPerFirst fuel xl fl start out)
      (Heap.upPerFirst fuel ⟨x, xl.length⟩ ⟨f, fl.length⟩ ⟨some p, o⟩ start) s := by
  refine Sim.bindR (RSim.sub _ _) h.only fun sm => ?_
  refine Sim.bindR (RSim.sub _ _) h.only fun last => ?_
  refine Sim.bind (Sim.loop (S := Only s0 p)
    (Inv := fun (r : ℕ × List M) (a : ℕ) s' => a = r.1 ∧ Has s0 p c0 o n r.2 s')
    (fun x y s hi => hi.2.only) ?_ ?_ fuel _ _ s ⟨rfl, h⟩) ?_
  · rintro ⟨j, out⟩ _ s ⟨rfl, hi⟩
    exact RSim.pure _
  · rintro ⟨j, out⟩ _ s ⟨rfl, hi⟩
    refine Sim.forKJs (fun j => RSim.pure _) (fun j k out s h => ?_) hi
    exact Sim.bindR (RSim.sub _ _) h.only fun _ => Sim.acc2 hl hf hx hfp hxp h _ _ _ _
  rintro ⟨j, out⟩ _ s ⟨rfl, h⟩
  refine Sim.bindR (RSim.sub _ _) h.only fun i => ?_
  refine Sim.bind (Sim.forAcc hl hf hx hfp hxp (fun j => RSim.pure _) _ _ _ h) ?_
  rintro ⟨j, out⟩ _ s ⟨rfl, h⟩
  refine Sim.bind (Sim.upLeft hl hf hx hfp hxp _ _ _ h) ?_
  rintro ⟨j, out⟩ _ s ⟨rfl, h⟩
  exact Sim.pure h

theorem Sim.upPerShift (fuel : ℕ) {out : List M} {s : St (Val R M)}
    (h : Has s0 p c0 o n out s) :
    Sim t orc (fun r _ s' => Has s0 p c0 o n r s')
      (Pywt.upPerShift fuel xl fl out)
      (Heap.upPerShift fuel ⟨x, xl.length⟩ ⟨f, fl.length⟩ ⟨some p, o⟩) s :=
  Sim.ite (fun _ => Sim.upPerFirst hl hf hx hfp hxp _ _ h) fun _ => Sim.pure h

theorem Sim.usPer (fuel : ℕ) {out : List M} {s : St (Val R M)} (h : Has s0 p c0 o n out s) :
    Sim t orc (Ret s0 p c0 o n out) (Pywt.usPer fuel xl fl out)
      (Heap.usPer fuel ⟨x, xl.length⟩ ⟨f, fl.length⟩ ⟨some p, o⟩) s := by
  refine Sim.bindR (RSim.sub _ _) h.only fun stop => ?_
  refine Sim.ite (fun _ => Sim.pure ⟨by omega, h⟩) fun _ => ?_
  refine Sim.bind (Sim.upPerShift hl hf hx hfp hxp _ h) ?_
  intro out _ s h
  refine Sim.bind (Sim.forUp (fun i k out s h => ?_) h) ?_
  · refine Sim.bind (Sim.forAcc hl hf hx hfp hxp (fun j => RSim.pure _) _ _ _ h) ?_
    rintro ⟨j, out⟩ _ s ⟨rfl, h⟩
    refine Sim.bind (Sim.upLeft hl hf hx hfp hxp _ _ _ h) ?_
    rintro ⟨j, out⟩ _ s ⟨rfl, h⟩; exact Sim.pure h
  rintro ⟨i, k, out⟩ _ s ⟨rfl, h⟩
  refine Sim.bind (Sim.forUp (fun i k out s h => ?_) h) ?_
  · refine Sim.bind (Sim.forAcc hl hf hx hfp hxp (fun j => RSim.ltF _ _) _ _ _ h) ?_
    rintro ⟨j, out⟩ _ s ⟨rfl, h⟩; exact Sim.pure h
  rintro ⟨i, k, out⟩ _ s ⟨rfl, h⟩
  refine Sim.bind (Sim.forUp (fun i k out s h => ?_) h) ?_
  · refine Sim.bind (Sim.upRight hl hf hx hfp hxp _ _ _ _ h) ?_
    rintro ⟨j, out⟩ _ s ⟨rfl, h⟩
    refine Sim.bind (Sim.forAcc hl hf hx hfp hxp (fun j => RSim.pure _) _ _ _ h) ?_
    rintro ⟨j, out⟩ _ s ⟨rfl, h⟩
    refine Sim.bind (Sim.upLeft hl hf hx hfp hxp _ _ _ h) ?_
    rintro ⟨j, out⟩ _ s ⟨rfl, h⟩; exact Sim.pure h
  rintro ⟨i, k, out⟩ _ s ⟨rfl, h⟩
  refine Sim.bind (Sim.forUp (fun i k out s h => ?_) h) ?_
  · refine Sim.bind (Sim.upRight hl hf hx hfp hxp _ _ _ _ h) ?_
    rintro ⟨j, out⟩ _ s ⟨rfl, h⟩
    refine Sim.bind (Sim.forAcc hl hf hx hfp hxp (fun j => RSim.pure _) _ _ _ h) ?_
    rintro ⟨j, out⟩ _ s ⟨rfl, h⟩; exact Sim.pure h
  rintro ⟨i, k, out⟩ _ s ⟨rfl, h⟩
  exact Sim.pure ⟨rfl, h⟩

theorem Sim.usValid (fuel : ℕ) {out : List M} {s : St (Val R M)} (h : Has s0 p c0 o n out s) :
    Sim t orc (Ret s0 p c0 o n out) (Pywt.usValid fuel xl fl out)
      (Heap.usValid fuel ⟨x, xl.length⟩ ⟨f, fl.length⟩ ⟨some p, o⟩) s := by
  have hf' := Only.holdsR (R := R) (M := M) (p := p) hf hfp
  have hx' := Only.holdsM (R := R) (M := M) (p := p) hx hxp
  refine Sim.ite (fun _ => Sim.pure ⟨by omega, h⟩) fun _ => ?_
  refine Sim.bindR (RSim.sub _ _) h.only fun i0 => ?_
  refine Sim.bind (Sim.forUp (fun i k out s h => ?_) h) ?_
  · refine Sim.bindR (RSim.forJ (fun j => RSim.ltF _ _) (fun j => ?_) _) h.only fun r => ?_
    · exact RSim.bind (RSim.sub _ _) fun _ => RSim.pairProd hf' hx' _ _
    · exact Sim.bind (Sim.addTo hl h _ _) fun _ _ _ h => Sim.addTo hl h _ _
  rintro ⟨i, k, out⟩ _ s ⟨rfl, h⟩
  exact Sim.pure ⟨rfl, h⟩

theorem Sim.usConv (fuel : ℕ) (mode : Mode) {out : List M} {s : St (Val R M)}
    (h : Has s0 p c0 o n out s) :
    Sim t orc (Ret s0 p c0 o n out) (Pywt.usConv fuel xl fl out mode)
      (Heap.usConv fuel ⟨x, xl.length⟩ ⟨f, fl.length⟩ ⟨some p, o⟩ mode) s :=
  Sim.ite (fun _ => Sim.usPer hl hf hx hfp hxp _ h) fun _ => Sim.usValid hl hf hx hfp hxp _ h

end
end Us

end Pywt.Heap
