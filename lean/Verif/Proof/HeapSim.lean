import Verif.Spec.Heap
import Verif.Proof.Dwt

/-!
# The heap kernels compute what the list kernels compute: reading
-/

set_option linter.unusedSectionVars false
set_option linter.unusedVariables false

namespace Pywt.Heap

variable {R M : Type} [Ring R] [AddCommGroup M] [Module R M]

section General
variable {V α β σ : Type} {t : ℕ} {orc : ℕ → Bool}

theorem run_bind (P : Prog V α) (f : α → Prog V β) :
    ∀ s : St V, run t orc (P.bind f) s =
      match run t orc P s with
      | .ok r => run t orc (f r.1) r.2
      | .error e => .error e := by
  induction P with
  | ret a => intro s; rfl
  | fail e => intro s; rfl
  | read p i k ih =>
    intro s
    simp only [Prog.bind, run]
    cases load s.heap p i with
    | ok v => exact ih v s
    | error e => rfl
  | write p i v k ih =>
    intro s
    simp only [Prog.bind, run]
    cases store s.heap p i v with
    | ok v => exact ih _
    | error e => rfl
  | malloc c k ih =>
    intro s
    simp only [Prog.bind, run]
    split_ifs
    · exact ih _ _
    · exact ih _ _
  | free p k ih =>
    intro s
    simp only [Prog.bind, run]
    cases release s.heap p with
    | ok v => exact ih _
    | error e => rfl

theorem run_bind_ok {P : Prog V α} {f : α → Prog V β} {s s' : St V} {a : α}
    (h : run t orc P s = .ok (a, s')) :
    run t orc (P >>= f) s = run t orc (f a) s' := by
  show run t orc (P.bind f) s = _
  rw [run_bind, h]

@[simp] theorem run_pure (a : α) (s : St V) : run t orc (pure a : Prog V α) s = .ok (a, s) := rfl

/-- A heap program that only reads does what the list program does, when the latter succeeds. -/
def RSim (t : ℕ) (orc : ℕ → Bool) (S : St V → Prop) (c : C α) (P : Prog V α) : Prop :=
  ∀ a, c = .ok a → ∀ s, S s → run t orc P s = .ok (a, s)

variable {S : St V → Prop}

theorem RSim.pure (a : α) : RSim t orc S (Pure.pure a) (Pure.pure a) := by
  rintro b ⟨⟩ s _; rfl

theorem RSim.bind {c : C α} {P : Prog V α} {k : α → C β} {K : α → Prog V β}
    (h : RSim t orc S c P) (hk : ∀ a, RSim t orc S (k a) (K a)) :
    RSim t orc S (c >>= k) (P >>= K) := by
  intro b hb s hs
  cases hc : c with
  | error e => rw [hc] at hb; cases hb
  | ok a =>
    rw [hc] at hb
    rw [run_bind_ok (h a hc s hs)]
    exact hk a b hb s hs

theorem RSim.ite {p : Prop} [Decidable p] {c c' : C α} {P P' : Prog V α}
    (h : RSim t orc S c P) (h' : RSim t orc S c' P') :
    RSim t orc S (if p then c else c') (if p then P else P') := by
  split_ifs <;> assumption

theorem RSim.sub (a b : ℕ) : RSim t orc S (Pywt.sub a b) (Heap.sub a b) := by
  intro r hr s _
  unfold Pywt.sub at hr
  unfold Heap.sub
  split_ifs at hr with h
  · cases hr; rw [if_pos h]; rfl

theorem RSim.loop {cond : σ → C Bool} {body : σ → C σ} {cond' : σ → Prog V Bool}
    {body' : σ → Prog V σ} (hc : ∀ s, RSim t orc S (cond s) (cond' s))
    (hb : ∀ s, RSim t orc S (body s) (body' s)) :
    ∀ (fuel : ℕ) (s : σ), RSim t orc S (Pywt.loop cond body fuel s) (Heap.loop cond' body' fuel s)
  | 0, s => by rintro a ⟨⟩
  | n + 1, s => by
    unfold Pywt.loop Heap.loop
    refine RSim.bind (hc s) fun b => ?_
    refine RSim.ite (RSim.bind (hb s) fun s' => RSim.loop hc hb n s') (RSim.pure s)

theorem RSim.ltF (F j : ℕ) : RSim t orc S (Pywt.ltF F j) (Heap.ltF F j) := RSim.pure _

theorem RSim.geN (i N j : ℕ) : RSim t orc S (Pywt.geN i N j) (Heap.geN i N j) :=
  RSim.bind (RSim.sub _ _) fun _ => RSim.pure _

theorem RSim.sub3 (i N j : ℕ) : RSim t orc S (Pywt.sub3 i N j) (Heap.sub3 i N j) :=
  RSim.bind (RSim.sub _ _) fun _ => RSim.sub _ _

theorem RSim.forKJ {A : Type} [Add A] {fuel N k0 dk dj : ℕ} {more : ℕ → C Bool}
    {more' : ℕ → Prog V Bool} {term : ℕ → ℕ → C A} {term' : ℕ → ℕ → Prog V A}
    (hm : ∀ j, RSim t orc S (more j) (more' j)) (ht : ∀ j k, RSim t orc S (term j k) (term' j k))
    (st : ℕ × A) :
    RSim t orc S (Pywt.forKJ fuel N k0 dk dj more term st)
      (Heap.forKJ fuel N k0 dk dj more' term' st) := by
  refine RSim.bind (RSim.loop (fun s => ?_) (fun s => ?_) _ _) fun _ => RSim.pure _
  · exact RSim.ite (hm _) (RSim.pure _)
  · exact RSim.bind (ht _ _) fun _ => RSim.pure _

theorem RSim.forJ {A : Type} [Add A] {fuel dj : ℕ} {more : ℕ → C Bool}
    {more' : ℕ → Prog V Bool} {term : ℕ → C A} {term' : ℕ → Prog V A}
    (hm : ∀ j, RSim t orc S (more j) (more' j)) (ht : ∀ j, RSim t orc S (term j) (term' j))
    (st : ℕ × A) :
    RSim t orc S (Pywt.forJ fuel dj more term st) (Heap.forJ fuel dj more' term' st) := by
  refine RSim.loop (fun s => hm _) (fun s => ?_) _ _
  exact RSim.bind (ht _) fun _ => RSim.pure _

end General

/-- The memory holds the filter coefficients `l` at `x`. -/
def HoldsR (h : Ptr → Option (Blk (Val R M))) (x : Loc) (l : List R) : Prop :=
  ∀ i (hi : i < l.length), load h x.blk (x.off + (i : ℤ)) = .ok (.coef l[i])

section Kernels
variable {t : ℕ} {orc : ℕ → Bool} {S : St (Val R M) → Prop} {x f : Loc} {xl : List M} {fl : List R}

theorem RSim.rdM (hx : ∀ s, S s → HoldsM s.heap x xl) (i : ℕ) :
    RSim t orc S (rd xl i) (Heap.rdM x i) := by
  intro a ha s hs
  unfold rd at ha
  cases h : xl[i]? with
  | none => rw [h] at ha; cases ha
  | some v =>
    rw [h] at ha; cases ha
    obtain ⟨hi, rfl⟩ := List.getElem?_eq_some_iff.mp h
    simp only [Heap.rdM, run, hx s hs i hi]

theorem RSim.rdR (hf : ∀ s, S s → HoldsR s.heap f fl) (i : ℕ) :
    RSim t orc S (rd fl i) (Heap.rdR f i) := by
  intro a ha s hs
  unfold rd at ha
  cases h : fl[i]? with
  | none => rw [h] at ha; cases ha
  | some v =>
    rw [h] at ha; cases ha
    obtain ⟨hi, rfl⟩ := List.getElem?_eq_some_iff.mp h
    simp only [Heap.rdR, run, hf s hs i hi]

theorem RSim.prod (hf : ∀ s, S s → HoldsR s.heap f fl) (hx : ∀ s, S s → HoldsM s.heap x xl)
    (j k : ℕ) : RSim t orc S (Pywt.prod fl j xl k) (Heap.prod ⟨f, fl.length⟩ j ⟨x, xl.length⟩ k) :=
  RSim.bind (RSim.rdR hf j) fun _ => RSim.bind (RSim.rdM hx k) fun _ => RSim.pure _

theorem RSim.rdRev (hx : ∀ s, S s → HoldsM s.heap x xl) (k : ℕ) :
    RSim t orc S (Pywt.rdRev xl k) (Heap.rdRev ⟨x, xl.length⟩ k) :=
  RSim.bind (RSim.sub _ _) fun _ => RSim.bind (RSim.sub _ _) fun _ => RSim.rdM hx _

theorem RSim.prodRev (hf : ∀ s, S s → HoldsR s.heap f fl) (hx : ∀ s, S s → HoldsM s.heap x xl)
    (j k : ℕ) :
    RSim t orc S (Pywt.prodRev fl j xl k) (Heap.prodRev ⟨f, fl.length⟩ j ⟨x, xl.length⟩ k) :=
  RSim.bind (RSim.rdR hf j) fun _ => RSim.bind (RSim.rdRev hx k) fun _ => RSim.pure _

theorem RSim.forTmp (hf : ∀ s, S s → HoldsR s.heap f fl) {fuel N : ℕ} {more : ℕ → C Bool}
    {more' : ℕ → Prog (Val R M) Bool} {val : ℕ → C M} {val' : ℕ → Prog (Val R M) M}
    {idx : ℕ → C ℕ} {idx' : ℕ → Prog (Val R M) ℕ}
    (hm : ∀ j, RSim t orc S (more j) (more' j)) (hv : ∀ k, RSim t orc S (val k) (val' k))
    (hi : ∀ j, RSim t orc S (idx j) (idx' j)) (st : ℕ × M × M) :
    RSim t orc S (Pywt.forTmp fuel N more val idx fl st)
      (Heap.forTmp fuel N more' val' idx' ⟨f, fl.length⟩ st) := by
  refine RSim.bind (RSim.loop (fun s => ?_) (fun s => ?_) _ _) fun _ => RSim.pure _
  · exact RSim.ite (hm _) (RSim.pure _)
  · exact RSim.bind (hv _) fun _ => RSim.bind (hi _) fun _ => RSim.bind (RSim.rdR hf _) fun _ =>
      RSim.pure _

theorem RSim.leftSwitch (hf : ∀ s, S s → HoldsR s.heap f fl)
    (hx : ∀ s, S s → HoldsM s.heap x xl) (fuel : ℕ) (mode : Mode) (st : ℕ × M) :
    RSim t orc S (Pywt.leftSwitch fuel mode xl fl st)
      (Heap.leftSwitch fuel mode ⟨x, xl.length⟩ ⟨f, fl.length⟩ st) := by
  cases mode with
  | zero => exact RSim.pure _
  | periodization => exact RSim.pure _
  | symmetric =>
    exact RSim.loop (fun s => RSim.ltF _ _) (fun s => RSim.bind
      (RSim.forKJ (fun j => RSim.ltF _ _) (fun j k => RSim.prod hf hx j k) _) fun _ =>
      RSim.forKJ (fun j => RSim.ltF _ _) (fun j k => RSim.prodRev hf hx j k) _) _ _
  | antisymmetric =>
    exact RSim.loop (fun s => RSim.ltF _ _) (fun s => RSim.bind
      (RSim.forKJ (fun j => RSim.ltF _ _)
        (fun j k => RSim.bind (RSim.prod hf hx j k) fun _ => RSim.pure _) _) fun _ =>
      RSim.forKJ (fun j => RSim.ltF _ _) (fun j k => RSim.prodRev hf hx j k) _) _ _
  | reflect =>
    exact RSim.loop (fun s => RSim.ltF _ _) (fun s => RSim.bind
      (RSim.forKJ (fun j => RSim.ltF _ _) (fun j k => RSim.prod hf hx j k) _) fun _ =>
      RSim.forKJ (fun j => RSim.ltF _ _) (fun j k => RSim.prodRev hf hx j k) _) _ _
  | antireflect =>
    refine RSim.bind (RSim.rdM hx 0) fun _ => RSim.bind
      (RSim.loop (fun s => RSim.ltF _ _) (fun s => ?_) _ _) fun _ => RSim.pure _
    obtain ⟨j, le, tmp, sum⟩ := s
    refine RSim.bind (RSim.forTmp hf (fun j => RSim.ltF _ _)
      (fun k => RSim.bind (RSim.rdM hx _) fun _ => RSim.bind (RSim.rdM hx 0) fun _ => RSim.pure _)
      (fun j => RSim.pure _) _) fun r => ?_
    obtain ⟨j, tmp, sum⟩ := r
    refine RSim.bind (RSim.forTmp hf (fun j => RSim.ltF _ _)
      (fun k => RSim.bind (RSim.rdRev hx _) fun _ => RSim.bind (RSim.rdRev hx 0) fun _ =>
        RSim.pure _)
      (fun j => RSim.pure _) _) fun r => ?_
    obtain ⟨j, tmp, sum⟩ := r
    exact RSim.pure _
  | constant =>
    exact RSim.forJ (fuel := fuel) (dj := 1) (more := Pywt.ltF fl.length)
      (term := fun j => Pywt.prod fl j xl 0) (more' := Heap.ltF fl.length)
      (term' := fun j => Heap.prod ⟨f, fl.length⟩ j ⟨x, xl.length⟩ 0)
      (fun j => RSim.ltF _ _) (fun j => RSim.prod hf hx _ _) _
  | smooth =>
    refine RSim.bind (RSim.loop (fun s => RSim.ltF _ _) (fun s => ?_) _ _) fun _ => RSim.pure _
    exact RSim.bind (RSim.rdR hf _) fun _ => RSim.bind (RSim.rdM hx 0) fun _ =>
      RSim.bind (RSim.rdM hx 1) fun _ => RSim.pure _
  | periodic =>
    exact RSim.loop (fun s => RSim.ltF _ _) (fun s =>
      RSim.forKJ (fun j => RSim.ltF _ _) (fun j k => RSim.prodRev hf hx j k) _) _ _

theorem RSim.rightSwitch (hf : ∀ s, S s → HoldsR s.heap f fl)
    (hx : ∀ s, S s → HoldsM s.heap x xl) (fuel : ℕ) (mode : Mode) (i : ℕ) :
    RSim t orc S (Pywt.rightSwitch fuel mode xl fl i)
      (Heap.rightSwitch fuel mode ⟨x, xl.length⟩ ⟨f, fl.length⟩ i) := by
  have h3 : ∀ {α : Type} {k : ℕ → C α} {K : ℕ → Prog (Val R M) α} (j : ℕ),
      (∀ l, RSim t orc S (k l) (K l)) →
      RSim t orc S (Pywt.sub3 i xl.length j >>= k) (Heap.sub3 i xl.length j >>= K) :=
    fun j h => RSim.bind (RSim.sub3 _ _ _) h
  cases mode with
  | zero => exact RSim.bind (RSim.sub _ _) fun _ => RSim.pure _
  | periodization => exact RSim.bind (RSim.sub _ _) fun _ => RSim.pure _
  | symmetric =>
    exact RSim.loop (fun s => RSim.geN _ _ _) (fun s => RSim.bind
      (RSim.forKJ (fun j => RSim.geN _ _ _) (fun j k => h3 j fun l => RSim.prodRev hf hx l k) _)
        fun _ =>
      RSim.forKJ (fun j => RSim.geN _ _ _) (fun j k => h3 j fun l => RSim.prod hf hx l k) _) _ _
  | antisymmetric =>
    exact RSim.loop (fun s => RSim.geN _ _ _) (fun s => RSim.bind
      (RSim.forKJ (fun j => RSim.geN _ _ _)
        (fun j k => h3 j fun l => RSim.bind (RSim.prodRev hf hx l k) fun _ => RSim.pure _) _)
        fun _ =>
      RSim.forKJ (fun j => RSim.geN _ _ _) (fun j k => h3 j fun l => RSim.prod hf hx l k) _) _ _
  | reflect =>
    exact RSim.loop (fun s => RSim.geN _ _ _) (fun s => RSim.bind
      (RSim.forKJ (fun j => RSim.geN _ _ _) (fun j k => h3 j fun l => RSim.prodRev hf hx l k) _)
        fun _ =>
      RSim.forKJ (fun j => RSim.geN _ _ _) (fun j k => h3 j fun l => RSim.prod hf hx l k) _) _ _
  | antireflect =>
    refine RSim.bind (RSim.rdRev hx 0) fun _ => RSim.bind
      (RSim.loop (fun s => RSim.geN _ _ _) (fun s => ?_) _ _) fun _ => RSim.pure _
    obtain ⟨j, le, tmp, sum⟩ := s
    refine RSim.bind (RSim.forTmp hf (fun j => RSim.geN _ _ _)
      (fun k => RSim.bind (RSim.rdRev hx _) fun _ => RSim.bind (RSim.rdRev hx 0) fun _ =>
        RSim.pure _)
      (fun j => RSim.sub3 _ _ _) _) fun r => ?_
    obtain ⟨j, tmp, sum⟩ := r
    refine RSim.bind (RSim.forTmp hf (fun j => RSim.geN _ _ _)
      (fun k => RSim.bind (RSim.rdM hx _) fun _ => RSim.bind (RSim.rdM hx 0) fun _ => RSim.pure _)
      (fun j => RSim.sub3 _ _ _) _) fun r => ?_
    obtain ⟨j, tmp, sum⟩ := r
    exact RSim.pure _
  | constant =>
    exact RSim.forJ (fuel := fuel) (dj := 1) (more := Pywt.geN i xl.length)
      (term := fun j => Pywt.prodRev fl j xl 0) (more' := Heap.geN i xl.length)
      (term' := fun j => Heap.prodRev ⟨f, fl.length⟩ j ⟨x, xl.length⟩ 0)
      (fun j => RSim.geN _ _ _) (fun j => RSim.prodRev hf hx _ _) _
  | smooth =>
    refine RSim.bind (RSim.sub _ _) fun _ =>
      RSim.bind (RSim.loop (fun s => RSim.geN _ _ _) (fun s => ?_) _ _) fun _ => RSim.pure _
    exact RSim.bind (RSim.rdR hf _) fun _ => RSim.bind (RSim.rdRev hx 0) fun _ =>
      RSim.bind (RSim.rdRev hx 1) fun _ => RSim.bind (RSim.sub _ _) fun _ => RSim.pure _
  | periodic =>
    exact RSim.loop (fun s => RSim.geN _ _ _) (fun s =>
      RSim.forKJ (fun j => RSim.geN _ _ _) (fun j k => h3 j fun l => RSim.prod hf hx l k) _) _ _

theorem RSim.perLeft (hf : ∀ s, S s → HoldsR s.heap f fl) (hx : ∀ s, S s → HoldsM s.heap x xl)
    (fuel padding fstep kStart : ℕ) (st : ℕ × M) :
    RSim t orc S (Pywt.perLeft fuel padding fstep kStart xl fl st)
      (Heap.perLeft fuel padding fstep kStart ⟨x, xl.length⟩ ⟨f, fl.length⟩ st) :=
  RSim.loop (fun s => RSim.ltF _ _) (fun s => RSim.bind
      (RSim.forKJ (fun j => RSim.ltF _ _) (fun j k => RSim.prodRev hf hx j 0) _) fun _ =>
      RSim.forKJ (fun j => RSim.ltF _ _) (fun j k => RSim.prodRev hf hx j k) _) _ _

theorem RSim.perRight (hf : ∀ s, S s → HoldsR s.heap f fl) (hx : ∀ s, S s → HoldsM s.heap x xl)
    (fuel padding i : ℕ) :
    RSim t orc S (Pywt.perRight fuel padding xl fl i)
      (Heap.perRight fuel padding ⟨x, xl.length⟩ ⟨f, fl.length⟩ i) :=
  RSim.loop (fun s => RSim.geN _ _ _) (fun s => RSim.bind
      (RSim.forKJ (fun j => RSim.geN _ _ _)
        (fun j k => RSim.bind (RSim.sub3 _ _ _) fun l => RSim.prodRev hf hx l 0) _) fun _ =>
      RSim.forKJ (fun j => RSim.geN _ _ _)
        (fun j k => RSim.bind (RSim.sub3 _ _ _) fun l => RSim.prod hf hx l k) _) _ _

theorem RSim.perAlign (fstep : ℕ) (st : ℕ × M) :
    RSim t orc S (Pywt.perAlign fstep st) (Heap.perAlign fstep st) :=
  RSim.ite (RSim.bind (RSim.sub _ _) fun _ => RSim.pure _) (RSim.pure _)

theorem RSim.perKStart (fstep i j : ℕ) :
    RSim t orc S (Pywt.perKStart fstep i j) (Heap.perKStart fstep i j) :=
  RSim.ite (RSim.sub _ _) (RSim.pure _)

theorem RSim.pairProd (hf : ∀ s, S s → HoldsR s.heap f fl) (hx : ∀ s, S s → HoldsM s.heap x xl)
    (j k : ℕ) :
    RSim t orc S (Pywt.pairProd fl xl j k)
      (Heap.pairProd ⟨f, fl.length⟩ ⟨x, xl.length⟩ j k) :=
  RSim.bind (RSim.prod hf hx _ _) fun _ => RSim.bind (RSim.prod hf hx _ _) fun _ => RSim.pure _

end Kernels

end Pywt.Heap
