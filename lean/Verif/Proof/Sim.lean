import Verif.Model.UpConv
import Mathlib.Order.Interval.Finset.Nat

/-!
# Running a kernel in two arithmetics at once

The convolution kernels are run on data of two types `M`, `M'` and coefficients of two types `R`, `R'`, in lock-step.
A `Link` says which values of the two arithmetics correspond to each other: samples (`X`), values multiplied by a tap
(`Y`), products with tap `l` (`T l`), and sums of products with the taps in a set `A`, `k` such sums having been added
to one another (`S k A`).  If the kernel in `M'` succeeds, so does the one in `M`, and the outputs are linked.
-/

set_option linter.unusedSectionVars false
set_option linter.unusedVariables false
set_option linter.unusedSimpArgs false
set_option autoImplicit false

namespace Pywt.Sim

open Finset

section General
variable {α β γ δ σ σ' : Type}

/-- If the second computation succeeds, so does the first, with related results. -/
def Rel (Q : α → β → Prop) (c : C α) (c' : C β) : Prop :=
  ∀ b, c' = .ok b → ∃ a, c = .ok a ∧ Q a b

theorem Rel.pure {Q : α → β → Prop} {a : α} {b : β} (h : Q a b) :
    Rel Q (Pure.pure a) (Pure.pure b) := by
  rintro _ ⟨⟩
  exact ⟨a, rfl, h⟩

theorem Rel.bind {Q : α → β → Prop} {P : γ → δ → Prop} {c : C α} {c' : C β} {k : α → C γ}
    {k' : β → C δ} (h : Rel Q c c') (hk : ∀ a b, Q a b → Rel P (k a) (k' b)) :
    Rel P (c >>= k) (c' >>= k') := by
  intro d hd
  cases hc : c' with
  | error e => rw [hc] at hd; cases hd
  | ok b =>
    rw [hc] at hd
    obtain ⟨a, ha, hq⟩ := h b hc
    rw [ha]
    exact hk a b hq d hd

theorem Rel.same {P : γ → δ → Prop} {c : C α} {k : α → C γ} {k' : α → C δ}
    (hk : ∀ a, c = .ok a → Rel P (k a) (k' a)) : Rel P (c >>= k) (c >>= k') := by
  refine Rel.bind (Q := fun a b => a = b ∧ c = .ok a) (fun b hb => ⟨b, hb, rfl, hb⟩) ?_
  rintro a _ ⟨rfl, ha⟩
  exact hk a ha

theorem Rel.mono {P Q : α → β → Prop} {c : C α} {c' : C β} (h : Rel P c c')
    (hpq : ∀ a b, P a b → Q a b) : Rel Q c c' := by
  intro b hb
  obtain ⟨a, ha, hp⟩ := h b hb
  exact ⟨a, ha, hpq a b hp⟩

theorem Rel.ite {Q : α → β → Prop} {p : Prop} [Decidable p] {c d : C α} {c' d' : C β}
    (h : p → Rel Q c c') (h' : ¬ p → Rel Q d d') :
    Rel Q (if p then c else d) (if p then c' else d') := by
  split_ifs with hp
  · exact h hp
  · exact h' hp

theorem Rel.loop {I : σ → σ' → Prop} {cond : σ → C Bool} {cond' : σ' → C Bool} {body : σ → C σ}
    {body' : σ' → C σ'} (hc : ∀ s s', I s s' → cond s = cond' s')
    (hb : ∀ s s', I s s' → cond' s' = .ok true → Rel I (body s) (body' s')) :
    ∀ (fuel : ℕ) (s : σ) (s' : σ'), I s s' →
      Rel (fun a b => I a b ∧ cond' b = .ok false) (Pywt.loop cond body fuel s)
        (Pywt.loop cond' body' fuel s')
  | 0, s, s', _ => by rintro b ⟨⟩
  | n + 1, s, s', h => by
    unfold Pywt.loop
    rw [hc s s' h]
    refine Rel.same fun b hcb => ?_
    cases b with
    | true =>
      exact Rel.bind (hb s s' h hcb) fun a b hab => Rel.loop hc hb n a b hab
    | false => exact Rel.pure ⟨h, hcb⟩

theorem sub_ok {a b r : ℕ} (h : sub a b = .ok r) : b ≤ a ∧ r = a - b := by
  unfold sub at h
  split_ifs at h with hb
  cases h
  exact ⟨hb, rfl⟩

theorem sub3_ok {i N j r : ℕ} (h : sub3 i N j = .ok r) : N + j ≤ i ∧ r = i - N - j := by
  unfold sub3 at h
  cases h1 : sub i N with
  | error e => rw [h1] at h; cases h
  | ok d =>
    rw [h1] at h
    obtain ⟨h2, h3⟩ := sub_ok h1
    obtain ⟨h4, h5⟩ := sub_ok h
    omega

theorem geN_ok {i N j : ℕ} {b : Bool} (h : geN i N j = .ok b) : j ≤ i ∧ b = decide (N ≤ i - j) := by
  unfold geN at h
  cases h1 : sub i j with
  | error e => rw [h1] at h; cases h
  | ok d =>
    rw [h1] at h
    obtain ⟨h2, h3⟩ := sub_ok h1
    cases h
    exact ⟨h2, by rw [h3]⟩

theorem Rel.forKJ {M M' : Type} [Add M] [Add M'] {Inv : ℕ → M → M' → Prop} {fuel N k0 dk dj : ℕ}
    {more : ℕ → C Bool} {term : ℕ → ℕ → C M} {term' : ℕ → ℕ → C M'}
    (ht : ∀ j k s s', more j = .ok true → Inv j s s' →
      Rel (fun v v' => Inv (j + dj) (s + v) (s' + v')) (term j k) (term' j k))
    {st : ℕ × M} {st' : ℕ × M'} (h1 : st.1 = st'.1) (h : Inv st'.1 st.2 st'.2) :
    Rel (fun r r' => r.1 = r'.1 ∧ Inv r'.1 r.2 r'.2) (Pywt.forKJ fuel N k0 dk dj more term st)
      (Pywt.forKJ fuel N k0 dk dj more term' st') := by
  unfold Pywt.forKJ
  refine Rel.bind (Q := fun a b => (a.1 = b.1 ∧ a.2.1 = b.2.1 ∧ Inv b.2.1 a.2.2 b.2.2) ∧ _)
    (Rel.loop ?_ ?_ _ _ _ ?_) ?_
  · rintro ⟨k, j, s⟩ ⟨k', j', s'⟩ ⟨h1, h2, h3⟩
    simp only at h1 h2 ⊢
    rw [h1, h2]
  · rintro ⟨k, j, s⟩ ⟨k', j', s'⟩ ⟨h1, h2, h3⟩ hc
    simp only at h1 h2 h3 hc ⊢
    subst h1 h2
    have hm : more j = .ok true := by
      split_ifs at hc with hk
      · exact hc
      · cases hc
    exact Rel.bind (ht j k s s' hm h3) fun v v' hv => Rel.pure ⟨rfl, rfl, hv⟩
  · exact ⟨rfl, h1, h⟩
  · rintro ⟨k, j, s⟩ ⟨k', j', s'⟩ ⟨⟨h1, h2, h3⟩, _⟩
    exact Rel.pure ⟨h2, h3⟩

theorem Rel.forJ {M M' : Type} [Add M] [Add M'] {Inv : ℕ → M → M' → Prop} {fuel dj : ℕ}
    {more : ℕ → C Bool} {term : ℕ → C M} {term' : ℕ → C M'}
    (ht : ∀ j s s', more j = .ok true → Inv j s s' →
      Rel (fun v v' => Inv (j + dj) (s + v) (s' + v')) (term j) (term' j))
    {st : ℕ × M} {st' : ℕ × M'} (h1 : st.1 = st'.1) (h : Inv st'.1 st.2 st'.2) :
    Rel (fun r r' => r.1 = r'.1 ∧ Inv r'.1 r.2 r'.2) (Pywt.forJ fuel dj more term st)
      (Pywt.forJ fuel dj more term' st') := by
  unfold Pywt.forJ
  refine Rel.mono (Rel.loop (I := fun a b => a.1 = b.1 ∧ Inv b.1 a.2 b.2) ?_ ?_ _ _ _ ⟨h1, h⟩)
    fun a b hab => hab.1
  · rintro ⟨j, s⟩ ⟨j', s'⟩ ⟨h1, h2⟩
    simp only at h1 ⊢
    rw [h1]
  · rintro ⟨j, s⟩ ⟨j', s'⟩ ⟨h1, h2⟩ hc
    simp only at h1 h2 hc ⊢
    subst h1
    exact Rel.bind (ht j s s' hc h2) fun v v' hv => Rel.pure ⟨rfl, hv⟩

theorem Rel.rd {α β : Type} {Q : α → β → Prop} {x : List α} {x' : List β} (hx : List.Forall₂ Q x x')
    (i : ℕ) : Rel Q (Pywt.rd x i) (Pywt.rd x' i) := by
  intro b hb
  unfold Pywt.rd at hb ⊢
  cases h' : x'[i]? with
  | none => rw [h'] at hb; cases hb
  | some v' =>
    rw [h'] at hb
    cases hb
    obtain ⟨hi', hv'⟩ := List.getElem?_eq_some_iff.mp h'
    have hi : i < x.length := by rw [hx.length_eq]; exact hi'
    rw [List.getElem?_eq_getElem hi]
    refine ⟨_, rfl, ?_⟩
    have := List.Forall₂.get hx hi hi'
    simp only [List.get_eq_getElem] at this
    rwa [hv'] at this

theorem Rel.rdRev {α β : Type} {Q : α → β → Prop} {x : List α} {x' : List β}
    (hx : List.Forall₂ Q x x') (i : ℕ) : Rel Q (Pywt.rdRev x i) (Pywt.rdRev x' i) := by
  unfold Pywt.rdRev
  rw [hx.length_eq]
  exact Rel.same fun a _ => Rel.same fun b _ => Rel.rd hx b

theorem forall₂_set {α β : Type} {Q : α → β → Prop} {x : List α} {x' : List β}
    (hx : List.Forall₂ Q x x') (i : ℕ) {a : α} {b : β} (h : Q a b) :
    List.Forall₂ Q (x.set i a) (x'.set i b) := by
  induction hx generalizing i with
  | nil => exact List.Forall₂.nil
  | cons h1 h2 ih =>
    cases i with
    | zero => exact List.Forall₂.cons h h2
    | succ i => exact List.Forall₂.cons h1 (ih i)

theorem Rel.wr {α β : Type} {Q : α → β → Prop} {x : List α} {x' : List β}
    (hx : List.Forall₂ Q x x') (i : ℕ) {a : α} {b : β} (h : Q a b) :
    Rel (List.Forall₂ Q) (Pywt.wr x i a) (Pywt.wr x' i b) := by
  unfold Pywt.wr
  rw [hx.length_eq]
  exact Rel.ite (fun _ => Rel.pure (forall₂_set hx i h)) (fun _ => by rintro b ⟨⟩)

end General

/-- Which values of two arithmetics correspond to each other. -/
structure Link (M M' : Type) [Zero M] [Add M] [Neg M] [Zero M'] [Add M'] [Neg M'] where
  /-- samples -/
  X : M → M' → Prop
  /-- values multiplied by a tap -/
  Y : M → M' → Prop
  /-- products with tap `l` -/
  T : ℕ → M → M' → Prop
  /-- sums of products with the taps in a set, some such sums having been added up -/
  S : ℕ → Finset ℕ → M → M' → Prop
  /-- all taps -/
  all : Finset ℕ
  /-- how many additions of two sums are allowed -/
  kmax : ℕ
  zero : S 0 ∅ 0 0
  mono : ∀ {k k' A B s s'}, A ⊆ B → B ⊆ all → k ≤ k' → k' ≤ kmax → S k A s s' → S k' B s s'
  add : ∀ {k A l s s' p p'}, l ∉ A → l ∈ all → S k A s s' → T l p p' →
    S k (insert l A) (s + p) (s' + p')
  merge : ∀ {k m A B s s' t t'}, Disjoint A B → k + m + 1 ≤ kmax → S k A s s' → S m B t t' →
    S (k + m + 1) (A ∪ B) (s + t) (s' + t')
  neg : ∀ {l p p'}, T l p p' → T l (-p) (-p')
  sample : ∀ {x x'}, X x x' → Y x x'

section Kernels

variable {R R' M M' : Type} [Zero M] [Add M] [Neg M] [Sub M] [SMul ℕ M] [SMul R M]
  [Zero M'] [Add M'] [Neg M'] [Sub M'] [SMul ℕ M'] [SMul R' M']

/-- The values computed past an edge of the signal in smooth and antireflect mode: `E r` for the values at the edge
after `r` reflections, `K` the number of steps past the edge. -/
structure Edge (L : Link M M') (K : ℕ) where
  E : ℕ → M → M' → Prop
  zero : E 0 0 0
  edge : ∀ {x x'}, L.X x x' → E 0 x x'
  sub : ∀ {r e e' b b' c c'}, E r e e' → L.X b b' → L.X c c' →
    E (r + 1) (e - (b - c)) (e' - (b' - c'))
  add : ∀ {r e e' b b' c c'}, E r e e' → L.X b b' → L.X c c' →
    E (r + 1) (e + (b - c)) (e' + (b' - c'))
  value : ∀ {r e e'}, r ≤ K → E r e e' → L.Y e e'
  smooth : ∀ {k : ℕ} {a a' b b'}, k ≤ K → L.X a a' → L.X b b' →
    L.Y (a + k • (a - b)) (a' + k • (a' - b'))

/-- The coefficients of the two filters correspond; the taps are numbered from `off` on. -/
structure Taps (L : Link M M') (off : ℕ) (f : List R) (f' : List R') : Prop where
  len : f.length = f'.length
  mem : ∀ l < f'.length, off + l ∈ L.all
  mul : ∀ l a a' y y', f[l]? = some a → f'[l]? = some a' → L.Y y y' → L.T (off + l) (a • y) (a' • y')

variable {L : Link M M'} {off : ℕ} {f : List R} {f' : List R'} {x : List M} {x' : List M'}

/-- Reading a coefficient. -/
theorem Taps.rd (hf : Taps L off f f') (l : ℕ) :
    Rel (fun a a' => l < f'.length ∧ ∀ y y', L.Y y y' → L.T (off + l) (a • y) (a' • y'))
      (Pywt.rd f l) (Pywt.rd f' l) := by
  intro b hb
  unfold Pywt.rd at hb ⊢
  cases h' : f'[l]? with
  | none => rw [h'] at hb; cases hb
  | some v' =>
    rw [h'] at hb
    cases hb
    obtain ⟨hi', hv'⟩ := List.getElem?_eq_some_iff.mp h'
    have hi : l < f.length := by rw [hf.len]; exact hi'
    rw [List.getElem?_eq_getElem hi]
    exact ⟨_, rfl, hi', fun y y' hy => hf.mul l _ _ y y' (List.getElem?_eq_getElem hi) h' hy⟩

theorem Rel.prod (hf : Taps L off f f') (hx : List.Forall₂ L.X x x') (j k : ℕ) :
    Rel (fun p p' => j < f'.length ∧ L.T (off + j) p p') (Pywt.prod f j x k) (Pywt.prod f' j x' k) := by
  unfold Pywt.prod
  exact Rel.bind (hf.rd j) fun a a' ha => Rel.bind (Rel.rd hx k) fun b b' hb =>
    Rel.pure ⟨ha.1, ha.2 _ _ (L.sample hb)⟩

theorem Rel.prodRev (hf : Taps L off f f') (hx : List.Forall₂ L.X x x') (j k : ℕ) :
    Rel (fun p p' => j < f'.length ∧ L.T (off + j) p p') (Pywt.prodRev f j x k)
      (Pywt.prodRev f' j x' k) := by
  unfold Pywt.prodRev
  exact Rel.bind (hf.rd j) fun a a' ha => Rel.bind (Rel.rdRev hx k) fun b b' hb =>
    Rel.pure ⟨ha.1, ha.2 _ _ (L.sample hb)⟩

/-- The sum once taps `0, …, j-1` have been dealt with. -/
def JInv (L : Link M M') (F j : ℕ) (s : M) (s' : M') : Prop := L.S 0 (range (min j F)) s s'

/-- The sum once `j` taps below tap `c` have been dealt with, in descending order. -/
def RInv (L : Link M M') (c j : ℕ) (s : M) (s' : M') : Prop := L.S 0 (Ico (c - j) c) s s'

theorem range_sub_all {F : ℕ} (h : ∀ l < F, 0 + l ∈ L.all) (j : ℕ) : range (min j F) ⊆ L.all := by
  intro l hl
  have := h l (by have := mem_range.mp hl; omega)
  rwa [Nat.zero_add] at this

theorem JInv.step {F j d : ℕ} {s p : M} {s' p' : M'} (hall : ∀ l < F, 0 + l ∈ L.all) (hd : 1 ≤ d)
    (h : JInv L F j s s') (hj : j < F) (hp : L.T (0 + j) p p') :
    JInv L F (j + d) (s + p) (s' + p') := by
  rw [Nat.zero_add] at hp
  unfold JInv at *
  rw [min_eq_left hj.le] at h
  have := L.add (by simp) (by have := hall j hj; rwa [Nat.zero_add] at this) h hp
  refine L.mono ?_ (range_sub_all hall _) le_rfl (Nat.zero_le _) this
  intro l hl
  simp only [Finset.mem_insert, mem_range] at hl ⊢
  omega

theorem RInv.step {F i N j l : ℕ} {s p : M} {s' p' : M'} (hall : ∀ l < F, 0 + l ∈ L.all)
    (h : RInv L (i + 1 - N) j s s') (hj : N + j ≤ i) (hl : l = i - N - j) (hF : l < F)
    (hp : L.T (0 + l) p p') : RInv L (i + 1 - N) (j + 1) (s + p) (s' + p') := by
  rw [Nat.zero_add] at hp
  unfold RInv at *
  have h1 : l ∉ Ico (i + 1 - N - j) (i + 1 - N) := by
    simp only [mem_Ico]; omega
  have h2 : insert l (Ico (i + 1 - N - j) (i + 1 - N)) = Ico (i + 1 - N - (j + 1)) (i + 1 - N) := by
    ext m
    simp only [Finset.mem_insert, mem_Ico]
    omega
  rw [← h2]
  exact L.add h1 (by have := hall l hF; rwa [Nat.zero_add] at this) h hp

/-- After the descending loop. -/
theorem RInv.done {F i N j : ℕ} {s : M} {s' : M'} (hall : ∀ l < F, 0 + l ∈ L.all)
    (h : RInv L (i + 1 - N) j s s') (hc : geN i N j = .ok false) (hi : i < N + F) : JInv L F j s s' := by
  obtain ⟨h1, h2⟩ := geN_ok hc
  have h3 := of_decide_eq_false h2.symm
  unfold RInv JInv at *
  refine L.mono ?_ (range_sub_all hall _) le_rfl (Nat.zero_le _) h
  intro l hl
  simp only [mem_range, mem_Ico] at hl ⊢
  omega

theorem JInv.start (F : ℕ) (hall : ∀ l < F, 0 + l ∈ L.all) (j : ℕ) : JInv L F j 0 0 :=
  L.mono (Finset.empty_subset _) (range_sub_all hall _) le_rfl (Nat.zero_le _) L.zero

theorem RInv.start (c : ℕ) : RInv L c 0 0 0 := by
  unfold RInv
  rw [Nat.sub_zero, Ico_self]
  exact L.zero

theorem ltF_ok {F j : ℕ} (h : ltF F j = .ok true) : j < F := by
  unfold ltF at h
  injection h with h
  exact of_decide_eq_true h

/-- `while (j < F) { for …; for …; }` going through the filter upwards. -/
theorem Rel.whileUp {σ σ' : Type} {fuel : ℕ} {body : ℕ × σ → C (ℕ × σ)}
    {body' : ℕ × σ' → C (ℕ × σ')} {more : ℕ → C Bool} {Inv : ℕ → σ → σ' → Prop}
    (hb : ∀ j s s', Inv j s s' → Rel (fun r r' => r.1 = r'.1 ∧ Inv r'.1 r.2 r'.2)
      (body (j, s)) (body' (j, s')))
    {st : ℕ × σ} {st' : ℕ × σ'} (h1 : st.1 = st'.1) (h : Inv st'.1 st.2 st'.2) :
    Rel (fun r r' => (r.1 = r'.1 ∧ Inv r'.1 r.2 r'.2) ∧ more r'.1 = .ok false)
      (Pywt.loop (fun s => more s.1) body fuel st) (Pywt.loop (fun s => more s.1) body' fuel st') := by
  refine Rel.loop (I := fun (r : ℕ × σ) (r' : ℕ × σ') => r.1 = r'.1 ∧ Inv r'.1 r.2 r'.2)
    ?_ ?_ _ _ _ ⟨h1, h⟩
  · rintro ⟨j, s⟩ ⟨j', s'⟩ ⟨h1, h2⟩
    simp only at h1 ⊢
    rw [h1]
  · rintro ⟨j, s⟩ ⟨j', s'⟩ ⟨h1, h2⟩ _
    simp only at h1 h2
    subst h1
    exact hb j s s' h2

/-- The `tmp`-carrying loops of antireflect mode. -/
theorem Rel.forTmp {K fuel N : ℕ} (e : Edge L K) (hf : Taps L 0 f f') {more : ℕ → C Bool}
    {val : ℕ → C M} {val' : ℕ → C M'} {idx : ℕ → C ℕ} {Inv : ℕ → M → M' → Prop} {r0 : ℕ}
    (hv : ∀ k, Rel (e.E (r0 + 1)) (val k) (val' k))
    (hstep : ∀ j l s s' p p', more j = .ok true → idx j = .ok l → l < f'.length → Inv j s s' →
      L.T (0 + l) p p' → Inv (j + 1) (s + p) (s' + p'))
    (hK : ∀ j l, more j = .ok true → idx j = .ok l → l < f'.length → j < K)
    {j j' : ℕ} {tmp sum : M} {tmp' sum' : M'} (hj : j = j') (hr0 : r0 ≤ j')
    (ht : ∃ r ≤ j', e.E r tmp tmp') (hi : Inv j' sum sum') :
    Rel (fun a b => a.1 = b.1 ∧ (∃ r ≤ b.1, e.E r a.2.1 b.2.1) ∧ Inv b.1 a.2.2 b.2.2)
      (Pywt.forTmp fuel N more val idx f (j, tmp, sum))
      (Pywt.forTmp fuel N more val' idx f' (j', tmp', sum')) := by
  unfold Pywt.forTmp
  refine Rel.bind (Q := fun a b => (a.1 = b.1 ∧ a.2.1 = b.2.1 ∧ r0 ≤ b.2.1 ∧
    (∃ r ≤ b.2.1, e.E r a.2.2.1 b.2.2.1) ∧ Inv b.2.1 a.2.2.2 b.2.2.2) ∧ _)
    (Rel.loop ?_ ?_ _ _ _ ?_) ?_
  · rintro ⟨k, j, t, s⟩ ⟨k', j', t', s'⟩ ⟨h1, h2, h3⟩
    simp only at h1 h2 ⊢
    rw [h1, h2]
  · rintro ⟨k, j, t, s⟩ ⟨k', j', t', s'⟩ ⟨h1, h2, h3, h4, h5⟩ hc
    simp only at h1 h2 h3 h4 h5 hc ⊢
    subst h1 h2
    have hm : more j = .ok true := by
      split_ifs at hc with hk
      · exact hc
      · cases hc
    refine Rel.bind (hv k) fun v v' hvv => Rel.same fun l hl => Rel.bind (hf.rd l) fun a a' ha => ?_
    have hjK := hK j l hm hl ha.1
    exact Rel.pure ⟨rfl, rfl, h3.trans (Nat.le_succ _), ⟨r0 + 1, Nat.succ_le_succ h3, hvv⟩,
      hstep j l s s' _ _ hm hl ha.1 h5 (ha.2 _ _ (e.value (by omega) hvv))⟩
  · exact ⟨rfl, hj, hr0, ht, hi⟩
  · rintro ⟨k, j, t, s⟩ ⟨k', j', t', s'⟩ ⟨⟨h1, h2, h3, h4, h5⟩, _⟩
    exact Rel.pure ⟨h2, h4, h5⟩

/-- The two rounds of the `while` loop of antireflect mode. -/
theorem Rel.whileTmp {K fuel N : ℕ} (e : Edge L K) (hf : Taps L 0 f f') {more : ℕ → C Bool}
    {val1 val2 : M → ℕ → C M} {val1' val2' : M' → ℕ → C M'} {idx : ℕ → C ℕ} {Inv : ℕ → M → M' → Prop}
    (hv1 : ∀ r le le', e.E r le le' → ∀ k, Rel (e.E (r + 1)) (val1 le k) (val1' le' k))
    (hv2 : ∀ r le le', e.E r le le' → ∀ k, Rel (e.E (r + 1)) (val2 le k) (val2' le' k))
    (hstep : ∀ j l s s' p p', more j = .ok true → idx j = .ok l → l < f'.length → Inv j s s' →
      L.T (0 + l) p p' → Inv (j + 1) (s + p) (s' + p'))
    (hK : ∀ j l, more j = .ok true → idx j = .ok l → l < f'.length → j < K)
    {j j' : ℕ} {le sum : M} {le' sum' : M'} (hj : j = j') (hle : e.E 0 le le') (hi : Inv j' sum sum') :
    Rel (fun a b => a.1 = b.1 ∧ Inv b.1 a.2.2.2 b.2.2.2 ∧ more b.1 = .ok false)
      (Pywt.loop (σ := ℕ × M × M × M) (fun s => more s.1) (fun s => do
        let a ← Pywt.forTmp fuel N more (val1 s.2.1) idx f (s.1, s.2.2.1, s.2.2.2)
        let b ← Pywt.forTmp fuel N more (val2 a.2.1) idx f (a.1, a.2.1, a.2.2)
        Pure.pure (b.1, b.2.1, b.2.1, b.2.2)) fuel (j, le, 0, sum))
      (Pywt.loop (σ := ℕ × M' × M' × M') (fun s => more s.1) (fun s => do
        let a ← Pywt.forTmp fuel N more (val1' s.2.1) idx f' (s.1, s.2.2.1, s.2.2.2)
        let b ← Pywt.forTmp fuel N more (val2' a.2.1) idx f' (a.1, a.2.1, a.2.2)
        Pure.pure (b.1, b.2.1, b.2.1, b.2.2)) fuel (j', le', 0, sum')) := by
  refine Rel.mono (Rel.loop (I := fun (a : ℕ × M × M × M) (b : ℕ × M' × M' × M') => a.1 = b.1 ∧
    (∃ r ≤ b.1, e.E r a.2.1 b.2.1) ∧ (∃ r ≤ b.1, e.E r a.2.2.1 b.2.2.1) ∧ Inv b.1 a.2.2.2 b.2.2.2)
    ?_ ?_ _ _ _ ?_) ?_
  · rintro ⟨j, l, t, s⟩ ⟨j', l', t', s'⟩ ⟨h1, h2⟩
    simp only at h1 ⊢
    rw [h1]
  · rintro ⟨j, l, t, s⟩ ⟨j', l', t', s'⟩ ⟨h1, ⟨r, hr, h2⟩, h3, h4⟩ _
    simp only at h1 hr h2 h3 h4
    refine Rel.bind (Rel.forTmp e hf (hv1 r l l' h2) hstep hK h1 hr h3 h4) ?_
    rintro ⟨j1, t1, s1⟩ ⟨j1', t1', s1'⟩ ⟨g1, ⟨r1, hr1, g2⟩, g3⟩
    simp only at g1 hr1 g2 g3
    refine Rel.bind (Rel.forTmp e hf (hv2 r1 t1 t1' g2) hstep hK g1 hr1 ⟨r1, hr1, g2⟩ g3) ?_
    rintro ⟨j2, t2, s2⟩ ⟨j2', t2', s2'⟩ ⟨k1, k2, k3⟩
    exact Rel.pure ⟨k1, k2, k2, k3⟩
  · exact ⟨hj, ⟨0, Nat.zero_le _, hle⟩, ⟨0, Nat.zero_le _, e.zero⟩, hi⟩
  · rintro ⟨j, l, t, s⟩ ⟨j', l', t', s'⟩ ⟨⟨h1, h2, h3, h4⟩, h5⟩
    exact ⟨h1, h4, h5⟩

/-- Adding the product with tap `j`. -/
theorem Rel.stepUp (hf : Taps L 0 f f') {d j : ℕ} (hd : 1 ≤ d) {s : M} {s' : M'}
    (h : JInv L f'.length j s s') {c : C M} {c' : C M'}
    (hc : Rel (fun p p' => j < f'.length ∧ L.T (0 + j) p p') c c') :
    Rel (fun v v' => JInv L f'.length (j + d) (s + v) (s' + v')) c c' :=
  hc.mono fun _ _ hp => h.step hf.mem hd hp.1 hp.2

/-- Adding the product with tap `i-N-j`. -/
theorem Rel.stepDown (hf : Taps L 0 f f') {i N j : ℕ} {s : M} {s' : M'}
    (h : RInv L (i + 1 - N) j s s') {c : ℕ → C M} {c' : ℕ → C M'}
    (hc : ∀ l, Rel (fun p p' => l < f'.length ∧ L.T (0 + l) p p') (c l) (c' l)) :
    Rel (fun v v' => RInv L (i + 1 - N) (j + 1) (s + v) (s' + v'))
      (do c (← sub3 i N j)) (do c' (← sub3 i N j)) := by
  refine Rel.same fun l hl => (hc l).mono fun _ _ hp => ?_
  obtain ⟨h1, h2⟩ := sub3_ok hl
  exact h.step hf.mem h1 h2 hp.1 hp.2

theorem Rel.negProd {j : ℕ} {c : C M} {c' : C M'}
    (hc : Rel (fun p p' => j < f'.length ∧ L.T (0 + j) p p') c c') :
    Rel (fun p p' => j < f'.length ∧ L.T (0 + j) p p') (do Pure.pure (-(← c))) (do Pure.pure (-(← c'))) :=
  Rel.bind hc fun _ _ hp => Rel.pure ⟨hp.1, L.neg hp.2⟩

variable {fuel K : ℕ} {mode : Mode}

theorem Rel.leftSwitch (hf : Taps L 0 f f') (hx : List.Forall₂ L.X x x')
    (he : mode = .smooth ∨ mode = .antireflect → Nonempty (Edge L K)) (hK : f'.length ≤ K)
    {st : ℕ × M} {st' : ℕ × M'} (h1 : st.1 = st'.1) (h : JInv L f'.length st'.1 st.2 st'.2) :
    Rel (fun r r' => r.1 = r'.1 ∧ JInv L f'.length r'.1 r.2 r'.2)
      (Pywt.leftSwitch fuel mode x f st) (Pywt.leftSwitch fuel mode x' f' st') := by
  have hp := fun j k => Rel.prod hf hx j k
  have hr := fun j k => Rel.prodRev hf hx j k
  cases mode with
  | zero => exact Rel.pure ⟨h1, h⟩
  | periodization => exact Rel.pure ⟨h1, h⟩
  | symmetric =>
    simp only [Pywt.leftSwitch, hx.length_eq, hf.len]
    refine (Rel.whileUp (Inv := JInv L f'.length) (fun j s s' hi => ?_) h1 h).mono fun _ _ hq => hq.1
    refine Rel.bind (Rel.forKJ (Inv := JInv L f'.length)
      (fun j k s s' _ hi => Rel.stepUp hf le_rfl hi (hp j k)) rfl hi) ?_
    rintro a b ⟨ha, hb⟩
    exact Rel.forKJ (Inv := JInv L f'.length)
      (fun j k s s' _ hi => Rel.stepUp hf le_rfl hi (hr j k)) ha hb
  | antisymmetric =>
    simp only [Pywt.leftSwitch, hx.length_eq, hf.len]
    refine (Rel.whileUp (Inv := JInv L f'.length) (fun j s s' hi => ?_) h1 h).mono fun _ _ hq => hq.1
    refine Rel.bind (Rel.forKJ (Inv := JInv L f'.length)
      (fun j k s s' _ hi => Rel.stepUp hf le_rfl hi (Rel.negProd (hp j k))) rfl hi) ?_
    rintro a b ⟨ha, hb⟩
    exact Rel.forKJ (Inv := JInv L f'.length)
      (fun j k s s' _ hi => Rel.stepUp hf le_rfl hi (hr j k)) ha hb
  | reflect =>
    simp only [Pywt.leftSwitch, hx.length_eq, hf.len]
    refine (Rel.whileUp (Inv := JInv L f'.length) (fun j s s' hi => ?_) h1 h).mono fun _ _ hq => hq.1
    refine Rel.bind (Rel.forKJ (Inv := JInv L f'.length)
      (fun j k s s' _ hi => Rel.stepUp hf le_rfl hi (hp j k)) rfl hi) ?_
    rintro a b ⟨ha, hb⟩
    exact Rel.forKJ (Inv := JInv L f'.length)
      (fun j k s s' _ hi => Rel.stepUp hf le_rfl hi (hr j k)) ha hb
  | periodic =>
    simp only [Pywt.leftSwitch, hx.length_eq, hf.len]
    refine (Rel.whileUp (Inv := JInv L f'.length) (fun j s s' hi => ?_) h1 h).mono fun _ _ hq => hq.1
    exact Rel.forKJ (Inv := JInv L f'.length)
      (fun j k s s' _ hi => Rel.stepUp hf le_rfl hi (hr j k)) rfl hi
  | constant =>
    simp only [Pywt.leftSwitch, hx.length_eq, hf.len]
    exact Rel.forJ (Inv := JInv L f'.length)
      (fun j s s' _ hi => Rel.stepUp hf le_rfl hi (hp j 0)) h1 h
  | smooth =>
    obtain ⟨e⟩ := he (Or.inl rfl)
    simp only [Pywt.leftSwitch, hx.length_eq, hf.len]
    refine Rel.bind (Q := fun a b => (a.1 = b.1 ∧ a.2.1 = b.2.1 ∧ b.1 ≤ b.2.1 + 1 ∧
      JInv L f'.length b.2.1 a.2.2 b.2.2) ∧ _) (Rel.loop ?_ ?_ _ _ _ ?_) ?_
    · rintro ⟨k, j, s⟩ ⟨k', j', s'⟩ ⟨h1, h2, h3⟩
      simp only at h2 ⊢
      rw [h2]
    · rintro ⟨k, j, s⟩ ⟨k', j', s'⟩ ⟨h1, h2, h3, h4⟩ hc
      simp only at h1 h2 h3 h4 hc ⊢
      subst h1 h2
      refine Rel.bind (hf.rd j) fun a a' ha => Rel.bind (Rel.rd hx 0) fun b b' hb =>
        Rel.bind (Rel.rd hx 1) fun c c' hc => ?_
      have := ha.1
      exact Rel.pure ⟨rfl, rfl, by simp only; omega, h4.step hf.mem le_rfl ha.1
        (ha.2 _ _ (e.smooth (by omega) hb hc))⟩
    · exact ⟨rfl, h1, by simp, h⟩
    · rintro ⟨k, j, s⟩ ⟨k', j', s'⟩ ⟨⟨h1, h2, h3, h4⟩, _⟩
      exact Rel.pure ⟨h2, h4⟩
  | antireflect =>
    obtain ⟨e⟩ := he (Or.inr rfl)
    simp only [Pywt.leftSwitch, hx.length_eq, hf.len]
    refine Rel.bind (Rel.rd hx 0) fun le le' hle => ?_
    refine Rel.bind (Rel.whileTmp e hf (Inv := JInv L f'.length)
      (val1 := fun le k => do
        let b ← Pywt.rd x k
        let c ← Pywt.rd x 0
        Pure.pure (le - (b - c)))
      (val2 := fun le k => do
        let b ← Pywt.rdRev x k
        let c ← Pywt.rdRev x 0
        Pure.pure (le + (b - c)))
      (val1' := fun le k => do
        let b ← Pywt.rd x' k
        let c ← Pywt.rd x' 0
        Pure.pure (le - (b - c)))
      (val2' := fun le k => do
        let b ← Pywt.rdRev x' k
        let c ← Pywt.rdRev x' 0
        Pure.pure (le + (b - c))) ?_ ?_ ?_ ?_ h1 (e.edge hle) h) ?_
    · intro r le le' hle k
      exact Rel.bind (Rel.rd hx k) fun b b' hb => Rel.bind (Rel.rd hx 0) fun c c' hc =>
        Rel.pure (e.sub hle hb hc)
    · intro r le le' hle k
      exact Rel.bind (Rel.rdRev hx k) fun b b' hb => Rel.bind (Rel.rdRev hx 0) fun c c' hc =>
        Rel.pure (e.add hle hb hc)
    · rintro j l s s' p p' hm ⟨⟩ hl hi ht
      exact hi.step hf.mem le_rfl hl ht
    · rintro j l hm ⟨⟩ hl
      omega
    · rintro a b ⟨h1, h2, _⟩
      exact Rel.pure ⟨h1, h2⟩

theorem Rel.rightSwitch (hf : Taps L 0 f f') (hx : List.Forall₂ L.X x x')
    (he : mode = .smooth ∨ mode = .antireflect → Nonempty (Edge L K)) (hK : f'.length ≤ K) {i : ℕ}
    (hi : i < x'.length + f'.length) :
    Rel (fun r r' => r.1 = r'.1 ∧ JInv L f'.length r'.1 r.2 r'.2)
      (Pywt.rightSwitch fuel mode x f i) (Pywt.rightSwitch fuel mode x' f' i) := by
  have hp := fun k l => Rel.prod hf hx l k
  have hr := fun k l => Rel.prodRev hf hx l k
  have hs := RInv.start (L := L) (i + 1 - x'.length)
  cases mode with
  | zero =>
    simp only [Pywt.rightSwitch, hx.length_eq]
    exact Rel.same fun d hd => Rel.pure ⟨rfl, JInv.start _ hf.mem _⟩
  | periodization =>
    simp only [Pywt.rightSwitch, hx.length_eq]
    exact Rel.same fun d hd => Rel.pure ⟨rfl, JInv.start _ hf.mem _⟩
  | symmetric =>
    simp only [Pywt.rightSwitch, hx.length_eq]
    refine (Rel.whileUp (Inv := RInv L (i + 1 - x'.length)) (fun j s s' hi => ?_) rfl hs).mono
      fun _ _ hq => ⟨hq.1.1, hq.1.2.done hf.mem hq.2 hi⟩
    refine Rel.bind (Rel.forKJ (Inv := RInv L (i + 1 - x'.length))
      (fun j k s s' _ hi => Rel.stepDown hf hi (hr k)) rfl hi) ?_
    rintro a b ⟨ha, hb⟩
    exact Rel.forKJ (Inv := RInv L (i + 1 - x'.length))
      (fun j k s s' _ hi => Rel.stepDown hf hi (hp k)) ha hb
  | antisymmetric =>
    simp only [Pywt.rightSwitch, hx.length_eq]
    refine (Rel.whileUp (Inv := RInv L (i + 1 - x'.length)) (fun j s s' hi => ?_) rfl hs).mono
      fun _ _ hq => ⟨hq.1.1, hq.1.2.done hf.mem hq.2 hi⟩
    refine Rel.bind (Rel.forKJ (Inv := RInv L (i + 1 - x'.length))
      (fun j k s s' _ hi => ?_) rfl hi) ?_
    · exact Rel.stepDown hf hi (fun l => Rel.negProd (hr k l))
    rintro a b ⟨ha, hb⟩
    exact Rel.forKJ (Inv := RInv L (i + 1 - x'.length))
      (fun j k s s' _ hi => Rel.stepDown hf hi (hp k)) ha hb
  | reflect =>
    simp only [Pywt.rightSwitch, hx.length_eq]
    refine (Rel.whileUp (Inv := RInv L (i + 1 - x'.length)) (fun j s s' hi => ?_) rfl hs).mono
      fun _ _ hq => ⟨hq.1.1, hq.1.2.done hf.mem hq.2 hi⟩
    refine Rel.bind (Rel.forKJ (Inv := RInv L (i + 1 - x'.length))
      (fun j k s s' _ hi => Rel.stepDown hf hi (hr k)) rfl hi) ?_
    rintro a b ⟨ha, hb⟩
    exact Rel.forKJ (Inv := RInv L (i + 1 - x'.length))
      (fun j k s s' _ hi => Rel.stepDown hf hi (hp k)) ha hb
  | periodic =>
    simp only [Pywt.rightSwitch, hx.length_eq]
    refine (Rel.whileUp (Inv := RInv L (i + 1 - x'.length)) (fun j s s' hi => ?_) rfl hs).mono
      fun _ _ hq => ⟨hq.1.1, hq.1.2.done hf.mem hq.2 hi⟩
    exact Rel.forKJ (Inv := RInv L (i + 1 - x'.length))
      (fun j k s s' _ hi => Rel.stepDown hf hi (hp k)) rfl hi
  | constant =>
    simp only [Pywt.rightSwitch, hx.length_eq]
    exact Rel.forJ (Inv := JInv L f'.length)
      (fun j s s' _ hi => Rel.stepUp hf le_rfl hi (hr 0 j)) rfl
      (JInv.start _ hf.mem _)
  | smooth =>
    obtain ⟨e⟩ := he (Or.inl rfl)
    simp only [Pywt.rightSwitch, hx.length_eq]
    refine Rel.same fun k0 hk0 => ?_
    obtain ⟨_, hk0⟩ := sub_ok hk0
    refine Rel.bind (Q := fun a b => (a.1 = b.1 ∧ a.2.1 = b.2.1 ∧ b.1 ≤ K ∧
      JInv L f'.length b.2.1 a.2.2 b.2.2) ∧ _) (Rel.loop ?_ ?_ _ _ _ ?_) ?_
    · rintro ⟨k, j, s⟩ ⟨k', j', s'⟩ ⟨h1, h2, h3⟩
      simp only at h2 ⊢
      rw [h2]
    · rintro ⟨k, j, s⟩ ⟨k', j', s'⟩ ⟨h1, h2, h3, h4⟩ hc
      simp only at h1 h2 h3 h4 hc ⊢
      subst h1 h2
      refine Rel.bind (hf.rd j) fun a a' ha => Rel.bind (Rel.rdRev hx 0) fun b b' hb =>
        Rel.bind (Rel.rdRev hx 1) fun c c' hc => Rel.same fun m hm => ?_
      have := ha.1
      have := sub_ok hm
      exact Rel.pure ⟨rfl, rfl, by simp only; omega, h4.step hf.mem le_rfl ha.1
        (ha.2 _ _ (e.smooth h3 hb hc))⟩
    · exact ⟨rfl, rfl, by simp only; omega, JInv.start _ hf.mem _⟩
    · rintro ⟨k, j, s⟩ ⟨k', j', s'⟩ ⟨⟨h1, h2, h3, h4⟩, _⟩
      exact Rel.pure ⟨h2, h4⟩
  | antireflect =>
    obtain ⟨e⟩ := he (Or.inr rfl)
    simp only [Pywt.rightSwitch, hx.length_eq]
    refine Rel.bind (Rel.rdRev hx 0) fun le le' hle => ?_
    refine Rel.bind (Rel.whileTmp e hf (Inv := RInv L (i + 1 - x'.length))
      (val1 := fun le k => do
        let b ← Pywt.rdRev x k
        let c ← Pywt.rdRev x 0
        Pure.pure (le - (b - c)))
      (val2 := fun le k => do
        let b ← Pywt.rd x k
        let c ← Pywt.rd x 0
        Pure.pure (le + (b - c)))
      (val1' := fun le k => do
        let b ← Pywt.rdRev x' k
        let c ← Pywt.rdRev x' 0
        Pure.pure (le - (b - c)))
      (val2' := fun le k => do
        let b ← Pywt.rd x' k
        let c ← Pywt.rd x' 0
        Pure.pure (le + (b - c))) ?_ ?_ ?_ ?_ rfl
      (e.edge hle) hs) ?_
    · intro r le le' hle k
      exact Rel.bind (Rel.rdRev hx k) fun b b' hb => Rel.bind (Rel.rdRev hx 0) fun c c' hc =>
        Rel.pure (e.sub hle hb hc)
    · intro r le le' hle k
      exact Rel.bind (Rel.rd hx k) fun b b' hb => Rel.bind (Rel.rd hx 0) fun c c' hc =>
        Rel.pure (e.add hle hb hc)
    · intro j l s s' p p' hm hl hlt hi ht
      obtain ⟨h1, h2⟩ := sub3_ok hl
      exact hi.step hf.mem h1 h2 hlt ht
    · intro j l hm hl hlt
      obtain ⟨h1, h2⟩ := sub3_ok hl
      omega
    · rintro a b ⟨h1, h2, h3⟩
      exact Rel.pure ⟨h1, h2.done hf.mem h3 hi⟩

/-- The loop over the outputs. -/
theorem Rel.forOut {Q : M → M' → Prop} {fuel step : ℕ} {cond : ℕ → Bool} {sumAt : ℕ → C M}
    {sumAt' : ℕ → C M'} (hs : ∀ i, cond i = true → Rel Q (sumAt i) (sumAt' i))
    {st : ℕ × ℕ × List M} {st' : ℕ × ℕ × List M'}
    (h : st.1 = st'.1 ∧ st.2.1 = st'.2.1 ∧ List.Forall₂ Q st.2.2 st'.2.2) :
    Rel (fun a b => a.1 = b.1 ∧ a.2.1 = b.2.1 ∧ List.Forall₂ Q a.2.2 b.2.2)
      (Pywt.forOut fuel step cond sumAt st) (Pywt.forOut fuel step cond sumAt' st') := by
  unfold Pywt.forOut
  refine Rel.mono (Rel.loop (I := fun (a : ℕ × ℕ × List M) (b : ℕ × ℕ × List M') =>
    a.1 = b.1 ∧ a.2.1 = b.2.1 ∧ List.Forall₂ Q a.2.2 b.2.2) ?_ ?_ _ _ _ h) fun _ _ hq => hq.1
  · rintro ⟨i, o, out⟩ ⟨i', o', out'⟩ ⟨h1, h2, h3⟩
    simp only at h1 ⊢
    rw [h1]
  · rintro ⟨i, o, out⟩ ⟨i', o', out'⟩ ⟨h1, h2, h3⟩ hc
    simp only at h1 h2 h3 hc ⊢
    subst h1 h2
    injection hc with hc
    exact Rel.bind (hs i hc) fun v v' hv => Rel.bind (Rel.wr h3 o hv) fun w w' hw =>
      Rel.pure ⟨rfl, rfl, hw⟩

theorem JInv.final (hf : Taps L 0 f f') {j : ℕ} {s : M} {s' : M'} (h : JInv L f'.length j s s') :
    L.S 0 (range f'.length) s s' := by
  refine L.mono (range_subset_range.mpr (min_le_right _ _)) ?_ le_rfl (Nat.zero_le _) h
  have := range_sub_all hf.mem f'.length
  rwa [min_self] at this

theorem Rel.dsConvBody {fuel step : ℕ} (hf : Taps L 0 f f') (hx : List.Forall₂ L.X x x')
    (he : mode = .smooth ∨ mode = .antireflect → Nonempty (Edge L f'.length))
    {out : List M} {out' : List M'} (ho : List.Forall₂ (L.S 0 (range f'.length)) out out') :
    Rel (List.Forall₂ (L.S 0 (range f'.length))) (Pywt.dsConvBody fuel x f out step mode)
      (Pywt.dsConvBody fuel x' f' out' step mode) := by
  have hp := fun j k => Rel.prod hf hx j k
  have hz := JInv.start (L := L) f'.length hf.mem
  simp only [Pywt.dsConvBody, hx.length_eq, hf.len]
  generalize hmd : (if mode = .smooth ∧ x'.length < 2 then Mode.constant else mode) = md
  have hem : md = .smooth ∨ md = .antireflect → Nonempty (Edge L f'.length) := by
    intro h
    apply he
    split_ifs at hmd with h2
    · subst hmd; rcases h with h | h <;> cases h
    · rw [hmd]; exact h
  have hterm : ∀ i j d (s : M) (s' : M'), 1 ≤ d → JInv L f'.length j s s' →
      Rel (fun v v' => JInv L f'.length (j + d) (s + v) (s' + v'))
        (do Pywt.prod f j x (← sub i j)) (do Pywt.prod f' j x' (← sub i j)) := by
    intro i j d s s' hd hi
    exact Rel.same fun k hk => Rel.stepUp hf hd hi (hp j k)
  refine Rel.same fun i0 _ => ?_
  refine Rel.bind (Rel.forOut (Q := L.S 0 (range f'.length)) ?_ ⟨rfl, rfl, ho⟩) fun st1 st1' h1 => ?_
  · intro i hi
    refine Rel.bind (Rel.forJ (Inv := JInv L f'.length)
      (fun j s s' _ h => hterm i j 1 s s' le_rfl h) rfl (hz 0)) ?_
    rintro a b ⟨ha, hb⟩
    exact Rel.bind (Rel.leftSwitch hf hx hem le_rfl ha hb) fun c d hcd => Rel.pure (hcd.2.final hf)
  refine Rel.bind (Rel.forOut (Q := L.S 0 (range f'.length)) ?_ h1) fun st2 st2' h2 => ?_
  · intro i hi
    refine Rel.bind (Rel.forJ (Inv := JInv L f'.length)
      (fun j s s' _ h => hterm i j 1 s s' le_rfl h) rfl (hz 0)) ?_
    rintro a b ⟨ha, hb⟩
    exact Rel.pure (hb.final hf)
  refine Rel.bind (Rel.forOut (Q := L.S 0 (range f'.length)) ?_ h2) fun st3 st3' h3 => ?_
  · intro i hi
    have hi := of_decide_eq_true hi
    refine Rel.bind (Rel.rightSwitch hf hx hem le_rfl (by omega)) ?_
    rintro a b ⟨ha, hb⟩
    refine Rel.bind (Rel.forJ (Inv := JInv L f'.length)
      (fun j s s' _ h => hterm i j 1 s s' le_rfl h) ha hb) ?_
    rintro c d ⟨hc, hd⟩
    exact Rel.bind (Rel.leftSwitch hf hx hem le_rfl hc hd) fun c d hcd => Rel.pure (hcd.2.final hf)
  refine Rel.same fun lim hlim => ?_
  refine Rel.bind (Rel.forOut (Q := L.S 0 (range f'.length)) ?_ h3) fun st4 st4' h4 => ?_
  · intro i hi
    have hi := of_decide_eq_true hi
    have := sub_ok hlim
    refine Rel.bind (Rel.rightSwitch hf hx hem le_rfl (by omega)) ?_
    rintro a b ⟨ha, hb⟩
    refine Rel.bind (Rel.forJ (Inv := JInv L f'.length)
      (fun j s s' _ h => hterm i j 1 s s' le_rfl h) ha hb) ?_
    rintro c d ⟨hc, hd⟩
    exact Rel.pure (hd.final hf)
  exact Rel.pure h4.2.2

theorem Rel.perLeft {fuel padding fstep kStart : ℕ} (hs : 1 ≤ fstep) (hf : Taps L 0 f f')
    (hx : List.Forall₂ L.X x x') {st : ℕ × M} {st' : ℕ × M'} (h1 : st.1 = st'.1)
    (h : JInv L f'.length st'.1 st.2 st'.2) :
    Rel (fun r r' => r.1 = r'.1 ∧ JInv L f'.length r'.1 r.2 r'.2)
      (Pywt.perLeft fuel padding fstep kStart x f st)
      (Pywt.perLeft fuel padding fstep kStart x' f' st') := by
  have hr := fun j k => Rel.prodRev hf hx j k
  simp only [Pywt.perLeft, hx.length_eq, hf.len]
  refine (Rel.whileUp (Inv := JInv L f'.length) (fun j s s' hi => ?_) h1 h).mono fun _ _ hq => hq.1
  refine Rel.bind (Rel.forKJ (Inv := JInv L f'.length)
      (fun j k s s' _ hi => Rel.stepUp hf hs hi (hr j 0)) rfl hi) ?_
  rintro a b ⟨ha, hb⟩
  exact Rel.forKJ (Inv := JInv L f'.length)
      (fun j k s s' _ hi => Rel.stepUp hf hs hi (hr j k)) ha hb

theorem Rel.perRight {fuel padding i : ℕ} (hf : Taps L 0 f f')
    (hx : List.Forall₂ L.X x x') (hi : i < x'.length + f'.length) :
    Rel (fun r r' => r.1 = r'.1 ∧ JInv L f'.length r'.1 r.2 r'.2)
      (Pywt.perRight fuel padding x f i) (Pywt.perRight fuel padding x' f' i) := by
  have hp := fun k l => Rel.prod hf hx l k
  have hr := fun k l => Rel.prodRev hf hx l k
  have hs := RInv.start (L := L) (i + 1 - x'.length)
  simp only [Pywt.perRight, hx.length_eq]
  refine (Rel.whileUp (Inv := RInv L (i + 1 - x'.length)) (fun j s s' hi => ?_) rfl hs).mono
    fun _ _ hq => ⟨hq.1.1, hq.1.2.done hf.mem hq.2 hi⟩
  refine Rel.bind (Rel.forKJ (Inv := RInv L (i + 1 - x'.length))
      (fun j k s s' _ hi => Rel.stepDown hf hi (hr 0)) rfl hi) ?_
  rintro a b ⟨ha, hb⟩
  exact Rel.forKJ (Inv := RInv L (i + 1 - x'.length))
      (fun j k s s' _ hi => Rel.stepDown hf hi (hp k)) ha hb

theorem Rel.perAlign (hf : Taps L 0 f f') {fstep : ℕ} {st : ℕ × M} {st' : ℕ × M'}
    (h1 : st.1 = st'.1) (h : JInv L f'.length st'.1 st.2 st'.2) :
    Rel (fun r r' => r.1 = r'.1 ∧ JInv L f'.length r'.1 r.2 r'.2)
      (Pywt.perAlign fstep st) (Pywt.perAlign fstep st') := by
  unfold Pywt.perAlign
  rw [h1]
  refine Rel.ite (fun _ => Rel.same fun d hd => Rel.pure ⟨rfl, ?_⟩) fun _ => Rel.pure ⟨h1, h⟩
  refine L.mono (range_subset_range.mpr ?_) (range_sub_all hf.mem _) le_rfl (Nat.zero_le _) h
  simp only
  omega

theorem Rel.dsConvPer {fuel step fstep : ℕ} (hs : 1 ≤ fstep) (hf : Taps L 0 f f')
    (hx : List.Forall₂ L.X x x') {out : List M} {out' : List M'}
    (ho : List.Forall₂ (L.S 0 (range f'.length)) out out') :
    Rel (List.Forall₂ (L.S 0 (range f'.length))) (Pywt.dsConvPer fuel x f out step fstep)
      (Pywt.dsConvPer fuel x' f' out' step fstep) := by
  have hp := fun j k => Rel.prod hf hx j k
  have hz := JInv.start (L := L) f'.length hf.mem
  simp only [Pywt.dsConvPer, hx.length_eq, hf.len]
  have hterm : ∀ i j (s : M) (s' : M'), JInv L f'.length j s s' →
      Rel (fun v v' => JInv L f'.length (j + fstep) (s + v) (s' + v'))
        (do Pywt.prod f j x (← sub i j)) (do Pywt.prod f' j x' (← sub i j)) := by
    intro i j s s' hi
    exact Rel.same fun k hk => Rel.stepUp hf hs hi (hp j k)
  refine Rel.same fun pd _ => ?_
  refine Rel.bind (Rel.forOut (Q := L.S 0 (range f'.length)) ?_ ⟨rfl, rfl, ho⟩) fun st1 st1' h1 => ?_
  · intro i hi
    refine Rel.bind (Rel.forJ (Inv := JInv L f'.length)
      (fun j s s' _ h => hterm i j s s' h) rfl (hz 0)) ?_
    rintro ⟨a, s⟩ ⟨b, s'⟩ ⟨ha, hb⟩
    simp only at ha hb ⊢
    subst ha
    exact Rel.same fun k hk => Rel.bind (Rel.perLeft hs hf hx rfl hb) fun c d hcd =>
      Rel.pure (hcd.2.final hf)
  refine Rel.bind (Rel.forOut (Q := L.S 0 (range f'.length)) ?_ h1) fun st2 st2' h2 => ?_
  · intro i hi
    refine Rel.bind (Rel.forJ (Inv := JInv L f'.length)
      (fun j s s' _ h => hterm i j s s' h) rfl (hz 0)) ?_
    rintro a b ⟨ha, hb⟩
    exact Rel.pure (hb.final hf)
  refine Rel.bind (Rel.forOut (Q := L.S 0 (range f'.length)) ?_ h2) fun st3 st3' h3 => ?_
  · intro i hi
    simp only [Bool.and_eq_true, decide_eq_true_eq] at hi
    refine Rel.bind (Rel.perRight hf hx (by omega)) ?_
    rintro a b ⟨ha, hb⟩
    refine Rel.bind (Rel.perAlign hf ha hb) ?_
    rintro a b ⟨ha, hb⟩
    refine Rel.bind (Rel.forJ (Inv := JInv L f'.length)
      (fun j s s' _ h => hterm i j s s' h) ha hb) ?_
    rintro ⟨a, s⟩ ⟨b, s'⟩ ⟨ha, hb⟩
    simp only at ha hb ⊢
    subst ha
    exact Rel.same fun k hk => Rel.bind (Rel.perLeft hs hf hx rfl hb) fun c d hcd =>
      Rel.pure (hcd.2.final hf)
  refine Rel.bind (Rel.forOut (Q := L.S 0 (range f'.length)) ?_ h3) fun st4 st4' h4 => ?_
  · intro i hi
    have hi := of_decide_eq_true hi
    refine Rel.bind (Rel.perRight hf hx (by
      have := Nat.div_le_self f'.length 2
      omega)) ?_
    rintro a b ⟨ha, hb⟩
    refine Rel.bind (Rel.perAlign hf ha hb) ?_
    rintro a b ⟨ha, hb⟩
    refine Rel.bind (Rel.forJ (Inv := JInv L f'.length)
      (fun j s s' _ h => hterm i j s s' h) ha hb) ?_
    rintro c d ⟨hc, hd⟩
    exact Rel.pure (hd.final hf)
  exact Rel.pure h4.2.2

/-- The downsampling convolution. -/
theorem Rel.dsConv {fuel step : ℕ} (hf : Taps L 0 f f') (hx : List.Forall₂ L.X x x')
    (he : mode = .smooth ∨ mode = .antireflect → Nonempty (Edge L f'.length))
    {out : List M} {out' : List M'} (ho : List.Forall₂ (L.S 0 (range f'.length)) out out') :
    Rel (List.Forall₂ (L.S 0 (range f'.length))) (Pywt.dsConv fuel x f out step mode)
      (Pywt.dsConv fuel x' f' out' step mode) := by
  unfold Pywt.dsConv
  exact Rel.ite (fun _ => Rel.dsConvPer le_rfl hf hx ho) fun _ => Rel.dsConvBody hf hx he ho

end Kernels
end Pywt.Sim
