import Verif.Proof.Sim

/-!
# Running the upsampling kernels in two arithmetics at once
-/

set_option linter.unusedSectionVars false
set_option linter.unusedVariables false
set_option linter.unusedSimpArgs false
set_option autoImplicit false

namespace Pywt.Sim

open Finset

section General
variable {σ σ' : Type}

theorem Rel.forKJs {Inv : ℕ → σ → σ' → Prop} {fuel N k0 : ℕ} {more : ℕ → C Bool}
    {body : ℕ → ℕ → σ → C σ} {body' : ℕ → ℕ → σ' → C σ'}
    (hb : ∀ j k s s', more j = .ok true → Inv j s s' → Rel (Inv (j + 1)) (body j k s) (body' j k s'))
    {st : ℕ × σ} {st' : ℕ × σ'} (h1 : st.1 = st'.1) (h : Inv st'.1 st.2 st'.2) :
    Rel (fun r r' => r.1 = r'.1 ∧ Inv r'.1 r.2 r'.2) (Pywt.forKJs fuel N k0 more body st)
      (Pywt.forKJs fuel N k0 more body' st') := by
  unfold Pywt.forKJs
  refine Rel.bind (Q := fun a b => (a.1 = b.1 ∧ a.2.1 = b.2.1 ∧ Inv b.2.1 a.2.2 b.2.2) ∧ _)
    (Rel.loop ?_ ?_ _ _ _ ?_) ?_
  · rintro ⟨k, j, s⟩ ⟨k', j', s'⟩ ⟨h1, h2, h3⟩
    simp only at h1 h2 ⊢
    rw [h1, h2]
  · rintro ⟨k, j, s⟩ ⟨k', j', s'⟩ ⟨h1, h2, h3⟩ hc
    simp only at h1 h2 h3 hc ⊢
    subst h1 h2
    have hm : more j = .ok true := by
      split_ifs at hc with hk
      · exact hc
      · cases hc
    exact Rel.bind (hb j k s s' hm h3) fun v v' hv => Rel.pure ⟨rfl, rfl, hv⟩
  · exact ⟨rfl, h1, h⟩
  · rintro ⟨k, j, s⟩ ⟨k', j', s'⟩ ⟨⟨h1, h2, h3⟩, _⟩
    exact Rel.pure ⟨h2, h3⟩

theorem Rel.forJs {Inv : ℕ → σ → σ' → Prop} {fuel : ℕ} {more : ℕ → C Bool}
    {body : ℕ → σ → C σ} {body' : ℕ → σ' → C σ'}
    (hb : ∀ j s s', more j = .ok true → Inv j s s' → Rel (Inv (j + 1)) (body j s) (body' j s'))
    {st : ℕ × σ} {st' : ℕ × σ'} (h1 : st.1 = st'.1) (h : Inv st'.1 st.2 st'.2) :
    Rel (fun r r' => r.1 = r'.1 ∧ Inv r'.1 r.2 r'.2) (Pywt.forJs fuel more body st)
      (Pywt.forJs fuel more body' st') := by
  unfold Pywt.forJs
  refine Rel.mono (Rel.loop (I := fun (a : ℕ × σ) (b : ℕ × σ') => a.1 = b.1 ∧ Inv b.1 a.2 b.2)
    ?_ ?_ _ _ _ ⟨h1, h⟩) fun a b hab => hab.1
  · rintro ⟨j, s⟩ ⟨j', s'⟩ ⟨h1, h2⟩
    simp only at h1 ⊢
    rw [h1]
  · rintro ⟨j, s⟩ ⟨j', s'⟩ ⟨h1, h2⟩ hc
    simp only at h1 h2 hc ⊢
    subst h1
    exact Rel.bind (hb j s s' hc h2) fun v v' hv => Rel.pure ⟨rfl, hv⟩

theorem Rel.forUp {M M' : Type} {Inv : ℕ → ℕ → List M → List M' → Prop} {fuel : ℕ} {cond : ℕ → Bool}
    {inner : ℕ → ℕ → List M → C (List M)} {inner' : ℕ → ℕ → List M' → C (List M')}
    (hb : ∀ i o s s', cond i = true → Inv i o s s' →
      Rel (Inv (i + 1) (o + 2)) (inner i o s) (inner' i o s'))
    {st : ℕ × ℕ × List M} {st' : ℕ × ℕ × List M'} (h1 : st.1 = st'.1) (h2 : st.2.1 = st'.2.1)
    (h : Inv st'.1 st'.2.1 st.2.2 st'.2.2) :
    Rel (fun r r' => r.1 = r'.1 ∧ r.2.1 = r'.2.1 ∧ Inv r'.1 r'.2.1 r.2.2 r'.2.2)
      (Pywt.forUp fuel cond inner st) (Pywt.forUp fuel cond inner' st') := by
  unfold Pywt.forUp
  refine Rel.mono (Rel.loop (I := fun (a : ℕ × ℕ × List M) (b : ℕ × ℕ × List M') =>
    a.1 = b.1 ∧ a.2.1 = b.2.1 ∧ Inv b.1 b.2.1 a.2.2 b.2.2) ?_ ?_ _ _ _ ⟨h1, h2, h⟩)
    fun _ _ hq => hq.1
  · rintro ⟨i, o, out⟩ ⟨i', o', out'⟩ ⟨h1, h2, h3⟩
    simp only at h1 ⊢
    rw [h1]
  · rintro ⟨i, o, out⟩ ⟨i', o', out'⟩ ⟨h1, h2, h3⟩ hc
    simp only at h1 h2 h3 hc ⊢
    subst h1 h2
    injection hc with hc
    exact Rel.bind (hb i o out out' hc h3) fun w w' hw => Rel.pure ⟨rfl, rfl, hw⟩

end General

variable {R R' M M' : Type} [Zero M] [Add M] [Neg M] [Sub M] [SMul ℕ M] [SMul R M]
  [Zero M'] [Add M'] [Neg M'] [Sub M'] [SMul ℕ M'] [SMul R' M']

/-- The cells of two output buffers correspond, cell `c` being a sum over the taps `A c`, of `k c` sums. -/
def Cells (L : Link M M') (k : ℕ → ℕ) (A : ℕ → Finset ℕ) (out : List M) (out' : List M') : Prop :=
  out.length = out'.length ∧
    ∀ c v v', out[c]? = some v → out'[c]? = some v' → L.S (k c) (A c) v v'

/-- The even (`p = 0`) or odd (`p = 1`) taps numbered by a set. -/
def half (off p : ℕ) (s : Finset ℕ) : Finset ℕ := s.image fun t => off + (2 * t + p)

theorem mem_half {off p : ℕ} {s : Finset ℕ} {l : ℕ} :
    l ∈ half off p s ↔ ∃ t ∈ s, off + (2 * t + p) = l := by
  simp [half]

theorem half_insert (off p t : ℕ) (s : Finset ℕ) :
    half off p (insert t s) = insert (off + (2 * t + p)) (half off p s) := by
  simp [half, Finset.image_insert]

variable {L : Link M M'} {off : ℕ} {f : List R} {f' : List R'} {x : List M} {x' : List M'}

theorem Cells.mono {k k' : ℕ → ℕ} {A B : ℕ → Finset ℕ} {out : List M} {out' : List M'}
    (h : Cells L k A out out') (hA : ∀ c, A c ⊆ B c) (hB : ∀ c, B c ⊆ L.all) (hk : ∀ c, k c ≤ k' c)
    (hk' : ∀ c, k' c ≤ L.kmax) : Cells L k' B out out' :=
  ⟨h.1, fun c v v' hv hv' => L.mono (hA c) (hB c) (hk c) (hk' c) (h.2 c v v' hv hv')⟩

theorem Cells.addTo {k : ℕ → ℕ} {A : ℕ → Finset ℕ} {out : List M} {out' : List M'}
    (h : Cells L k A out out') {o kk : ℕ} {B : Finset ℕ} {p : M} {p' : M'}
    (hs : ∀ s s', L.S (k o) (A o) s s' → L.S kk B (s + p) (s' + p')) :
    Rel (Cells L (Function.update k o kk) (Function.update A o B)) (Pywt.addTo out o p)
      (Pywt.addTo out' o p') := by
  intro b hb
  unfold Pywt.addTo Pywt.rd Pywt.wr at hb ⊢
  cases ho' : out'[o]? with
  | none => rw [ho'] at hb; cases hb
  | some v' =>
    obtain ⟨hi', hv'⟩ := List.getElem?_eq_some_iff.mp ho'
    have hi : o < out.length := by rw [h.1]; exact hi'
    have ho : out[o]? = some out[o] := List.getElem?_eq_getElem hi
    rw [ho'] at hb
    rw [ho]
    simp only [bind, Except.bind, hi, hi', if_true] at hb ⊢
    cases hb
    refine ⟨_, rfl, by simp [h.1], ?_⟩
    intro c v w hv hw
    by_cases hc : c = o
    · subst hc
      rw [List.getElem?_set_self hi] at hv
      rw [List.getElem?_set_self hi'] at hw
      cases hv; cases hw
      rw [Function.update_self, Function.update_self]
      exact hs _ _ (h.2 c _ _ ho ho')
    · rw [List.getElem?_set_ne (Ne.symm hc)] at hv hw
      rw [Function.update_of_ne hc, Function.update_of_ne hc]
      exact h.2 c v w hv hw

/-- `base` are the taps of an earlier pass. -/
structure Pass (L : Link M M') (off : ℕ) (base : Finset ℕ) (f : List R) (f' : List R') : Prop where
  taps : Taps L off f f'
  base_all : base ⊆ L.all
  disj : ∀ l < f'.length, off + l ∉ base

/-- The cells `oe`, `oo` have received the products with the taps `2t`, `2t+1`, `t ∈ s`; the others are as `A` says. -/
def Pair (L : Link M M') (off : ℕ) (base : Finset ℕ) (k : ℕ) (A : ℕ → Finset ℕ) (oe oo : ℕ)
    (s : Finset ℕ) (out : List M) (out' : List M') : Prop :=
  Cells L (fun _ => k) (fun c => if c = oe then base ∪ half off 0 s else
    if c = oo then base ∪ half off 1 s else A c) out out'

variable {base : Finset ℕ} {k : ℕ} {A : ℕ → Finset ℕ} {oe oo : ℕ}

theorem half_all (hf : Pass L off base f f') {p : ℕ} (hp : p < 2) {s : Finset ℕ}
    (hs : s ⊆ range (f'.length / 2)) : base ∪ half off p s ⊆ L.all := by
  refine Finset.union_subset hf.base_all fun l hl => ?_
  obtain ⟨t, ht, rfl⟩ := mem_half.mp hl
  have := mem_range.mp (hs ht)
  exact hf.taps.mem _ (by omega)

theorem Pair.mono (hf : Pass L off base f f') (hk : k ≤ L.kmax) (hA : ∀ c, A c ⊆ L.all)
    {s t : Finset ℕ} {out : List M} {out' : List M'} (h : Pair L off base k A oe oo s out out')
    (hst : s ⊆ t) (ht : t ⊆ range (f'.length / 2)) : Pair L off base k A oe oo t out out' := by
  refine Cells.mono h (fun c => ?_) (fun c => ?_) (fun _ => le_rfl) (fun _ => hk)
  · split_ifs
    · exact Finset.union_subset_union_right (Finset.image_subset_image hst)
    · exact Finset.union_subset_union_right (Finset.image_subset_image hst)
    · exact subset_rfl
  · split_ifs
    · exact half_all hf (by omega) ht
    · exact half_all hf (by omega) ht
    · exact hA c

theorem Rel.acc2 (hf : Pass L off base f f') (hx : List.Forall₂ L.X x x') (hne : oe ≠ oo)
    {s : Finset ℕ} {j kk : ℕ} (hj : j ∉ s) {out : List M} {out' : List M'}
    (h : Pair L off base k A oe oo s out out') :
    Rel (fun r r' => j < f'.length / 2 ∧ Pair L off base k A oe oo (insert j s) r r')
      (Pywt.acc2 f x oe oo j kk out) (Pywt.acc2 f' x' oe oo j kk out') := by
  have hnot : ∀ p < 2, ∀ l < f'.length, l = 2 * j + p → off + l ∉ base ∪ half off p s := by
    rintro p hp l hl rfl hmem
    rcases Finset.mem_union.mp hmem with hm | hm
    · exact hf.disj _ hl hm
    · obtain ⟨t, ht, he⟩ := mem_half.mp hm
      have : t = j := by omega
      exact hj (this ▸ ht)
  unfold Pywt.acc2
  refine Rel.bind (Rel.prod hf.taps hx (2 * j) kk) fun a a' ha => ?_
  refine Rel.bind (Cells.addTo h (o := oe) (kk := k)
    (B := insert (off + 2 * j) (base ∪ half off 0 s)) ?_) fun o1 o1' h1 => ?_
  · intro s s' hs
    rw [if_pos rfl] at hs
    exact L.add (hnot 0 (by omega) _ ha.1 (by omega)) (hf.taps.mem _ ha.1) hs ha.2
  refine Rel.bind (Rel.prod hf.taps hx (2 * j + 1) kk) fun b b' hb => ?_
  refine (Cells.addTo h1 (o := oo) (kk := k)
    (B := insert (off + (2 * j + 1)) (base ∪ half off 1 s)) ?_).mono fun r r' hr => ⟨?_, ?_⟩
  · intro s s' hs
    rw [Function.update_of_ne hne.symm, Function.update_of_ne hne.symm, if_neg hne.symm, if_pos rfl] at hs
    exact L.add (hnot 1 (by omega) _ hb.1 (by omega)) (hf.taps.mem _ hb.1) hs hb.2
  · have := hb.1
    omega
  · unfold Pair
    convert hr using 1
    · funext c
      simp only [Function.update_apply]
      split_ifs <;> rfl
    · funext c
      simp only [Function.update_apply]
      by_cases e1 : c = oe
      · subst e1
        simp only [if_true, if_neg hne, half_insert, Finset.union_insert, Nat.add_zero]
      · by_cases e2 : c = oo
        · subst e2
          simp only [if_true, if_neg e1, half_insert, Finset.union_insert]
        · simp only [if_neg e1, if_neg e2]

/-- Cells for which the taps `2t`, `t < j` (and `2t+1`) have been dealt with. -/
def UInv (L : Link M M') (off : ℕ) (base : Finset ℕ) (k : ℕ) (A : ℕ → Finset ℕ) (oe oo H j : ℕ)
    (out : List M) (out' : List M') : Prop :=
  Pair L off base k A oe oo (range (min j H)) out out'

/-- Cells for which `j` taps below `c` have been dealt with, in descending order. -/
def DInv (L : Link M M') (off : ℕ) (base : Finset ℕ) (k : ℕ) (A : ℕ → Finset ℕ) (oe oo c j : ℕ)
    (out : List M) (out' : List M') : Prop :=
  Pair L off base k A oe oo (Ico (c - j) c) out out'

/-- What the lemmas on pairs of cells assume. -/
structure Pre (L : Link M M') (off : ℕ) (base : Finset ℕ) (k : ℕ) (A : ℕ → Finset ℕ) (oe oo : ℕ)
    (f : List R) (f' : List R') (x : List M) (x' : List M') : Prop where
  pass : Pass L off base f f'
  samples : List.Forall₂ L.X x x'
  ne : oe ≠ oo
  kle : k ≤ L.kmax
  sub : ∀ c, A c ⊆ L.all

theorem UInv.step (P : Pre L off base k A oe oo f f' x x') {j kk : ℕ} {out : List M} {out' : List M'}
    (h : UInv L off base k A oe oo (f'.length / 2) j out out') :
    Rel (UInv L off base k A oe oo (f'.length / 2) (j + 1)) (Pywt.acc2 f x oe oo j kk out)
      (Pywt.acc2 f' x' oe oo j kk out') := by
  unfold UInv at *
  by_cases hj : j < f'.length / 2
  · rw [min_eq_left hj.le] at h
    refine (Rel.acc2 P.pass P.samples P.ne (by simp) h).mono fun r r' hr => ?_
    refine hr.2.mono P.pass P.kle P.sub ?_ (range_subset_range.mpr (min_le_right _ _))
    intro l hl
    simp only [Finset.mem_insert, mem_range] at hl ⊢
    omega
  · rw [min_eq_right (by omega)] at h
    exact (Rel.acc2 P.pass P.samples P.ne (by simpa using hj) h).mono fun r r' hr =>
      absurd hr.1 hj

theorem DInv.step (P : Pre L off base k A oe oo f f' x x') {c j l kk : ℕ} {out : List M}
    {out' : List M'} (hl : l + j + 1 = c) (h : DInv L off base k A oe oo c j out out') :
    Rel (DInv L off base k A oe oo c (j + 1)) (Pywt.acc2 f x oe oo l kk out)
      (Pywt.acc2 f' x' oe oo l kk out') := by
  unfold DInv at *
  refine (Rel.acc2 P.pass P.samples P.ne (by simp only [mem_Ico]; omega) h).mono fun r r' hr => ?_
  have h2 : insert l (Ico (c - j) c) = Ico (c - (j + 1)) c := by
    ext m
    simp only [Finset.mem_insert, mem_Ico]
    omega
  rw [← h2]
  exact hr.2

theorem DInv.done (P : Pre L off base k A oe oo f f' x x') {c j : ℕ} {out : List M}
    {out' : List M'} (h : DInv L off base k A oe oo c j out out') (hc : c ≤ j)
    (hH : c ≤ f'.length / 2) : UInv L off base k A oe oo (f'.length / 2) j out out' := by
  refine Pair.mono P.pass P.kle P.sub h ?_ (range_subset_range.mpr (min_le_right _ _))
  intro l hl
  simp only [mem_range, mem_Ico] at hl ⊢
  omega

/-- The cells in `D` have received all the products of this pass, the others none. -/
def Done (base full : Finset ℕ) (D : ℕ → Prop) [DecidablePred D] (c : ℕ) : Finset ℕ :=
  if D c then full else base

theorem Pair.begin (hf : Pass L off base f f') (hk : k ≤ L.kmax) (hA : ∀ c, A c ⊆ L.all)
    (he : A oe = base) (ho : A oo = base) {out : List M} {out' : List M'}
    (h : Cells L (fun _ => k) A out out') : Pair L off base k A oe oo ∅ out out' := by
  refine Cells.mono h (fun c => ?_) (fun c => ?_) (fun _ => le_rfl) (fun _ => hk)
  · split_ifs with h1 h2
    · rw [h1, he]; exact Finset.subset_union_left
    · rw [h2, ho]; exact Finset.subset_union_left
    · exact subset_rfl
  · split_ifs with h1 h2
    · exact half_all hf (by omega) (Finset.empty_subset _)
    · exact half_all hf (by omega) (Finset.empty_subset _)
    · exact hA c

theorem UInv.begin (P : Pre L off base k A oe oo f f' x x') (he : A oe = base) (ho : A oo = base)
    {out : List M} {out' : List M'} (h : Cells L (fun _ => k) A out out') (j : ℕ) :
    UInv L off base k A oe oo (f'.length / 2) j out out' :=
  Pair.mono P.pass P.kle P.sub (Pair.begin P.pass P.kle P.sub he ho h) (Finset.empty_subset _)
    (range_subset_range.mpr (min_le_right _ _))

theorem DInv.begin (P : Pre L off base k A oe oo f f' x x') (he : A oe = base) (ho : A oo = base)
    {out : List M} {out' : List M'} (h : Cells L (fun _ => k) A out out') (c : ℕ) :
    DInv L off base k A oe oo c 0 out out' := by
  unfold DInv
  rw [Nat.sub_zero, Ico_self]
  exact Pair.begin P.pass P.kle P.sub he ho h

/-- All taps of this pass and of the earlier one. -/
def fullTaps (off F : ℕ) (base : Finset ℕ) : Finset ℕ := base ∪ (range F).image fun l => off + l

theorem full_all (hf : Pass L off base f f') : fullTaps off f'.length base ⊆ L.all := by
  refine Finset.union_subset hf.base_all fun l hl => ?_
  obtain ⟨t, ht, rfl⟩ := Finset.mem_image.mp hl
  exact hf.taps.mem _ (mem_range.mp ht)

theorem UInv.finish (P : Pre L off base k A oe oo f f' x x') {j : ℕ} {out : List M} {out' : List M'}
    (h : UInv L off base k A oe oo (f'.length / 2) j out out') {B : ℕ → Finset ℕ}
    (hB : ∀ c, B c = if c = oe ∨ c = oo then fullTaps off f'.length base else A c) :
    Cells L (fun _ => k) B out out' := by
  have hsub : ∀ p < 2, base ∪ half off p (range (min j (f'.length / 2))) ⊆
      fullTaps off f'.length base := by
    intro p hp
    refine Finset.union_subset_union_right fun l hl => ?_
    obtain ⟨t, ht, rfl⟩ := mem_half.mp hl
    have := mem_range.mp ht
    exact Finset.mem_image.mpr ⟨2 * t + p, mem_range.mpr (by omega), rfl⟩
  refine Cells.mono h (fun c => ?_) (fun c => ?_) (fun _ => le_rfl) (fun _ => P.kle)
  · rw [hB]
    split_ifs with h1 h2 h3 h4 h5
    · exact hsub 0 (by omega)
    · exact absurd (Or.inl h1) h2
    · exact hsub 1 (by omega)
    · exact absurd (Or.inr h3) h4
    · rcases h5 with h5 | h5
      · exact absurd h5 h1
      · exact absurd h5 h3
    · exact subset_rfl
  · rw [hB]
    split_ifs
    · exact full_all P.pass
    · exact P.sub c

/-- The ascending loop over the filter. -/
theorem Rel.upJs (P : Pre L off base k A oe oo f f' x x') {fuel i : ℕ} {more : ℕ → C Bool}
    {st : ℕ × List M} {st' : ℕ × List M'} (h1 : st.1 = st'.1)
    (h : UInv L off base k A oe oo (f'.length / 2) st'.1 st.2 st'.2) :
    Rel (fun r r' => r.1 = r'.1 ∧ UInv L off base k A oe oo (f'.length / 2) r'.1 r.2 r'.2)
      (Pywt.forJs fuel more (fun j out => do Pywt.acc2 f x oe oo j (← sub i j) out) st)
      (Pywt.forJs fuel more (fun j out => do Pywt.acc2 f' x' oe oo j (← sub i j) out) st') :=
  Rel.forJs (Inv := UInv L off base k A oe oo (f'.length / 2))
    (fun j s s' _ hi => Rel.same (c := sub i j) fun m _ => UInv.step P (kk := m) hi) h1 h

theorem Rel.upLeft (P : Pre L off base k A oe oo f f' x x') {fuel : ℕ}
    {st : ℕ × List M} {st' : ℕ × List M'} (h1 : st.1 = st'.1)
    (h : UInv L off base k A oe oo (f'.length / 2) st'.1 st.2 st'.2) :
    Rel (fun r r' => r.1 = r'.1 ∧ UInv L off base k A oe oo (f'.length / 2) r'.1 r.2 r'.2)
      (Pywt.upLeft fuel x f oe oo st) (Pywt.upLeft fuel x' f' oe oo st') := by
  simp only [Pywt.upLeft, P.samples.length_eq, P.pass.taps.len]
  refine (Rel.whileUp (Inv := UInv L off base k A oe oo (f'.length / 2)) (fun j s s' hi => ?_)
    h1 h).mono fun _ _ hq => hq.1
  refine Rel.forKJs (Inv := UInv L off base k A oe oo (f'.length / 2)) (fun j m s s' _ hi => ?_)
    rfl hi
  unfold Pywt.acc2Rev
  rw [P.samples.length_eq]
  exact Rel.same fun a _ => Rel.same fun b _ => UInv.step P hi

theorem Rel.upRight (P : Pre L off base k A oe oo f f' x x') {fuel i : ℕ}
    (hi : i < x'.length + f'.length / 2) {out : List M} {out' : List M'}
    (h : DInv L off base k A oe oo (i + 1 - x'.length) 0 out out') :
    Rel (fun r r' => r.1 = r'.1 ∧ UInv L off base k A oe oo (f'.length / 2) r'.1 r.2 r'.2)
      (Pywt.upRight fuel x f i oe oo (0, out)) (Pywt.upRight fuel x' f' i oe oo (0, out')) := by
  simp only [Pywt.upRight, P.samples.length_eq, P.pass.taps.len]
  refine (Rel.whileUp (more := geN i x'.length) (Inv := DInv L off base k A oe oo (i + 1 - x'.length))
    (fun j s s' hi => ?_) (st := (0, out)) (st' := (0, out')) rfl h).mono fun a b hq => ⟨hq.1.1, hq.1.2.done P ?_ (by omega)⟩
  · refine Rel.forKJs (Inv := DInv L off base k A oe oo (i + 1 - x'.length))
      (fun j m s s' _ hi => ?_) rfl hi
    refine Rel.same fun l hl => DInv.step P ?_ hi
    have := sub3_ok hl
    omega
  · obtain ⟨h1, h2⟩ := geN_ok hq.2
    have h3 := of_decide_eq_false h2.symm
    omega

section Top
variable {fuel : ℕ} {out : List M} {out' : List M'}

/-- The state of the loops over pairs of outputs `(o, o+1)`: the cells in `D0` and those in `[o0, o)` are done. -/
def PInv (L : Link M M') (off : ℕ) (base : Finset ℕ) (F k : ℕ) (D0 : ℕ → Prop) [DecidablePred D0]
    (i0 o0 i o : ℕ) (out : List M) (out' : List M') : Prop :=
  (i0 ≤ i ∧ o + 2 * i0 = o0 + 2 * i) ∧
    Cells L (fun _ => k) (fun c => if D0 c ∨ (o0 ≤ c ∧ c < o) then fullTaps off F base else base) out out'

/-- One round: the cells `o`, `o+1` are completed. -/
theorem PInv.round (hf : Pass L off base f f') (hx : List.Forall₂ L.X x x') (hk : k ≤ L.kmax)
    {D0 : ℕ → Prop} [DecidablePred D0] {i0 o0 i o : ℕ}
    (hD : ∀ c, D0 c → c < o0 ∨ o + 1 < c)
    (h : PInv L off base f'.length k D0 i0 o0 i o out out') {c : C (List M)} {c' : C (List M')}
    (hc : ∀ A, Pre L off base k A o (o + 1) f f' x x' → A o = base → A (o + 1) = base →
      Cells L (fun _ => k) A out out' →
      Rel (fun r r' => ∃ j, UInv L off base k A o (o + 1) (f'.length / 2) j r r') c c') :
    Rel (PInv L off base f'.length k D0 i0 o0 (i + 1) (o + 2)) c c' := by
  obtain ⟨⟨h0, h1⟩, h2⟩ := h
  have hno : ∀ m, o ≤ m → m ≤ o + 1 → ¬ (D0 m ∨ (o0 ≤ m ∧ m < o)) := by
    rintro m h3 h4 (h5 | h5)
    · have := hD m h5; omega
    · omega
  have P : Pre L off base k (fun c => if D0 c ∨ (o0 ≤ c ∧ c < o) then
      fullTaps off f'.length base else base) o (o + 1) f f' x x' :=
    ⟨hf, hx, by omega, hk, fun c => by split_ifs; exacts [full_all hf, hf.base_all]⟩
  refine (hc _ P (if_neg (hno _ le_rfl (by omega))) (if_neg (hno _ (by omega) le_rfl)) h2).mono
    fun a b hab => ⟨⟨by omega, by omega⟩, hab.choose_spec.finish P fun c => ?_⟩
  by_cases h3 : c = o ∨ c = o + 1
  · rw [if_pos h3, if_pos (Or.inr ⟨by omega, by omega⟩)]
  · rw [if_neg h3]
    congr 1
    apply propext
    constructor
    · rintro (h | h)
      · exact Or.inl h
      · exact Or.inr (by omega)
    · rintro (h | h)
      · exact Or.inl h
      · exact Or.inr (by omega)

theorem Cells.ofForall {k : ℕ} {B : Finset ℕ} (h : List.Forall₂ (L.S k B) out out') :
    Cells L (fun _ => k) (fun _ => B) out out' := by
  refine ⟨h.length_eq, fun c v v' hv hv' => ?_⟩
  obtain ⟨h1, rfl⟩ := List.getElem?_eq_some_iff.mp hv
  obtain ⟨h2, rfl⟩ := List.getElem?_eq_some_iff.mp hv'
  exact List.Forall₂.get h h1 h2

theorem Cells.toForall {k : ℕ} {B : Finset ℕ} (h : Cells L (fun _ => k) (fun _ => B) out out') :
    List.Forall₂ (L.S k B) out out' := by
  refine List.forall₂_iff_get.mpr ⟨h.1, fun c h1 h2 => ?_⟩
  exact h.2 c _ _ (List.getElem?_eq_getElem h1) (List.getElem?_eq_getElem h2)

theorem PInv.final (hf : Pass L off base f f') (hk : k ≤ L.kmax) {D0 : ℕ → Prop} [DecidablePred D0]
    {i0 o0 i o : ℕ} (h : PInv L off base f'.length k D0 i0 o0 i o out out') :
    List.Forall₂ (L.S k (fullTaps off f'.length base)) out out' := by
  refine Cells.toForall (Cells.mono h.2 (fun c => ?_) (fun c => full_all hf) (fun _ => le_rfl)
    fun _ => hk)
  split_ifs
  · exact subset_rfl
  · exact Finset.subset_union_left

theorem Rel.usFull (hf : Pass L off base f f') (hx : List.Forall₂ L.X x x') (hk : k ≤ L.kmax)
    (ho : List.Forall₂ (L.S k base) out out') :
    Rel (Option.Rel (List.Forall₂ (L.S k (fullTaps off f'.length base)))) (Pywt.usFull fuel x f out)
      (Pywt.usFull fuel x' f' out') := by
  simp only [Pywt.usFull, hx.length_eq, hf.taps.len]
  refine Rel.ite (fun _ => Rel.pure Option.Rel.none) fun _ =>
    Rel.ite (fun _ => Rel.pure Option.Rel.none) fun _ => ?_
  set I := PInv L off base f'.length k (fun _ => False) 0 0 with hI
  have h0 : I 0 0 out out' :=
    ⟨⟨le_rfl, rfl⟩, Cells.mono (Cells.ofForall ho) (fun c => by
      rw [if_neg (by simp)]) (fun c => by
      rw [if_neg (by simp)]; exact hf.base_all) (fun _ => le_rfl) (fun _ => hk)⟩
  have hup : ∀ (more : ℕ → C Bool) i o s s', I i o s s' →
      Rel (I (i + 1) (o + 2))
        (do
          let s ← Pywt.forJs fuel more (fun j out => do Pywt.acc2 f x o (o + 1) j (← sub i j) out) (0, s)
          Pure.pure s.2)
        (do
          let s ← Pywt.forJs fuel more (fun j out => do Pywt.acc2 f' x' o (o + 1) j (← sub i j) out)
            (0, s')
          Pure.pure s.2) := by
    intro more i o s s' h
    exact PInv.round hf hx hk (by simp) h fun A P he ho hc =>
      Rel.bind (Rel.upJs P rfl (UInv.begin P he ho hc _)) fun _ _ h => Rel.pure ⟨_, h.2⟩
  have hup2 : ∀ (more : ℕ → C Bool) i o s s', I i o s s' →
      Rel (I (i + 1) (o + 2))
        (do
          let j0 ← sub i (← sub x'.length 1)
          let s ← Pywt.forJs fuel more (fun j out => do Pywt.acc2 f x o (o + 1) j (← sub i j) out) (j0, s)
          Pure.pure s.2)
        (do
          let j0 ← sub i (← sub x'.length 1)
          let s ← Pywt.forJs fuel more (fun j out => do Pywt.acc2 f' x' o (o + 1) j (← sub i j) out)
            (j0, s')
          Pure.pure s.2) := by
    intro more i o s s' h
    refine Rel.same fun a _ => Rel.same fun j0 _ => ?_
    exact PInv.round hf hx hk (by simp) h fun A P he ho hc =>
      Rel.bind (Rel.upJs P rfl (UInv.begin P he ho hc _)) fun _ _ h => Rel.pure ⟨_, h.2⟩
  refine Rel.bind (Rel.forUp (Inv := I) (fun i o s s' _ h =>
    hup (fun j => Pure.pure (decide (j ≤ i))) i o s s' h) rfl rfl h0) ?_
  rintro a b ⟨g1, g2, g3⟩
  refine Rel.bind (Rel.forUp (Inv := I) (fun i o s s' _ h => hup _ i o s s' h) g1 g2 g3) ?_
  rintro a b ⟨g1, g2, g3⟩
  refine Rel.bind (Rel.forUp (Inv := I) (fun i o s s' _ h =>
    hup2 (fun j => Pure.pure (decide (j ≤ i))) i o s s' h) g1 g2 g3) ?_
  rintro a b ⟨g1, g2, g3⟩
  refine Rel.bind (Rel.forUp (Inv := I) (fun i o s s' _ h => hup2 _ i o s s' h) g1 g2 g3) ?_
  rintro a b ⟨g1, g2, g3⟩
  exact Rel.pure (Option.Rel.some (g3.final hf hk))

theorem Rel.upPerFirst (P : Pre L off base k (fun _ => base) (2 * x'.length - 1) 0 f f' x x')
    {start : ℕ} (hs : start ≤ f'.length / 2) (ho : List.Forall₂ (L.S k base) out out') :
    Rel (fun r r' => 1 ≤ start ∧ Cells L (fun _ => k) (fun c => if c = 2 * x'.length - 1 ∨ c = 0 then
        fullTaps off f'.length base else base) r r')
      (Pywt.upPerFirst fuel x f start out) (Pywt.upPerFirst fuel x' f' start out') := by
  simp only [Pywt.upPerFirst, P.samples.length_eq, P.pass.taps.len]
  refine Rel.same fun sm hsm => Rel.same fun last hlast => ?_
  obtain ⟨hs1, hsm⟩ := sub_ok hsm
  obtain ⟨_, rfl⟩ := sub_ok hlast
  have hb : DInv L off base k (fun _ => base) (2 * x'.length - 1) 0 start 0 out out' :=
    DInv.begin P rfl rfl (Cells.ofForall ho) start
  generalize hI : DInv L off base k (fun _ => base) (2 * x'.length - 1) 0 start = I at hb
  have hdone : ∀ j o o', I j o o' → start ≤ j →
      UInv L off base k (fun _ => base) (2 * x'.length - 1) 0 (f'.length / 2) j o o' := by
    intro j o o' h h'
    rw [← hI] at h
    exact DInv.done P h h' hs
  have hstep : ∀ j l m o o', l + j + 1 = start → I j o o' → Rel (I (j + 1))
      (Pywt.acc2 f x (2 * x'.length - 1) 0 l m o) (Pywt.acc2 f' x' (2 * x'.length - 1) 0 l m o') := by
    intro j l m o o' h h'
    rw [← hI] at h' ⊢
    exact DInv.step P h h'
  refine Rel.bind (Q := fun r r' => r.1 = r'.1 ∧
    UInv L off base k (fun _ => base) (2 * x'.length - 1) 0 (f'.length / 2) r'.1 r.2 r'.2) ?_ ?_
  · refine (Rel.whileUp (more := fun j => Pure.pure (decide (j ≤ sm))) (Inv := I)
      (fun j s s' hi => ?_) (st := (0, out)) (st' := (0, out')) rfl hb).mono
      fun a b hq => ⟨hq.1.1, hdone _ _ _ hq.1.2 ?_⟩
    · refine Rel.forKJs (Inv := I) (fun j m s s' hm hi => Rel.same (c := sub sm j) fun l hl =>
        hstep j l m s s' ?_ hi)
        (st := (j, s)) (st' := (j, s')) rfl hi
      obtain ⟨h1, h2⟩ := sub_ok hl
      omega
    · have h := hq.2
      injection h with h
      have := of_decide_eq_false h
      omega
  rintro a b ⟨g1, g2⟩
  refine Rel.same fun i _ => ?_
  refine Rel.bind (Rel.upJs P g1 g2) ?_
  rintro a b ⟨g1, g2⟩
  refine Rel.bind (Rel.upLeft P g1 g2) ?_
  rintro a b ⟨g1, g2⟩
  exact Rel.pure ⟨hs1, g2.finish P fun c => rfl⟩

theorem Rel.usPer (hf : Pass L off base f f') (hx : List.Forall₂ L.X x x') (hk : k ≤ L.kmax)
    (ho : List.Forall₂ (L.S k base) out out') :
    Rel (Option.Rel (List.Forall₂ (L.S k (fullTaps off f'.length base)))) (Pywt.usPer fuel x f out)
      (Pywt.usPer fuel x' f' out') := by
  simp only [Pywt.usPer, hx.length_eq, hf.taps.len]
  refine Rel.same fun stop hstop => Rel.ite (fun _ => Rel.pure Option.Rel.none) fun _ => ?_
  obtain ⟨hst, hstop⟩ := sub_ok hstop
  generalize ho0 : (if f'.length / 2 % 2 = 0 then 1 else 0) = o0
  set D0 : ℕ → Prop := fun c => f'.length / 2 % 2 = 0 ∧ (c = 2 * x'.length - 1 ∨ c = 0) with hD0
  have hdec : DecidablePred D0 := fun c => by rw [hD0]; infer_instance
  set I := PInv L off base f'.length k D0 (f'.length / 4) o0 with hI
  have hD : ∀ i o s s', i < stop → I i o s s' → ∀ c, D0 c → c < o0 ∨ o + 1 < c := by
    rintro i o s s' hi ⟨⟨h1, h2⟩, _⟩ c ⟨h3, h4⟩
    rw [if_pos h3] at ho0
    rw [if_neg (by omega)] at hstop
    rcases h4 with h4 | h4
    · right; omega
    · left; omega
  refine Rel.bind (Q := fun r r' => (f'.length / 2 % 2 = 0 → 1 ≤ f'.length / 4) ∧
    I (f'.length / 4) o0 r r') ?_ fun o1 o1' h00 => ?_
  · unfold Pywt.upPerShift
    rw [hf.taps.len]
    refine Rel.ite (fun hp => ?_) fun hp => Rel.pure ?_
    · by_cases hN : 2 * x'.length - 1 = 0
      · -- the kernel fails on an empty signal
        have hN0 : x'.length = 0 := by omega
        intro b hb
        exfalso
        unfold Pywt.upPerFirst at hb
        rw [hN0] at hb
        cases h1 : sub (f'.length / 4) 1 with
        | error e => rw [h1] at hb; cases hb
        | ok d => rw [h1] at hb; cases hb
      · have P : Pre L off base k (fun _ => base) (2 * x'.length - 1) 0 f f' x x' :=
          ⟨hf, hx, hN, hk, fun _ => hf.base_all⟩
        refine (Rel.upPerFirst P (by omega) ho).mono fun a b hab => ⟨fun _ => hab.1, ⟨le_rfl, by omega⟩, ?_⟩
        convert hab.2 using 2 with c
        by_cases hc : c = 2 * x'.length - 1 ∨ c = 0
        · rw [if_pos (Or.inl ⟨hp, hc⟩), if_pos hc]
        · rw [if_neg, if_neg hc]
          rintro (h | h)
          · exact hc h.2
          · omega
    · refine ⟨fun h => absurd h hp, ⟨le_rfl, by omega⟩, Cells.mono (Cells.ofForall ho) (fun c => ?_) (fun c => ?_)
        (fun _ => le_rfl) (fun _ => hk)⟩
      · split_ifs
        · exact Finset.subset_union_left
        · exact subset_rfl
      · split_ifs
        · exact full_all hf
        · exact hf.base_all
  obtain ⟨hst1, h0⟩ := h00
  have hup : ∀ (more : ℕ → C Bool) i o s s', i < stop → I i o s s' →
      Rel (I (i + 1) (o + 2))
        (do
          let s ← Pywt.forJs fuel more (fun j out => do Pywt.acc2 f x o (o + 1) j (← sub i j) out) (0, s)
          Pure.pure s.2)
        (do
          let s ← Pywt.forJs fuel more (fun j out => do Pywt.acc2 f' x' o (o + 1) j (← sub i j) out)
            (0, s')
          Pure.pure s.2) := by
    intro more i o s s' hi h
    exact PInv.round hf hx hk (hD i o s s' hi h) h fun A P he ho hc =>
      Rel.bind (Rel.upJs P rfl (UInv.begin P he ho hc _)) fun _ _ h => Rel.pure ⟨_, h.2⟩
  refine Rel.bind (Rel.forUp (Inv := I) (fun i o s s' hi h => ?_) rfl rfl h0) ?_
  · simp only [Bool.and_eq_true, decide_eq_true_eq] at hi
    exact PInv.round hf hx hk (hD i o s s' (by
      split_ifs at hstop <;> omega) h) h fun A P he ho hc =>
      Rel.bind (Rel.upJs P rfl (UInv.begin P he ho hc _)) fun a b hab =>
        Rel.bind (Rel.upLeft P hab.1 hab.2) fun _ _ h => Rel.pure ⟨_, h.2⟩
  rintro a b ⟨g1, g2, g3⟩
  refine Rel.bind (Rel.forUp (Inv := I) (fun i o s s' hi h => hup _ i o s s' (by
    have := of_decide_eq_true hi
    by_cases hpar : f'.length / 2 % 2 = 0
    · have := hst1 hpar
      rw [if_neg (by omega)] at hstop
      omega
    · rw [if_pos hpar] at hstop
      omega) h) g1 g2 g3) ?_
  rintro a b ⟨g1, g2, g3⟩
  refine Rel.bind (Rel.forUp (Inv := I) (fun i o s s' hi h => ?_) g1 g2 g3) ?_
  · simp only [Bool.and_eq_true, decide_eq_true_eq] at hi
    exact PInv.round hf hx hk (hD i o s s' hi.2 h) h fun A P he ho hc =>
      Rel.bind (Rel.upRight P (by split_ifs at hstop <;> omega) (DInv.begin P he ho hc _)) fun a b hab =>
        Rel.bind (Rel.upJs P hab.1 hab.2) fun a b hab =>
          Rel.bind (Rel.upLeft P hab.1 hab.2) fun _ _ h => Rel.pure ⟨_, h.2⟩
  rintro a b ⟨g1, g2, g3⟩
  refine Rel.bind (Rel.forUp (Inv := I) (fun i o s s' hi h => ?_) g1 g2 g3) ?_
  · have hi := of_decide_eq_true hi
    exact PInv.round hf hx hk (hD i o s s' hi h) h fun A P he ho hc =>
      Rel.bind (Rel.upRight P (by split_ifs at hstop <;> omega) (DInv.begin P he ho hc _)) fun a b hab =>
        Rel.bind (Rel.upJs P hab.1 hab.2) fun _ _ h => Rel.pure ⟨_, h.2⟩
  rintro a b ⟨g1, g2, g3⟩
  exact Rel.pure (Option.Rel.some (g3.final hf hk))

/-- Both sums of a pair of outputs of the valid convolution. -/
def VInv (L : Link M M') (off H j : ℕ) (s : M × M) (s' : M' × M') : Prop :=
  L.S 0 (half off 0 (range (min j H))) s.1 s'.1 ∧ L.S 0 (half off 1 (range (min j H))) s.2 s'.2

theorem half_all' (hf : Taps L off f f') {p : ℕ} (hp : p < 2) {s : Finset ℕ}
    (hs : s ⊆ range (f'.length / 2)) : half off p s ⊆ L.all := by
  intro l hl
  obtain ⟨t, ht, rfl⟩ := mem_half.mp hl
  have := mem_range.mp (hs ht)
  exact hf.mem _ (by omega)

theorem Rel.pairProd (hf : Taps L off f f') (hx : List.Forall₂ L.X x x') {j m : ℕ} {s : M × M}
    {s' : M' × M'} (h : VInv L off (f'.length / 2) j s s') :
    Rel (fun v v' => VInv L off (f'.length / 2) (j + 1) (s + v) (s' + v')) (Pywt.pairProd f x j m)
      (Pywt.pairProd f' x' j m) := by
  unfold Pywt.pairProd
  refine Rel.bind (Rel.prod hf hx (2 * j) m) fun a a' ha => Rel.bind (Rel.prod hf hx (2 * j + 1) m)
    fun b b' hb => Rel.pure ?_
  have hj : j < f'.length / 2 := by have := hb.1; omega
  unfold VInv at *
  rw [min_eq_left hj.le] at h
  rw [min_eq_left (Nat.succ_le_of_lt hj), Finset.range_add_one, half_insert, half_insert]
  have hn : ∀ p, off + (2 * j + p) ∉ half off p (range j) := by
    intro p hm
    obtain ⟨t, ht, he⟩ := mem_half.mp hm
    have := mem_range.mp ht
    omega
  exact ⟨L.add (hn 0) (hf.mem _ ha.1) h.1 ha.2, L.add (hn 1) (hf.mem _ hb.1) h.2 hb.2⟩

theorem Rel.usValid (hf : Pass L off base f f') (hx : List.Forall₂ L.X x x') (hk : k + 1 ≤ L.kmax)
    (ho : List.Forall₂ (L.S k base) out out') :
    Rel (Option.Rel (List.Forall₂ (L.S (k + 1) (fullTaps off f'.length base))))
      (Pywt.usValid fuel x f out) (Pywt.usValid fuel x' f' out') := by
  simp only [Pywt.usValid, hx.length_eq, hf.taps.len]
  refine Rel.ite (fun _ => Rel.pure Option.Rel.none) fun _ => ?_
  refine Rel.same fun i0 _ => ?_
  set I : ℕ → ℕ → List M → List M' → Prop := fun _ o => Cells L (fun c => if c < o then k + 1 else k)
    (fun c => if c < o then fullTaps off f'.length base else base) with hI
  have h0 : I i0 0 out out' := by
    refine Cells.mono (Cells.ofForall ho) (fun c => ?_) (fun c => ?_) (fun c => ?_) (fun c => ?_)
    · rw [if_neg (by omega)]
    · rw [if_neg (by omega)]; exact hf.base_all
    · rw [if_neg (by omega)]
    · rw [if_neg (by omega)]; omega
  have hsub : ∀ j p, p < 2 → base ∪ half off p (range (min j (f'.length / 2))) ⊆
      fullTaps off f'.length base := by
    intro j p hp
    refine Finset.union_subset_union_right fun l hl => ?_
    obtain ⟨t, ht, rfl⟩ := mem_half.mp hl
    have := mem_range.mp ht
    exact Finset.mem_image.mpr ⟨2 * t + p, mem_range.mpr (by omega), rfl⟩
  have hdis : ∀ j p, p < 2 → Disjoint base (half off p (range (min j (f'.length / 2)))) := by
    intro j p hp
    refine Finset.disjoint_right.mpr fun l hl => ?_
    obtain ⟨t, ht, rfl⟩ := mem_half.mp hl
    have := mem_range.mp ht
    exact hf.disj _ (by omega)
  have hz : ∀ p, p < 2 → L.S 0 (half off p (range (min 0 (f'.length / 2)))) (0 : M) (0 : M') := by
    intro p hp
    rw [Nat.zero_min, range_zero]
    exact L.zero
  refine Rel.bind (Rel.forUp (Inv := I) (fun i o s s' _ h => ?_) rfl rfl h0) ?_
  · refine Rel.bind (Rel.forJ (Inv := VInv L off (f'.length / 2)) (fun j s s' _ hi =>
      Rel.same (c := sub i j) fun m _ => Rel.pairProd (m := m) hf.taps hx hi)
      (st := (0, (0 : M × M))) (st' := (0, (0 : M' × M'))) rfl ⟨hz 0 (by omega), hz 1 (by omega)⟩) ?_
    rintro ⟨j, a, b⟩ ⟨j', a', b'⟩ ⟨_, h1, h2⟩
    simp only at h1 h2 ⊢
    refine Rel.bind (Cells.addTo h (o := o) (kk := k + 1)
      (B := fullTaps off f'.length base) ?_) fun o1 o1' g1 => ?_
    · intro s s' hs
      rw [if_neg (lt_irrefl _), if_neg (lt_irrefl _)] at hs
      exact L.mono (hsub j' 0 (by omega)) (full_all hf) le_rfl hk
        (L.merge (hdis j' 0 (by omega)) (by omega) hs h1)
    refine (Cells.addTo g1 (o := o + 1) (kk := k + 1)
      (B := fullTaps off f'.length base) ?_).mono fun r r' hr => ?_
    · intro s s' hs
      rw [Function.update_of_ne (by omega), Function.update_of_ne (by omega), if_neg (by omega),
        if_neg (by omega)] at hs
      exact L.mono (hsub j' 1 (by omega)) (full_all hf) le_rfl hk
        (L.merge (hdis j' 1 (by omega)) (by omega) hs h2)
    · have hc : ∀ c, c < o + 2 ↔ c = o + 1 ∨ c = o ∨ c < o := by intro c; omega
      rw [hI]
      convert hr using 1
      · funext c
        simp only [Function.update_apply, hc]
        by_cases e1 : c = o + 1 <;> by_cases e2 : c = o <;> simp [e1, e2]
      · funext c
        simp only [Function.update_apply, hc]
        by_cases e1 : c = o + 1 <;> by_cases e2 : c = o <;> simp [e1, e2]
  · rintro a b ⟨g1, g2, g3⟩
    refine Rel.pure (Option.Rel.some (Cells.toForall (Cells.mono g3 (fun c => ?_) (fun c => full_all hf)
      (fun c => ?_) fun _ => hk)))
    · split_ifs
      · exact subset_rfl
      · exact Finset.subset_union_left
    · split_ifs <;> omega

/-- The upsampling convolution: at most one more addition of sums. -/
theorem Rel.usConv {mode : Mode} (hf : Pass L off base f f') (hx : List.Forall₂ L.X x x')
    (hk : k + 1 ≤ L.kmax) (ho : List.Forall₂ (L.S k base) out out') :
    Rel (Option.Rel (List.Forall₂ (L.S (k + 1) (fullTaps off f'.length base))))
      (Pywt.usConv fuel x f out mode) (Pywt.usConv fuel x' f' out' mode) := by
  unfold Pywt.usConv
  refine Rel.ite (fun _ => (Rel.usPer hf hx (by omega) ho).mono ?_) fun _ => Rel.usValid hf hx hk ho
  rintro a b (h | h)
  · exact Option.Rel.some (h.imp fun _ _ h => L.mono subset_rfl (full_all hf) (Nat.le_succ _) hk h)
  · exact Option.Rel.none

end Top
end Pywt.Sim
