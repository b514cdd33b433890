import Verif.Proof.SimPy

/-!
# Maps that commute with the arithmetic commute with the transforms
-/

set_option linter.unusedSectionVars false
set_option autoImplicit false

namespace Pywt.Sim

open Finset

variable {R R' M M' : Type} [Zero R] [Zero M] [Add M] [Neg M] [Sub M] [SMul ℕ M] [SMul R M]
  [Zero R'] [Zero M'] [Add M'] [Neg M'] [Sub M'] [SMul ℕ M'] [SMul R' M']

/-- A relation between two types of samples respected by the operations of the kernels. -/
structure Respects (R R' : Type) [SMul R M] [SMul R' M'] (P : M → M' → Prop) (Q : R → R' → Prop) :
    Prop where
  zero : P 0 0
  add : ∀ {a a' b b'}, P a a' → P b b' → P (a + b) (a' + b')
  sub : ∀ {a a' b b'}, P a a' → P b b' → P (a - b) (a' - b')
  neg : ∀ {a a'}, P a a' → P (-a) (-a')
  nsmul : ∀ (k : ℕ) {a a'}, P a a' → P (k • a) (k • a')
  smul : ∀ {r r' a a'}, Q r r' → P a a' → P (r • a) (r' • a')

variable {P : M → M' → Prop} {Q : R → R' → Prop}

/-- The link of such a relation. -/
def homLink (h : Respects R R' P Q) (n : ℕ) : Link M M' where
  X := P
  Y := P
  T _ := P
  S _ _ := P
  all := range n
  kmax := 2
  zero := h.zero
  mono := fun _ _ _ _ h => h
  add := fun _ _ hs hp => h.add hs hp
  merge := fun _ _ hs ht => h.add hs ht
  neg := fun ha => h.neg ha
  sample := fun h => h

theorem homEdge (h : Respects R R' P Q) (n K : ℕ) : Nonempty (Edge (homLink h n) K) :=
  ⟨{ E := fun _ => P
     zero := h.zero
     edge := fun h => h
     sub := fun he hb hc => h.sub he (h.sub hb hc)
     add := fun he hb hc => h.add he (h.sub hb hc)
     value := fun _ h => h
     smooth := fun _ ha hb => h.add ha (h.nsmul _ (h.sub ha hb)) }⟩

theorem homTaps (h : Respects R R' P Q) {n off : ℕ} {f : List R} {f' : List R'}
    (hf : List.Forall₂ Q f f') (hn : off + f'.length ≤ n) : Taps (homLink h n) off f f' where
  len := hf.length_eq
  mem := fun l hl => mem_range.mpr (by omega)
  mul := by
    intro l a a' y y' ha ha' hy
    rw [List.forall₂_iff_get] at hf
    obtain ⟨h1, h2⟩ := List.getElem?_eq_some_iff.mp ha
    obtain ⟨h3, h4⟩ := List.getElem?_eq_some_iff.mp ha'
    have := hf.2 l h1 h3
    rw [List.get_eq_getElem, List.get_eq_getElem, h2, h4] at this
    exact h.smul this hy

/-- Filter banks related coefficient by coefficient. -/
structure BankRel (Q : R → R' → Prop) (w : Wavelet R) (w' : Wavelet R') : Prop where
  dec_lo : List.Forall₂ Q w.dec_lo w'.dec_lo
  dec_hi : List.Forall₂ Q w.dec_hi w'.dec_hi
  rec_lo : List.Forall₂ Q w.rec_lo w'.rec_lo
  rec_hi : List.Forall₂ Q w.rec_hi w'.rec_hi

variable {w : Wavelet R} {w' : Wavelet R'}

theorem dwt_hom (h : Respects R R' P Q) (hw : BankRel Q w w') {mode : Mode} {x : List M} {x' : List M'}
    (hx : List.Forall₂ P x x') :
    PRel (fun r r' => List.Forall₂ P r.1 r'.1 ∧ List.Forall₂ P r.2 r'.2) (dwt w mode x)
      (dwt w' mode x') :=
  dwt_rel (La := homLink h w'.dec_lo.length) (Ld := homLink h w'.dec_hi.length)
    (homTaps h hw.dec_lo (by omega)) (homTaps h hw.dec_hi (by omega)) hx hx
    (fun _ => homEdge h _ _) (fun _ => homEdge h _ _)

theorem idwt_hom (h : Respects R R' P Q) (hw : BankRel Q w w') {mode : Mode} {a d : Option (List M)}
    {a' d' : Option (List M')} (ha : ORel P a a') (hd : ORel P d d') :
    PRel (List.Forall₂ P) (idwt w mode a d) (idwt w' mode a' d') :=
  idwt_rel (L := homLink h (w'.rec_lo.length + w'.rec_hi.length))
    ⟨homTaps h hw.rec_lo (by omega), homTaps h hw.rec_hi le_rfl, le_rfl⟩ h.zero ha hd

theorem wavedec_hom (h : Respects R R' P Q) (hw : BankRel Q w w') {mode : Mode} {level : Option Int}
    {x : List M} {x' : List M'} (hx : List.Forall₂ P x x') :
    PRel (List.Forall₂ (List.Forall₂ P)) (wavedec w mode level x) (wavedec w' mode level x') := by
  cases hc : checkLevel [x'.length] [w'.dec_len] level with
  | error e =>
    intro b hb
    unfold wavedec at hb
    rw [hc] at hb
    cases hb
  | ok n =>
    exact wavedec_rel (fun _ => P) (fun _ => P) hw.dec_lo.length_eq hx hc
      (fun j _ y y' hy => dwt_hom h hw hy) P (fun _ _ h => h) (fun _ _ _ _ h => h)

theorem waverec_hom (h : Respects R R' P Q) (hw : BankRel Q w w') {mode : Mode}
    {cs : List (Option (List M))} {cs' : List (Option (List M'))} (hcs : List.Forall₂ (ORel P) cs cs') :
    PRel (ORel P) (waverec w mode cs) (waverec w' mode cs') :=
  waverec_rel (fun _ => P) hcs (fun _ _ _ _ h => h) fun j _ a a' d d' ha hd => idwt_hom h hw ha hd

end Pywt.Sim
