import Verif.Spec.Axis
import Verif.Spec.Bank
import Verif.Model.MultiDim

/-!
# Specification of the separable n-D transform
-/

namespace Pywt

open Spec

variable {R M : Type} [Ring R] [AddCommGroup M] [Module R M]

/-- A transform along one axis: axis, wavelet, extension mode. -/
abbrev Stage (R : Type) := ℕ × Wavelet R × Mode

/-- The analysis filter of a letter: `a` is low-pass, any other letter high-pass. -/
def Wavelet.decFilter (w : Wavelet R) (c : Char) : List R := if c = 'a' then w.dec_lo else w.dec_hi

/-- One-level 1-D analysis of every line along an axis. -/
def Arr.analyze (s : Stage R) (c : Char) (x : Arr M) : Arr M :=
  x.along s.1 (coeffLen s.2.2 (x.shape.getD s.1 0) s.2.1.dec_len)
    (analysis s.2.2 (s.2.1.decFilter c))

/-- The subband named by the letters of `key`: letter number `i` for stage number `i`. -/
def Arr.subband : List (Stage R) → List Char → Arr M → Arr M
  | s :: st, c :: key, x => Arr.subband st key (x.analyze s c)
  | _, _, x => x

/-- Shape of the subbands. -/
def decShape (st : List (Stage R)) (shape : List ℕ) : List ℕ :=
  st.foldl (fun sh s => sh.set s.1 (coeffLen s.2.2 (sh.getD s.1 0) s.2.1.dec_len)) shape

/-- The stages can be applied one after another to an array of this shape. -/
def StagesOk : List (Stage R) → List ℕ → Prop
  | [], _ => True
  | s :: st, shape =>
      s.1 < shape.length ∧ s.2.1.Ok ∧ LenOk s.2.2 (shape.getD s.1 0) ∧
        StagesOk st (shape.set s.1 (coeffLen s.2.2 (shape.getD s.1 0) s.2.1.dec_len))

instance StagesOk.decidable : (st : List (Stage R)) → (shape : List ℕ) → Decidable (StagesOk st shape)
  | [], _ => isTrue trivial
  | s :: st, shape => by
      have := StagesOk.decidable st
        (shape.set s.1 (coeffLen s.2.2 (shape.getD s.1 0) s.2.1.dec_len))
      unfold StagesOk
      infer_instance

/-- `a` restricted to the shape of `b` is `b`. -/
def Arr.Extends (a b : Arr M) : Prop :=
  a.shape.length = b.shape.length ∧ (∀ j < b.shape.length, b.shape.getD j 0 ≤ a.shape.getD j 0) ∧
    ∀ idx, InB b.shape idx → a.get idx = b.get idx

/-- The axes a call refers to (negative numbers count from the end, no list means all axes), with the
wavelet and mode of each. -/
def Resolves (ndim : ℕ) (wavelet : PerAxis (Wavelet R)) (mode : PerAxis Mode)
    (axes : Option (List ℤ)) (st : List (Stage R)) : Prop :=
  (match axes with
    | none => st.map (·.1) = List.range ndim
    | some l => st.map (fun s : Stage R => (s.1 : ℤ)) =
        l.map fun a : ℤ => if a < 0 then a + (ndim : ℤ) else a) ∧
  wavelet.expand st.length = .ok (st.map (·.2.1)) ∧
  mode.expand st.length = .ok (st.map (·.2.2))

/-- Distinct axes, each with a perfect-reconstruction wavelet and long enough for its mode. -/
def StagesInv (st : List (Stage R)) (shape : List ℕ) : Prop :=
  (st.map (·.1)).Nodup ∧ ∀ s ∈ st, s.1 < shape.length ∧ s.2.1.Ok ∧
    PR s.2.1.dec_lo s.2.1.dec_hi s.2.1.rec_lo s.2.1.rec_hi ∧ LenOk s.2.2 (shape.getD s.1 0)

/-- The array of zeros. -/
def Arr.zero (shape : List ℕ) : Arr M := ⟨shape, zeros shape.prod, by simp [zeros]⟩

/-- The stages can be inverted one after another on coefficients of this shape. -/
def SynthOk : List (Stage R) → List ℕ → Prop
  | [], _ => True
  | s :: st, shape =>
      s.1 < shape.length ∧ s.2.1.Ok ∧ 1 ≤ synthLen s.2.2 (shape.getD s.1 0) s.2.1.rec_len ∧
        SynthOk st (shape.set s.1 (synthLen s.2.2 (shape.getD s.1 0) s.2.1.rec_len))

end Pywt
