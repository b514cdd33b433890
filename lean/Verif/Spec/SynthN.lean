import Verif.Spec.MultiDim

/-!
# Specification of separable n-D synthesis: what one subband contributes
-/

namespace Pywt

open Spec

variable {R M : Type} [Ring R] [AddCommGroup M] [Module R M]

/-- The synthesis filter of a letter: `a` is low-pass, any other letter high-pass. -/
def Wavelet.recFilter (w : Wavelet R) (c : Char) : List R := if c = 'a' then w.rec_lo else w.rec_hi

/-- One-level synthesis from one coefficient sequence: upsampling by two and filtering; the positions
that are kept are those of `synthesis`. -/
def Spec.synthesis1 (mode : Mode) (f : List R) (a : List M) : List M :=
  match mode with
  | .periodization =>
      (List.range (2 * a.length)).map fun n : ℕ =>
        conv f (upsample (ext .periodic a)) ((n : ℤ) + ((f.length / 2 : ℕ) - 1))
  | _ =>
      (List.range (2 * a.length + 2 - f.length)).map fun n : ℕ =>
        conv f (upsample (ext .zero a)) ((n : ℤ) + (f.length - 2))

/-- The contribution of the subband `x` named by the letters of `key`: 1-D synthesis of every line
along the axis of each stage. -/
def Arr.resynth : List (Stage R) → List Char → Arr M → Arr M
  | s :: st, c :: key, x =>
      (Arr.resynth st key x).along s.1 (synthLen s.2.2 (x.shape.getD s.1 0) s.2.1.rec_len)
        (synthesis1 s.2.2 (s.2.1.recFilter c))
  | _, _, x => x

/-- Shape of the result of n-D synthesis. -/
def synthShape (st : List (Stage R)) (shape : List ℕ) : List ℕ :=
  st.foldr (fun s sh => sh.set s.1 (synthLen s.2.2 (shape.getD s.1 0) s.2.1.rec_len)) shape

/-- Distinct axes, each with a well-formed wavelet and enough coefficients. -/
def SynthFits (st : List (Stage R)) (S : List ℕ) : Prop :=
  (st.map (·.1)).Nodup ∧ ∀ s ∈ st, s.1 < S.length ∧ s.2.1.Ok ∧
    1 ≤ synthLen s.2.2 (S.getD s.1 0) s.2.1.rec_len

end Pywt
