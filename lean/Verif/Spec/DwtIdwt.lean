import Verif.Spec.RecN

/-!
# Specification: coefficients that `wavedec`, `wavedecn` and `wavedec2` can produce in periodization mode
-/

namespace Pywt

open Spec

variable {R M : Type} [Ring R] [AddCommGroup M] [Module R M]

/-- Lengths that double from level to level, starting with `L`. -/
def DoublingLengths : ℕ → List (List M) → Prop
  | _, [] => True
  | L, d :: ds => d.length = L ∧ DoublingLengths (2 * L) ds

/-- All stages use periodization and a perfect-reconstruction wavelet. -/
def PerStages (st : List (Stage R)) : Prop :=
  ∀ s ∈ st, s.2.2 = .periodization ∧ s.2.1.Ok ∧ PR s.2.1.dec_lo s.2.1.dec_hi s.2.1.rec_lo s.2.1.rec_hi

/-- Dicts of details, from the coarsest level on, as `wavedecn` produces them: all keys except `aa…a`, in the
order of the letters, arrays of shape `S`; the extents of the transformed axes double from level to level. -/
def DoublingDicts (st : List (Stage R)) : List (List (Key × Arr M)) → List ℕ → Prop
  | [], _ => True
  | d :: ds, S =>
      d.map (·.1) = (words st.length).filter (fun k => k ≠ List.replicate st.length 'a') ∧
        (∀ p ∈ d, p.2.shape = S) ∧ DoublingDicts st ds (synthShape st S)

/-- Triples of details, from the coarsest level on; the extents of the transformed axes double from level to
level. -/
def DoublingTriples (st : List (Stage R)) : List (Arr M × Arr M × Arr M) → List ℕ → Prop
  | [], _ => True
  | p :: ps, S => p.1.shape = S ∧ p.2.1.shape = S ∧ p.2.2.shape = S ∧ DoublingTriples st ps (synthShape st S)

end Pywt
