import Verif.Spec.Float
import Verif.Model.MultilevelN
import Verif.Model.AxisMulti
import Verif.Spec.MultiDim
import Verif.Spec.Builtin

/-!
# Specification for C67: rounding errors of the n-D transforms

A transform over several axes is a list of stages, one for each axis: a filter bank and a mode.
-/

/-- The wavelets of all axes with the machine numbers as coefficients. -/
def Pywt.PerAxis.toFl (fl : ℝ → ℝ) : Pywt.PerAxis (Pywt.Wavelet ℝ) → Pywt.PerAxis (Pywt.Wavelet (Pywt.Fl fl))
  | .one w => .one (w.toFl fl)
  | .many l => .many (l.map fun w => w.toFl fl)

/-- An array of machine numbers. -/
def Pywt.Arr.toFl (fl : ℝ → ℝ) (x : Pywt.Arr ℝ) : Pywt.Arr (Pywt.Fl fl) :=
  ⟨x.shape, Pywt.toFl fl x.data, by simp [Pywt.toFl, x.ok]⟩

namespace Pywt.Spec

/-- Arrays of the same shape with accurate contents. -/
def ArrAccurate {fl : ℝ → ℝ} (u : ℝ) (n : ℕ) (B e : ℝ) (x' : Arr (Fl fl)) (x : Arr ℝ) : Prop :=
  x'.shape = x.shape ∧ Accurate u n B e x'.data x.data

/-- Dicts with the same keys and accurate arrays; `None` where the other has `None`. -/
def DictAccurate {fl : ℝ → ℝ} (u : ℝ) (n : ℕ) (B e : ℝ) (c' : CDict (Fl fl)) (c : CDict ℝ) : Prop :=
  List.Forall₂ (fun p' p => p'.1 = p.1 ∧ Option.Rel (ArrAccurate u n B e) p'.2 p.2) c' c

/-- Entries of a coefficient list of the same form with accurate arrays. -/
def ItemAccurate {fl : ℝ → ℝ} (u : ℝ) (n : ℕ) (B e : ℝ) : Item (Fl fl) → Item ℝ → Prop
  | .null, .null => True
  | .arr a', .arr a => ArrAccurate u n B e a' a
  | .dict c', .dict c => DictAccurate u n B e c' c
  | .tup t', .tup t => List.Forall₂ (Option.Rel (ArrAccurate u n B e)) t' t
  | _, _ => False

/-- How large the coefficients of one stage can get. -/
noncomputable def stageBound (κ : ℝ) (s : Wavelet ℝ × Mode) (X : ℝ) : ℝ :=
  max X (max (dwtBound s.2 s.1.dec_lo κ X) (dwtBound s.2 s.1.dec_hi κ X))

/-- How large the coefficients can get after all stages. -/
noncomputable def stagesBound (κ : ℝ) : List (Wavelet ℝ × Mode) → ℝ → ℝ
  | [], X => X
  | s :: l, X => stagesBound κ l (stageBound κ s X)

/-- How many roundings a coefficient goes through. -/
def stagesDepth (l : List (Wavelet ℝ × Mode)) : ℕ := (l.map fun s => dwtDepth s.2 s.1.dec_len).sum

/-- Nothing overflows in any stage. -/
def StagesFit (u κ Ω : ℝ) : List (Wavelet ℝ × Mode) → ℕ → ℝ → ℝ → Prop
  | [], _, _, _ => True
  | s :: l, d, X, e => DwtFits u κ Ω s.2 s.1 d X e ∧
      StagesFit u κ Ω l (d + dwtDepth s.2 s.1.dec_len) (stageBound κ s X) (stageBound 0 s e)

/-- How large the samples of one stage of the reconstruction can get. -/
noncomputable def recStageBound (κ : ℝ) (s : Wavelet ℝ × Mode) (X : ℝ) : ℝ := max X (idwtBound s.1 κ X)

/-- How large the samples can get after all stages of the reconstruction, in the order in which they are done. -/
noncomputable def recStagesBound (κ : ℝ) : List (Wavelet ℝ × Mode) → ℝ → ℝ
  | [], X => X
  | s :: l, X => recStagesBound κ l (recStageBound κ s X)

/-- How many roundings a reconstructed sample goes through. -/
def recStagesDepth (l : List (Wavelet ℝ × Mode)) : ℕ := (l.map fun s => idwtDepth s.1).sum

/-- Nothing overflows in any stage of the reconstruction. -/
def RecStagesFit (u κ Ω : ℝ) : List (Wavelet ℝ × Mode) → ℕ → ℝ → ℝ → Prop
  | [], _, _, _ => True
  | s :: l, d, X, e => IdwtFits u κ Ω s.1 d X e ∧
      RecStagesFit u κ Ω l (d + idwtDepth s.1) (recStageBound κ s X) (recStageBound 0 s e)

/-- The stages of `n` levels: all stages of a level, `n` times. -/
def levels (n : ℕ) (l : List (Wavelet ℝ × Mode)) : List (Wavelet ℝ × Mode) := (List.replicate n l).flatten

end Pywt.Spec

namespace Pywt.Spec

/-- Distinct axes, each with a wavelet that reconstructs up to `ε` and long enough for its mode. -/
def StagesNear (ε : ℝ) (st : List (Stage ℝ)) (shape : List ℕ) : Prop :=
  (st.map (·.1)).Nodup ∧ ∀ s ∈ st, s.1 < shape.length ∧ s.2.1.Ok ∧
    PRWithin ε s.2.1.dec_lo s.2.1.dec_hi s.2.1.rec_lo s.2.1.rec_hi ∧ LenOk s.2.2 (shape.getD s.1 0)

/-- `a` restricted to the shape of `b` is `b` up to `t`. -/
def ArrWithin (t : ℝ) (a b : Arr ℝ) : Prop :=
  a.shape.length = b.shape.length ∧ (∀ j < b.shape.length, b.shape.getD j 0 ≤ a.shape.getD j 0) ∧
    ∀ idx, InB b.shape idx → |a.get idx - b.get idx| ≤ t

/-- How the errors of inexact stages add up, for coefficients off by `t` and samples of magnitude at most `B`; the stages
in the order of the reconstruction. -/
noncomputable def stagesErr (ε B : ℝ) : List (Wavelet ℝ × Mode) → ℝ → ℝ
  | [], t => t
  | s :: l, t => stagesErr ε B l (idwtBound s.1 0 t + ε * extMax s.2 s.1.dec_len B)

/-- The coefficients stored for a built-in discrete wavelet whose reconstruction error (C35) is at most `ε`. -/
def BuiltinBank (single : Bool) (ε : ℝ) (w : Wavelet ℝ) : Prop :=
  ∃ name fam order o, (name, fam, order) ∈ wnameToCode ∧ fam.isDiscrete = true ∧ waveletNamed single name = .ok o ∧
    w = realBank o.w ∧ ((tolerance single fam).1 : ℝ) / (tolerance single fam).2 ≤ ε

end Pywt.Spec
