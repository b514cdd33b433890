import Verif.Model.NormWarnN
import Verif.Spec.NormWarn

/-!
# Words used by property C77
-/

namespace Pywt.Spec

/-- The objects of an argument that is one object or a sequence of objects. -/
def given {α : Type} : PerAxis α → List α
  | .one a => [a]
  | .many l => l

/-- The argument with `f` applied to each object. -/
def mapObjs {α β : Type} (f : α → β) : PerAxis α → PerAxis β
  | .one a => .one (f a)
  | .many l => .many (l.map f)

/-- How many axes the argument `axes` names, for an array of `ndim` dimensions. -/
def axisCount (ndim : ℕ) : Option (List ℤ) → ℕ
  | none => ndim
  | some l => l.length

/-- A built-in discrete wavelet, whose tables are exact up to `τ` (see `tolerance`). -/
def BuiltinWithin (single : Bool) (τ : ℝ) (o : WaveletObj ℤ) : Prop :=
  ∃ name fam order, (name, fam, order) ∈ wnameToCode ∧ fam.isDiscrete = true ∧ waveletNamed single name = .ok o ∧
    ((tolerance single fam).1 : ℝ) / (tolerance single fam).2 ≤ τ

end Pywt.Spec
