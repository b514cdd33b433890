import Verif.Model.Threshold
import Mathlib.Algebra.Order.Group.Unbundled.Abs

/-!
# Vocabulary for thresholding
-/

namespace Pywt.Spec

variable {K E : Type} [Field K] [LinearOrder K] [AddCommGroup E] [Module K E]

/-- `mag` is an absolute value, and the order of a real dtype fits it. -/
structure IsMagnitude (dt : Dtype K E) : Prop where
  nonneg : ∀ x, 0 ≤ dt.mag x
  zero : ∀ x, dt.mag x = 0 ↔ x = 0
  smul : ∀ (c : K) (x : E), dt.mag (c • x) = |c| * dt.mag x
  real : ∀ re, dt.real = some re → ∀ x, dt.mag x = |re x|

/-- `y` points in the direction of `x`: same sign, or same complex phase. -/
def SamePhase (x y : E) : Prop := ∃ c : K, 0 ≤ c ∧ y = c • x

/-- Real data. -/
def realDtype : Dtype K K := ⟨fun x => |x|, some fun x => x⟩

end Pywt.Spec
