import Verif.Spec.Multi

/-!
# Vocabulary for C71: scalar products and adjoints
-/

namespace Pywt.Spec

/-- The scalar product of two sequences. -/
def sprod {R : Type} [Mul R] [Zero R] [Add R] (x y : List R) : R := (List.zipWith (· * ·) x y).sum

/-- The extension of a signal of `N` samples adds no copies of its samples: zeros, or nothing in periodization mode. -/
def NoCopies (mode : Mode) (N : ℕ) : Prop := mode = .zero ∨ mode = .periodization ∧ N % 2 = 0

instance (mode : Mode) (N : ℕ) : Decidable (NoCopies mode N) := by unfold NoCopies; infer_instance

end Pywt.Spec
