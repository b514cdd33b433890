import Verif.Spec.Ext

/-!
# Specification: windows of extended signals, and the laws of the extension modes
-/

namespace Pywt
namespace Spec

variable {M : Type}

/-- The positions `-l, …, len-l-1` of a bi-infinite signal. -/
def window (e : ℤ → M) (l len : ℕ) : List M := (List.range len).map fun i : ℕ => e ((i : ℤ) - l)

/-- The names of the modes. -/
def modeName : Mode → String
  | .zero => "zero"
  | .symmetric => "symmetric"
  | .constant => "constant"
  | .smooth => "smooth"
  | .periodic => "periodic"
  | .periodization => "periodization"
  | .reflect => "reflect"
  | .antisymmetric => "antisymmetric"
  | .antireflect => "antireflect"

/-- What the documentation says about each mode, as laws of a bi-infinite signal `e` (`N ≥ 1` samples): zeros outside;
the edge value outside; mirrored at the edges (`symmetric`: edge sample repeated, `reflect`: not repeated;
`antisymmetric`, `antireflect`: with a change of sign, respectively through the edge value); continued along the
straight line through the two samples at the edge; repeated (after making the length even, for `periodization`). -/
def ExtLaws [AddCommGroup M] (mode : Mode) (x : List M) (e : ℤ → M) : Prop :=
  let N : ℤ := x.length
  (∀ k : ℕ, k < x.length → e k = x.getD k 0) ∧
  match mode with
  | .zero => ∀ p, p < 0 ∨ N ≤ p → e p = 0
  | .constant => (∀ p, p < 0 → e p = e 0) ∧ ∀ p, N ≤ p → e p = e (N - 1)
  | .symmetric => (∀ p, e (-1 - p) = e p) ∧ ∀ p, e (2 * N - 1 - p) = e p
  | .antisymmetric => (∀ p, e (-1 - p) = -e p) ∧ ∀ p, e (2 * N - 1 - p) = -e p
  | .reflect => (∀ p, e (-p) = e p) ∧ ∀ p, e (2 * (N - 1) - p) = e p
  | .antireflect => (∀ p, e (-p) + e p = e 0 + e 0) ∧ ∀ p, e (2 * (N - 1) - p) + e p = e (N - 1) + e (N - 1)
  | .smooth =>
      if N = 1 then ∀ p, e p = e 0
      else (∀ p, p ≤ 0 → e (p - 1) - e p = e 0 - e 1) ∧ ∀ p, N - 1 ≤ p → e (p + 1) - e p = e (N - 1) - e (N - 2)
  | .periodic => ∀ p, e (p + N) = e p
  | .periodization =>
      if N % 2 = 0 then ∀ p, e (p + N) = e p else e N = e (N - 1) ∧ ∀ p, e (p + (N + 1)) = e p

end Spec
end Pywt
