import Verif.Spec.Multi
import Verif.Spec.Swt
import Verif.Spec.Builtin

/-!
# Specification: polynomial signals, vanishing moments, and the samples a coefficient looks at
-/

namespace Pywt
namespace Spec

open Finset

/-- `e` is (the sequence of samples of) a polynomial of degree below `p`. -/
def IsPoly (R : Type) {M : Type} [CommRing R] [AddCommGroup M] [Module R M] (p : ℕ) (e : ℤ → M) : Prop :=
  ∃ c : ℕ → M, ∀ n : ℤ, e n = ∑ i ∈ range p, (n : R) ^ i • c i

/-- Moment `i` of a filter: `Σ_k k^i·f[k]`. -/
def moment {R : Type} [Semiring R] (f : List R) (i : ℕ) : R :=
  ∑ k ∈ range f.length, f.getD k 0 * (k : R) ^ i

/-- The filter has `p` vanishing moments. -/
def Vanishing {R : Type} [Semiring R] (p : ℕ) (f : List R) : Prop := ∀ i < p, moment f i = 0

/-- Coefficient `k` of one analysis step with filters of `F` taps looks at the samples from
`lastIdx mode F k` downwards, `F` of them. -/
def lastIdx (mode : Mode) (F k : ℕ) : ℕ :=
  if mode = .periodization then F / 2 + 2 * k else 2 * k + 1

/-- The last sample of the signal that coefficient `k` of level `j` looks at. -/
def windowEnd (mode : Mode) (F j k : ℕ) : ℕ :=
  if mode = .periodization then 2 ^ j * k + F / 2 * (2 ^ j - 1) else 2 ^ j * (k + 1) - 1

/-- Sample `n` is one of the `(F-1)·(2^j-1)+1` samples that coefficient `k` of level `j` looks at. -/
def InWindow (mode : Mode) (F j k n : ℕ) : Prop :=
  windowEnd mode F j k ≤ n + (F - 1) * (2 ^ j - 1) ∧ n ≤ windowEnd mode F j k

/-- The samples that coefficient `k` of level `j` looks at all belong to the signal of `N` samples. -/
def Interior (mode : Mode) (F N j k : ℕ) : Prop :=
  (F - 1) * (2 ^ j - 1) ≤ windowEnd mode F j k ∧ windowEnd mode F j k < N

instance (mode : Mode) (F j k n : ℕ) : Decidable (InWindow mode F j k n) := by
  unfold InWindow; infer_instance

instance (mode : Mode) (F N j k : ℕ) : Decidable (Interior mode F N j k) := by
  unfold Interior; infer_instance

/-- The samples around `n` that level `m+j` looks at all belong to the signal. -/
def SwtInterior (F m N j n : ℕ) : Prop :=
  2 ^ m * (2 ^ j - 1) * (F - 1 - F / 2) ≤ n ∧ n + 2 ^ m * (2 ^ j - 1) * (F / 2) < N

instance (F m N j n : ℕ) : Decidable (SwtInterior F m N j n) := by
  unfold SwtInterior; infer_instance

/-- Coefficient `k` of level `j` influences sample `n` of the reconstruction: `n` is one of the
`(F-2)·(2^j-1)+2^j` samples from `2^j·k - (F-2)·(2^j-1)` to `2^j·(k+1) - 1`. -/
def Influences (F j k n : ℕ) : Prop :=
  n < 2 ^ j * (k + 1) ∧ 2 ^ j * k ≤ n + (F - 2) * (2 ^ j - 1)

instance (F j k n : ℕ) : Decidable (Influences F j k n) := by unfold Influences; infer_instance

/-- How closely (as a power of two, relative to the size of the terms of the sum) the tables of a family
satisfy the moment conditions. -/
def momentBits (single : Bool) : Family → ℕ
  | .sym => if single then 23 else 35
  | .bior | .rbio => if single then 23 else 38
  | _ => if single then 23 else 51

end Spec
end Pywt
