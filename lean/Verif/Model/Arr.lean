import Mathlib.Algebra.BigOperators.Group.List.Basic

/-!
# n-D arrays

A NumPy array as its shape and its elements in C (row-major) order.  An index is a function from
axis numbers to positions; its values at axis numbers beyond the dimension are irrelevant.
-/

namespace Pywt

/-- An n-D array in C order. -/
structure Arr (M : Type) where
  shape : List Nat
  data : List M
  ok : data.length = shape.prod
  deriving DecidableEq

/-- The index lies inside the shape. -/
def InB (shape : List Nat) (idx : Nat → Nat) : Prop := ∀ k < shape.length, idx k < shape.getD k 0

/-- Position of the element `idx[0], …, idx[j-1]` in C order. -/
def ravelIx (shape : List Nat) (idx : Nat → Nat) : Nat → Nat
  | 0 => 0
  | j + 1 => ravelIx shape idx j * shape.getD j 0 + idx j

/-- Inverse of `ravelIx`. -/
def unravelIx (shape : List Nat) : Nat → Nat → Nat → Nat
  | 0, _, _ => 0
  | j + 1, p, k =>
      if k = j then p % shape.getD j 0 else unravelIx shape j (p / shape.getD j 0) k

namespace Arr
variable {M : Type}

def ndim (a : Arr M) : Nat := a.shape.length

/-- Element access. -/
def get [Zero M] (a : Arr M) (idx : Nat → Nat) : M :=
  a.data.getD (ravelIx a.shape idx a.shape.length) 0

/-- The array with the given elements. -/
def ofFn (shape : List Nat) (f : (Nat → Nat) → M) : Arr M where
  shape := shape
  data := (List.range shape.prod).map fun p => f (unravelIx shape shape.length p)
  ok := by simp

end Arr

end Pywt
