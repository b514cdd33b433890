import Verif.Spec.RollN

/-!
# Words used by property C86
-/

namespace Pywt.Spec

variable {R M : Type} [AddCommGroup M]

/-- The extents of a transposed array: extent `j` is extent `π j` of the array. -/
def tShape (π : Equiv.Perm ℕ) (shape : List ℕ) : List ℕ := (List.range shape.length).map fun j => shape.getD (π j) 0

/-- `np.transpose(x, [π 0, π 1, …])`: axis `j` of the result is axis `π j` of the array. -/
def Arr.transpose (π : Equiv.Perm ℕ) (x : Arr M) : Arr M :=
  Arr.ofFn (tShape π x.shape) fun idx => x.get fun k => idx (π.symm k)

/-- The number that axis `a` of the array has in the transposed array, with the same wavelet and mode. -/
def tStage (π : Equiv.Perm ℕ) (s : Stage R) : Stage R := (π.symm s.1, s.2)

end Pywt.Spec
