import Verif.Spec.RecN

/-!
# Specification: linear combinations of n-D arrays and of n-D coefficients
-/

namespace Pywt

open Spec

variable {R M : Type} [Ring R] [AddCommGroup M] [Module R M]

/-- `p * a + q * b`, sample by sample. -/
def Arr.lincomb (p q : R) (a b : Arr M) : Arr M :=
  Arr.ofFn a.shape fun idx => p • a.get idx + q • b.get idx

/-- `p * a + q * b` for dicts of arrays, key by key. -/
def lincombD (p q : R) (d e : List (List Char × Arr M)) : List (List Char × Arr M) :=
  List.zipWith (fun u v => (u.1, Arr.lincomb p q u.2 v.2)) d e

/-- `p * a + q * b` for triples of arrays. -/
def lincombT (p q : R) (u v : Arr M × Arr M × Arr M) : Arr M × Arr M × Arr M :=
  (Arr.lincomb p q u.1 v.1, Arr.lincomb p q u.2.1 v.2.1, Arr.lincomb p q u.2.2 v.2.2)

/-- The keys of the dicts, with the shape of the array of each. -/
def layout (ds : List (List (List Char × Arr M))) : List (List (List Char × List ℕ)) :=
  ds.map fun d => d.map fun p => (p.1, p.2.shape)

/-- The dicts without the arrays at the positions in `ps`. -/
def without (ps : List (ℕ × List Char)) (ds : List (List (List Char × Arr M))) :
    List (List (List Char × Arr M)) :=
  ds.mapIdx fun j d => d.filter fun p => decide ((j, p.1) ∉ ps)

/-- The dicts with zeros for the arrays at the positions in `ps`. -/
def zeroed (ps : List (ℕ × List Char)) (ds : List (List (List Char × Arr M))) :
    List (List (List Char × Arr M)) :=
  ds.mapIdx fun j d => d.map fun p => (p.1, if (j, p.1) ∈ ps then Arr.zero p.2.shape else p.2)

end Pywt
