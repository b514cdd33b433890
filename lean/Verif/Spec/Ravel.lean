import Verif.Model.Ravel
import Verif.Spec.Pack
import Verif.Spec.Shapes

/-!
# Specification: coefficients raveled into a list
-/

namespace Pywt

variable {M : Type}

/-- All samples of the details, level after level, subband after subband. -/
def flatDetails (ds : List (List (Key × Arr M))) : List M := ds.flatMap fun d => d.flatMap fun p => p.2.data

/-- Keys and shapes of the details. -/
def detailSig (ds : List (List (Key × Arr M))) : List (List (Key × List ℕ)) :=
  ds.map fun d => d.map fun p => (p.1, p.2.shape)

/-- The keys of every dict are distinct and in increasing order. -/
def KeysSorted (ds : List (List (Key × Arr M))) : Prop := ∀ d ∈ ds, (d.map (·.1)).Pairwise (· < ·)

/-- The keys of every dict are distinct. -/
def KeysDistinct (ds : List (List (Key × Arr M))) : Prop := ∀ d ∈ ds, (d.map (·.1)).Nodup

/-- The number of axes is the length of the first key: `axes` has as many entries, or is missing and
the key has a letter for every axis. -/
def KeyCount (ndim : ℕ) (axes : Option (List ℤ)) : List (List (Key × Arr M)) → Prop
  | [] => True
  | [] :: _ => False
  | (p :: _) :: _ => p.1.length = (match axes with
      | none => ndim
      | some l => l.length)

end Pywt
