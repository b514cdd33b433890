import Verif.Spec.Edit
import Verif.Spec.MultiDim

/-!
# Words used by property C82
-/

namespace Pywt.Spec

variable {M : Type}

/-- The dict of `wavedecn` that holds the arrays of the triple `(cH, cV, cD)` of `wavedec2`. -/
def tripleDict (t : Arr M × Arr M × Arr M) : List (List Char × Arr M) :=
  [(['a', 'd'], t.2.1), (['d', 'a'], t.1), (['d', 'd'], t.2.2)]

/-- The shapes of the arrays of a triple. -/
def tripleShape (t : Arr M × Arr M × Arr M) : List ℕ × List ℕ × List ℕ := (t.1.shape, t.2.1.shape, t.2.2.shape)

/-- The squared Euclidean distance of two lists of triples. -/
def dist2T {R : Type} [Ring R] (ps qs : List (Arr R × Arr R × Arr R)) : R :=
  (List.zipWith (fun p q => Arr.dist2 p.1 q.1 + Arr.dist2 p.2.1 q.2.1 + Arr.dist2 p.2.2 q.2.2) ps qs).sum

end Pywt.Spec
