import Verif.Spec.AdjointN
import Verif.Spec.SwtN
import Verif.Spec.Edit

/-!
# Words used by property C78
-/

namespace Pywt.Spec

/-- The dict has the details of a level along `d` axes: all words of `d` letters but `a…a`, in the order of the transform, with
arrays of shape `S`. -/
def DetailsOf {R : Type} (d : ℕ) (S : List ℕ) (e : List (List Char × Arr R)) : Prop :=
  dictShape e = ((words d).filter fun k => k ≠ List.replicate d 'a').map fun k => (k, S)

/-- The squared distance of two sets of coefficients: the approximations and the dicts of details, array by array. -/
def coefDist {R : Type} [Ring R] (A : Arr R) (ds : List (List (List Char × Arr R))) (B : Arr R)
    (es : List (List (List Char × Arr R))) : R :=
  dist2 A.data B.data +
    (List.zipWith (fun d e => (List.zipWith (fun p q : List Char × Arr R => dist2 p.2.data q.2.data) d e).sum) ds es).sum

/-- The same for the coefficients of the 2-D transform, whose details are triples. -/
def coefDist2 {R : Type} [Ring R] (A : Arr R) (ps : List (Arr R × Arr R × Arr R)) (B : Arr R) (qs : List (Arr R × Arr R × Arr R)) : R :=
  dist2 A.data B.data + (List.zipWith (fun p q : Arr R × Arr R × Arr R =>
    dist2 p.1.data q.1.data + dist2 p.2.1.data q.2.1.data + dist2 p.2.2.data q.2.2.data) ps qs).sum

end Pywt.Spec
