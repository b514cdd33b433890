import Verif.Spec.Adjoint
import Verif.Spec.SynthN
import Verif.Model.Objects

/-!
# Vocabulary for C71 (n-D)
-/

namespace Pywt

/-- The scalar product of two arrays: the sum of `x[idx] * y[idx]` over the positions of `x`. -/
def Arr.sprod {R : Type} [Mul R] [Zero R] [Add R] (x y : Arr R) : R :=
  (Arr.ofFn x.shape fun idx => x.get idx * y.get idx).data.sum

/-- The argument `wavelet` with every wavelet replaced by `Wavelet(filter_bank=w.inverse_filter_bank)`. -/
def PerAxis.inverse {R : Type} : PerAxis (Wavelet R) → PerAxis (Wavelet R)
  | .one w => .one w.inverse
  | .many l => .many (l.map Wavelet.inverse)

/-- The scalar product of two dicts that list the same subbands in the same order. -/
def dictProd {R : Type} [Mul R] [Zero R] [Add R] (d e : List (List Char × Arr R)) : R :=
  (List.zipWith (fun p q : List Char × Arr R => p.2.sprod q.2) d e).sum

/-- The keys of a dict and the shapes of its arrays. -/
def dictShape {R : Type} (d : List (List Char × Arr R)) : List (List Char × List ℕ) := d.map fun p => (p.1, p.2.shape)

/-- Distinct axes, each with a well-formed wavelet and a mode that adds no copies in any of `n` levels: mode `zero`, or
`periodization` with an extent divisible by `2^n`. -/
def StagesAdj {R : Type} (n : ℕ) (st : List (ℕ × Wavelet R × Mode)) (shape : List ℕ) : Prop :=
  (st.map (·.1)).Nodup ∧ ∀ s ∈ st, s.1 < shape.length ∧ s.2.1.Ok ∧ 1 ≤ shape.getD s.1 0 ∧
    (s.2.2 = .zero ∨ s.2.2 = .periodization ∧ 2 ^ n ∣ shape.getD s.1 0)

end Pywt
