import Verif.Spec.MultiDim
import Verif.Model.MultilevelN

/-!
# Specification of the multilevel separable n-D transform
-/

namespace Pywt

open Spec

variable {R M : Type} [Ring R] [AddCommGroup M] [Module R M]

/-- Approximation of level `n`: the all-low-pass subband, taken `n` times. -/
def Arr.approxN (st : List (Stage R)) (n : ℕ) (x : Arr M) : Arr M :=
  (fun y : Arr M => y.subband st (List.replicate st.length 'a'))^[n] x

/-- Details of level `n+1`: all other subbands of the approximation of level `n`. -/
def Arr.detailsN (st : List (Stage R)) (n : ℕ) (x : Arr M) : List (Key × Arr M) :=
  ((words st.length).filter fun k => k ≠ List.replicate st.length 'a').map fun k =>
    (k, (x.approxN st n).subband st k)

/-- The multilevel transform `[cA_n, {details of level n}, …, {details of level 1}]`. -/
def Arr.cascadeN (st : List (Stage R)) (n : ℕ) (x : Arr M) : List (Item M) :=
  .arr (x.approxN st n) :: ((List.range n).map fun j => Item.ofDict (x.detailsN st j)).reverse

/-- The 2-D transform `[cA_n, (cH_n, cV_n, cD_n), …, (cH_1, cV_1, cD_1)]`. -/
def Arr.cascade2 (st : List (Stage R)) (n : ℕ) (x : Arr M) : List (Item M) :=
  .arr (x.approxN st n) :: ((List.range n).map fun j => Item.ofTriple
    ((x.approxN st j).subband st ['d', 'a'], (x.approxN st j).subband st ['a', 'd'],
      (x.approxN st j).subband st ['d', 'd'])).reverse

/-- `n` levels can be computed for an array of this shape. -/
def LevelsOkN (st : List (Stage R)) (shape : List ℕ) (n : ℕ) : Prop :=
  ∀ j < n, StagesOk st ((decShape st)^[j] shape)

instance (st : List (Stage R)) (shape : List ℕ) (n : ℕ) : Decidable (LevelsOkN st shape n) := by
  unfold LevelsOkN; infer_instance

end Pywt
