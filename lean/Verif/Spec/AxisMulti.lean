import Verif.Model.AxisMulti
import Verif.Spec.Pack
import Verif.Spec.Multi
import Verif.Spec.MultiDim

/-!
# Specification: the multilevel 1-D transform along an axis
-/

namespace Pywt
open Spec

variable {R M : Type} [Ring R] [AddCommGroup M] [Module R M]

/-- `axis` denotes axis number `ax` of an array with `ndim` axes. -/
def AxisIs (ndim : ℕ) (axis : ℤ) (ax : ℕ) : Prop :=
  (ax : ℤ) = (if axis < 0 then axis + (ndim : ℤ) else axis) ∧ ax < ndim

/-- The cascade `[cA_n, cD_n, …, cD_1]` of every line along an axis. -/
def Arr.cascadeAlong (ax : ℕ) (mode : Mode) (lo hi : List R) (n : ℕ) (x : Arr M) : List (Arr M) :=
  x.along ax (approxLen mode lo.length (x.shape.getD ax 0) n) (approx mode lo n) ::
    ((List.range n).map fun j =>
      x.along ax (approxLen mode lo.length (x.shape.getD ax 0) (j + 1)) (detail mode lo hi j)).reverse

/-- The inverse cascade on one line: starting with the approximation, each detail is combined with
as many samples of the current approximation as it has. -/
def recombine (mode : Mode) (lo hi : List R) (a : List M) (ds : List (List M)) : List M :=
  ds.foldl (fun a d => synthesis mode lo hi (a.take d.length) d) a

/-- The length of the result. -/
def recLen (mode : Mode) (F n : ℕ) (ds : List ℕ) : ℕ := ds.foldl (fun _ d => synthLen mode d F) n

/-- Lengths that can be recombined: the approximation is as long as the detail, or one longer. -/
def RecOk (mode : Mode) (F : ℕ) : ℕ → List ℕ → Prop
  | _, [] => True
  | n, d :: ds => (n = d ∨ n = d + 1) ∧ 1 ≤ synthLen mode d F ∧ RecOk mode F (synthLen mode d F) ds

instance RecOk.decidable (mode : Mode) (F : ℕ) : (n : ℕ) → (ds : List ℕ) →
    Decidable (RecOk mode F n ds)
  | _, [] => isTrue trivial
  | n, d :: ds => by
      have := RecOk.decidable mode F (synthLen mode d F) ds
      unfold RecOk
      infer_instance

/-- The shapes agree on all axes but one. -/
def SameBut (ax : ℕ) (s t : List ℕ) : Prop := s.set ax 0 = t.set ax 0

end Pywt
