import Verif.Spec.Edit

/-!
# Vocabulary for C72: penalties
-/

namespace Pywt.Spec

/-- The sum of the absolute values of the coefficients, each times the threshold of its array (0 if there is none). -/
def penalty1 {K : Type} [Field K] [LinearOrder K] (ts : List (Option K)) (cs : List (List K)) : K :=
  (List.zipWith (fun t c => t.getD 0 * (c.map fun v => |v|).sum) ts cs).sum

/-- The number of coefficients that are not zero, each counted with the square of the threshold of its array. -/
def penalty0 {K : Type} [Field K] [DecidableEq K] (ts : List (Option K)) (cs : List (List K)) : K :=
  (List.zipWith (fun t c => t.getD 0 ^ 2 * ((c.countP fun v => decide (v ≠ 0) : ℕ) : K)) ts cs).sum

/-- Keep the arrays marked `true`, fill the others with zeros. -/
def keepOnly {R : Type} [Zero R] (keep : List Bool) (cs : List (List R)) : List (List R) :=
  List.zipWith (fun b c => if b then c else c.map fun _ => 0) keep cs

/-- All arrays of the result of `wavedecn`: the approximation, then the details in the order of levels and keys. -/
def coefArrs {M : Type} (A : Arr M) (ds : List (List (List Char × Arr M))) : List (Arr M) :=
  A :: ds.flatMap fun d => d.map fun p => p.2

/-- The arrays `as'` result from `as` by `threshold(a, t, mode)` for the arrays for which a positive threshold is given. -/
def ThresholdedArrs {K : Type} [Field K] [LinearOrder K] (mode : String) :
    List (Option K) → List (Arr K) → List (Arr K) → Prop
  | [], [], [] => True
  | none :: ts, a :: as, a' :: as' => a' = a ∧ ThresholdedArrs mode ts as as'
  | some t :: ts, a :: as, a' :: as' =>
      0 < t ∧ threshold realDtype a t mode 0 = .ok (a'.mapCells Cell.num) ∧ ThresholdedArrs mode ts as as'
  | _, _, _ => False

end Pywt.Spec
