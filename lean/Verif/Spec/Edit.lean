import Verif.Spec.Threshold
import Verif.Spec.Float

/-!
# Specification for C63: edited coefficients
-/

namespace Pywt.Spec

/-- The squared Euclidean distance of two sequences. -/
def dist2 {R : Type} [Ring R] (x y : List R) : R := (List.zipWith (fun a b => (a - b) * (a - b)) x y).sum

/-- The squared Euclidean distance of two lists of arrays, taken together. -/
def dist2s {R : Type} [Ring R] (xs ys : List (List R)) : R := (List.zipWith dist2 xs ys).sum

/-- The squared Euclidean distance of two arrays of the same shape. -/
def Arr.dist2 {R : Type} [Ring R] (a b : Arr R) : R := Spec.dist2 a.data b.data

/-- The squared Euclidean distance of two lists of dicts with the same keys in the same order. -/
def dist2D {R : Type} [Ring R] (ds es : List (List (List Char × Arr R))) : R :=
  (List.zipWith (fun d e => (List.zipWith (fun p q => Arr.dist2 p.2 q.2) d e).sum) ds es).sum

/-- How many coefficients are not zero. -/
def nonzeros {R : Type} [Zero R] [DecidableEq R] (cs : List (List R)) : ℕ := cs.flatten.countP fun v => decide (v ≠ 0)

/-- A 1-D array. -/
def vec1 {E : Type} (x : List E) : Arr E := ⟨[x.length], x, by simp⟩

/-- `c'` is the 1-D array that `threshold(c, t, mode)` returns, and all its entries are numbers. -/
def Thresholded {K : Type} [Field K] [LinearOrder K] (t : K) (mode : String) (c c' : List K) : Prop :=
  threshold realDtype (vec1 c) t mode 0 = .ok (vec1 (c'.map Cell.num))

/-- The arrays `cs'` result from `cs` by thresholding the arrays for which a positive threshold is given and leaving the
others as they are (usually the approximation). -/
def ThresholdedAll {K : Type} [Field K] [LinearOrder K] (mode : String) :
    List (Option K) → List (List K) → List (List K) → Prop
  | [], [], [] => True
  | none :: ts, c :: cs, c' :: cs' => c' = c ∧ ThresholdedAll mode ts cs cs'
  | some t :: ts, c :: cs, c' :: cs' => 0 < t ∧ Thresholded t mode c c' ∧ ThresholdedAll mode ts cs cs'
  | _, _, _ => False

/-- The sum of the squares of the thresholds, each counted as often as its array has entries. -/
def thresholdError {K : Type} [Field K] (ts : List (Option K)) (cs : List (List K)) : K :=
  (List.zipWith (fun t c => (c.length : K) * (t.getD 0) ^ 2) ts cs).sum

/-- All entries of `x'` and `x` differ by at most `e`, and there are as many. -/
def Within (e : ℝ) (x' x : List ℝ) : Prop := List.Forall₂ (fun a b => |a - b| ≤ e) x' x

/-- By how much one level of decomposition can enlarge an error of the samples. -/
noncomputable def decGain (mode : Mode) (w : Wavelet ℝ) : ℝ :=
  max 1 (max (l1 w.dec_lo) (l1 w.dec_hi) *
    (if mode = .smooth ∨ mode = .antireflect then 2 * (w.dec_len : ℝ) + 1 else 1))

/-- By how much one level of reconstruction can enlarge an error of the coefficients. -/
noncomputable def recGain (w : Wavelet ℝ) : ℝ := max 1 (l1 w.rec_lo + l1 w.rec_hi)

end Pywt.Spec
