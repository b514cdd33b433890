import Verif.Spec.Bank
import Verif.Model.Builtin
import Mathlib.Analysis.Real.Sqrt

/-!
# Specification: filter banks with perfect reconstruction up to a tolerance
-/

namespace Pywt
namespace Spec

/-- Perfect reconstruction up to `ε`: for both parities of the synthesis taps the deviations from the
perfect-reconstruction identities (`Spec.PR`) add up to at most `ε` in absolute value. -/
def PRWithin (ε : ℝ) (dec_lo dec_hi rec_lo rec_hi : List ℝ) : Prop :=
  ∀ p < 2, ∑ s ∈ Finset.range (2 * dec_lo.length),
    |parityCoeff rec_lo dec_lo p s + parityCoeff rec_hi dec_hi p s -
      (if s + 1 = dec_lo.length then 1 else 0)| ≤ ε

/-- The filters of a built-in wavelet as real numbers. -/
noncomputable def realBank (w : Wavelet ℤ) : Wavelet ℝ :=
  ⟨w.dec_lo.map fun z => (fxVal z : ℝ), w.dec_hi.map fun z => (fxVal z : ℝ),
    w.rec_lo.map fun z => (fxVal z : ℝ), w.rec_hi.map fun z => (fxVal z : ℝ)⟩

/-- The tolerance to which the tables of a family reconstruct, as a fraction, in single and in double
precision. -/
def tolerance (single : Bool) : Family → ℕ × ℕ
  | .dmey => (67, 10 ^ 4)
  | .sym => if single then (2, 10 ^ 7) else (3, 10 ^ 11)
  | .bior | .rbio => if single then (2, 10 ^ 7) else (21, 10 ^ 13)
  | _ => if single then (2, 10 ^ 7) else (3, 10 ^ 16)

/-- The modes in which every extended sample is, up to sign, a sample of the signal or zero. -/
def Repeats (mode : Mode) : Prop := mode ≠ .smooth ∧ mode ≠ .antireflect

/-- The wavelets the documentation lists: `db1`–`db38`, `sym2`–`sym20`, `coif1`–`coif17`, `bior`/`rbio`
1.1, 1.3, 1.5, 2.2, 2.4, 2.6, 2.8, 3.1, 3.3, 3.5, 3.7, 3.9, 4.4, 5.5, 6.8 (as `10·N + M`).  Haar and Meyer
wavelets have no order. -/
def OrderExists : Family → ℕ → Prop
  | .haar, _ | .dmey, _ => True
  | .db, n => 1 ≤ n ∧ n ≤ 38
  | .sym, n => 2 ≤ n ∧ n ≤ 20
  | .coif, n => 1 ≤ n ∧ n ≤ 17
  | .bior, n | .rbio, n => n ∈ [11, 13, 15, 22, 24, 26, 28, 31, 33, 35, 37, 39, 44, 55, 68]
  | _, _ => False

end Spec
end Pywt
