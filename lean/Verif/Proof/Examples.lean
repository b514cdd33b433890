import Verif.Proof.PR
import Verif.Model.Common
import Mathlib.Algebra.Field.Rat
import Mathlib.Tactic.NormNum

/-! Two perfect-reconstruction banks with rational taps, used to show that the hypotheses of the
property theorems are met by concrete wavelets. -/

namespace Pywt

open Finset Spec

theorem parityCoeff_big {R : Type} [Semiring R] {f g : List R} {p s : ℕ}
    (h : f.length + g.length ≤ s + 1) : parityCoeff f g p s = 0 := by
  unfold parityCoeff
  apply sum_eq_zero
  intro t ht
  apply sum_eq_zero
  intro l hl
  simp at ht hl
  rw [if_neg (by omega)]

theorem PR_of_bounded {R : Type} [Semiring R] {a b c d : List R}
    (h1 : b.length = a.length) (h2 : c.length = a.length) (h3 : d.length = a.length)
    (h4 : 1 ≤ a.length)
    (h : ∀ p < 2, ∀ s < 2 * a.length, parityCoeff c a p s + parityCoeff d b p s =
      if s + 1 = a.length then 1 else 0) : PR a b c d := by
  intro p hp s
  by_cases hs : s < 2 * a.length
  · exact h p hp s hs
  · rw [parityCoeff_big (by omega), parityCoeff_big (by omega), if_neg (by omega), add_zero]

/-- The Haar bank without the square roots. -/
def haarQ : Wavelet ℚ where
  dec_lo := [1/2, 1/2]
  dec_hi := [-1/2, 1/2]
  rec_lo := [1, 1]
  rec_hi := [1, -1]

/-- The 5/3 (`bior2.2`) bank without the square roots. -/
def legallQ : Wavelet ℚ where
  dec_lo := [0, -1/8, 1/4, 3/4, 1/4, -1/8]
  dec_hi := [0, 1/2, -1, 1/2, 0, 0]
  rec_lo := [0, 1/2, 1, 1/2, 0, 0]
  rec_hi := [0, 1/8, 1/4, -3/4, 1/4, 1/8]

theorem haarQ_ok : haarQ.Ok := by decide

theorem legallQ_ok : legallQ.Ok := by decide

theorem haarQ_PR : PR haarQ.dec_lo haarQ.dec_hi haarQ.rec_lo haarQ.rec_hi :=
  PR_of_bounded rfl rfl rfl (by decide) (by decide +kernel)

theorem legallQ_PR : PR legallQ.dec_lo legallQ.dec_hi legallQ.rec_lo legallQ.rec_hi :=
  PR_of_bounded rfl rfl rfl (by decide) (by decide +kernel)

end Pywt
