import Verif.Spec.Roll
import Verif.Proof.Roll
import Verif.Props.Moments
import Verif.Props.Spin

/-!
# C83: the decimated transforms of circularly shifted signals

`shift c x` is `np.roll(x, c)`.  With `mode='periodization'` a transform of `l` levels commutes with shifts by multiples of
`2^l`.
-/

namespace Pywt

open Finset Spec

set_option autoImplicit false
set_option linter.unusedSectionVars false

variable {R M : Type} [CommRing R] [AddCommGroup M] [Module R M]

/-- **C83.** One level: the coefficients of a signal of even length shifted by `2c` are the coefficients of the signal,
shifted by `c`. -/
theorem C83_dwt_shift {w : Wavelet R} (hw : w.Ok) {x : List M} (h0 : 1 ≤ x.length) (h2 : x.length % 2 = 0) (c : ℤ)
    {a d : List M} (h : dwt w .periodization x = .ok (a, d)) :
    dwt w .periodization (shift (2 * c) x) = .ok (shift c a, shift c d) := by
  have hs : ∀ v : List M, 1 ≤ v.length → SignalOk .periodization v := fun v hv => ⟨hv, by simp⟩
  rw [dwt_ok hw (hs x h0), Except.ok.injEq, Prod.mk.injEq] at h
  rw [dwt_ok hw (hs _ (by rw [shift_length]; exact h0)), ← h.1, ← h.2,
    analysis_roll (m := x.length / 2) (by omega) (by omega), analysis_roll (m := x.length / 2) (by omega) (by omega)]

/-- **C83.** One level of reconstruction: shifting both bands by `c` shifts the result by `2c`. -/
theorem C83_idwt_shift {w : Wavelet R} (hw : w.Ok) {a d : List M} (ha : 1 ≤ a.length) (hd : d.length = a.length) (c : ℤ)
    {y : List M} (h : idwt w .periodization (some a) (some d) = .ok y) :
    idwt w .periodization (some (shift c a)) (some (shift c d)) = .ok (shift (2 * c) y) := by
  have hl : 1 ≤ synthLen .periodization a.length w.rec_len := by
    unfold synthLen
    simp
    omega
  rw [idwt_ok hw hd.symm hl, Except.ok.injEq] at h
  rw [idwt_ok hw (by rw [shift_length, shift_length, hd]) (by rw [shift_length]; exact hl), synthesis_roll ha hd, h]

/-- **C83.** `l` levels: for a signal whose length is a multiple of `2^l`, shifted by `2^l·c`, the approximation and the
coarsest details are shifted by `c`, the details of each finer level by twice as much as those before. -/
theorem C83_wavedec_shift {w : Wavelet R} (hw : w.Ok) {x : List M} (h0 : 1 ≤ x.length) {l : ℕ} (hl : 2 ^ l ∣ x.length)
    (c : ℤ) {cs : List (List M)} (h : wavedec w .periodization (some (l : ℤ)) x = .ok cs) :
    wavedec w .periodization (some (l : ℤ)) (shift (2 ^ l * c) x) = .ok (shiftAll c cs) := by
  rw [(wavedec_cascade hw h).2, C09_wavedec_explicit_level hw, if_neg (by omega), if_pos, Int.toNat_natCast,
    cascade_roll h0 c hl]
  rw [Int.toNat_natCast, shift_length]
  exact levelsOk_per_div h0 hl

/-- **C83.** `waverec` of shifted coefficients, of any values: the result is shifted by `2^l·c` with `l` the number of
detail arrays. -/
theorem C83_waverec_shift {w : Wavelet R} (hw : w.Ok) {a : List M} {ds : List (List M)} (ha : 1 ≤ a.length)
    (hds : DoublingLengths a.length ds) (c : ℤ) {y : List M}
    (h : waverec w .periodization ((a :: ds).map some) = .ok (some y)) :
    waverec w .periodization ((shiftAll c (a :: ds)).map some) = .ok (some (shift (2 ^ ds.length * c) y)) := by
  rw [(waverec_per hw ha hds).1, Except.ok.injEq, Option.some.injEq] at h
  have := (waverec_per (R := R) hw (a := shift c a) (ds := ds.mapIdx fun i d => shift (2 ^ i * c) d)
    (by rw [shift_length]; exact ha) (by rw [shift_length]; exact doubling_roll c hds _)).1
  rw [show shiftAll c (a :: ds) = shift c a :: ds.mapIdx fun i d => shift (2 ^ i * c) d from rfl, this,
    recPer_roll _ _ ds a c ha hds, h]

/-- The hypotheses of the theorems are met by eight samples, two levels of the 5/3 bank and shifts to both sides. -/
example : 1 ≤ ([3, 1, 4, 1, 5, 9, 2, 6] : List ℚ).length ∧ 2 ^ 2 ∣ ([3, 1, 4, 1, 5, 9, 2, 6] : List ℚ).length ∧
    (∃ cs, wavedec legallQ .periodization (some ((2 : ℕ) : ℤ)) ([3, 1, 4, 1, 5, 9, 2, 6] : List ℚ) = .ok cs ∧
      shiftAll (-1) cs ≠ cs ∧ wavedec legallQ .periodization (some ((2 : ℕ) : ℤ)) ([5, 9, 2, 6, 3, 1, 4, 1] : List ℚ) =
        .ok (shiftAll (-1) cs)) ∧
    DoublingLengths ([1, 2] : List ℚ).length [[3, 4], [5, 6, 7, (8 : ℚ)]] := by
  refine ⟨by decide, by decide, ?_, ⟨rfl, rfl, trivial⟩⟩
  obtain ⟨cs, h⟩ : ∃ cs, wavedec legallQ .periodization (some ((2 : ℕ) : ℤ)) ([3, 1, 4, 1, 5, 9, 2, 6] : List ℚ) = .ok cs :=
    ⟨_, by rw [C09_wavedec_explicit_level legallQ_ok, if_neg (by decide), if_pos (levelsOk_per_div (by decide) (by decide))]⟩
  have hr := C83_wavedec_shift legallQ_ok (by decide) (by decide) (-1) h
  rw [show shift (2 ^ 2 * -1) ([3, 1, 4, 1, 5, 9, 2, 6] : List ℚ) = [5, 9, 2, 6, 3, 1, 4, 1] by decide +kernel] at hr
  refine ⟨cs, h, ?_, hr⟩
  rw [(wavedec_cascade legallQ_ok h).2]
  decide +kernel

/-- Shifts by less than a multiple of `2^l` do not commute with the transform: one level of Haar, one sample. -/
theorem C83_odd_shift_counterexample : ∃ x : List ℚ, ∃ a d, dwt haarQ .periodization x = .ok (a, d) ∧
    ∀ c : ℤ, ∀ b e, dwt haarQ .periodization (shift 1 x) = .ok (b, e) → b ≠ shift c a := by
  refine ⟨[1, 1, 0, 0], _, _, dwt_ok haarQ_ok ⟨by decide, by simp⟩, fun c b e h => ?_⟩
  rw [show shift 1 ([1, 1, 0, 0] : List ℚ) = [0, 1, 1, 0] by decide +kernel, dwt_ok haarQ_ok ⟨by decide, by simp⟩,
    Except.ok.injEq, Prod.mk.injEq] at h
  rw [← h.1]
  intro hc
  have h0 : (analysis .periodization haarQ.dec_lo ([0, 1, 1, 0] : List ℚ)).sum = 1 := by decide +kernel
  have h1 : (0 : ℚ) ∉ analysis .periodization haarQ.dec_lo ([0, 1, 1, 0] : List ℚ) := by decide +kernel
  have h2 : ∀ c : ℤ, (0 : ℚ) ∈ shift c (analysis .periodization haarQ.dec_lo ([1, 1, 0, 0] : List ℚ)) := by
    intro c
    rw [show analysis .periodization haarQ.dec_lo ([1, 1, 0, 0] : List ℚ) = [1, 0] by decide +kernel]
    rcases Int.emod_two_eq_zero_or_one c with e | e
    · have e1 : ((1 : ℤ) - c) % 2 = 1 := by omega
      simp [shift, List.range_succ, at', e1]
    · have e0 : ((0 : ℤ) - c) % 2 = 1 := by omega
      simp only [zero_sub] at e0
      simp [shift, List.range_succ, at', e0]
  exact h1 (hc ▸ h2 c)

end Pywt
