import Verif.Proof.Threshold
import Mathlib.Analysis.Complex.Basic

/-!
# C27, C28: thresholding

The theorems hold for real data (`realDtype`) over any linearly ordered field, and for complex data
(`complexDtype` below).  `Cell.num y`: the output element is the number `y`.
-/

namespace Pywt

open Spec

set_option autoImplicit false
set_option linter.unusedSectionVars false

section
variable {K E : Type} [Field K] [LinearOrder K] [IsStrictOrderedRing K] [AddCommGroup E] [Module K E]
  [DecidableEq E]

/-- **C27 (hard).** Entries with `|x| ≥ t` are kept, all others are replaced by the substitute. -/
theorem C27_hard (dt : Dtype K E) (a : Arr E) (t : K) (s : E) :
    ∃ out, threshold dt a t "hard" s = .ok out ∧ out.shape = a.shape ∧
      ∀ idx, InB a.shape idx →
        out.get idx = .num (if t ≤ dt.mag (a.get idx) then a.get idx else s) := by
  refine ⟨_, rfl, rfl, fun idx h => ?_⟩
  rw [get_mapCells _ _ h]
  simp only [← not_lt]
  split_ifs <;> rfl

/-- **C27 (soft).** With substitute 0 the magnitude becomes `max (|x| - t) 0` and the sign (the phase)
is kept; with another substitute, entries with `|x| < t` are replaced by it.  This is claimed for every
entry that is not zero, and for every entry if `t > 0`; see `C27_soft_undefined` for the rest. -/
theorem C27_soft_partial {dt : Dtype K E} (hd : IsMagnitude dt) (a : Arr E) (hn : a.ndim ≠ 0) (t : K) (s : E) :
    ∃ out, threshold dt a t "soft" s = .ok out ∧ out.shape = a.shape ∧
      ∀ idx, InB a.shape idx → a.get idx ≠ 0 ∨ 0 < t →
        (s ≠ 0 → dt.mag (a.get idx) < t → out.get idx = .num s) ∧
        (s = 0 ∨ t ≤ dt.mag (a.get idx) → ∃ y, out.get idx = .num y ∧ SamePhase (K := K) (a.get idx) y ∧
          dt.mag y = max (dt.mag (a.get idx) - t) 0) := by
  by_cases hs : s = 0
  · refine ⟨_, by simp only [threshold, shrink, if_neg hn, if_pos hs, if_true, Py_pure]; rfl, rfl, ?_⟩
    intro idx h hx
    obtain ⟨c, c1, c2, c3⟩ := softFactor_is hd hx
    refine ⟨fun h => absurd hs h, fun _ => ⟨c • a.get idx, ?_, ⟨c, c1, rfl⟩, c3⟩⟩
    rw [get_mapCells _ _ h, c2]
    rfl
  · refine ⟨_, by simp only [threshold, shrink, if_neg hn, if_neg hs, if_true, Py_pure]; rfl, rfl, ?_⟩
    intro idx h hx
    obtain ⟨c, c1, c2, c3⟩ := softFactor_is hd hx
    rw [get_mapCells _ _ h]
    refine ⟨fun _ h => by rw [if_pos h], fun h => ?_⟩
    have ht := h.resolve_left hs
    refine ⟨c • a.get idx, ?_, ⟨c, c1, rfl⟩, c3⟩
    rw [if_neg (not_lt.2 ht), c2]
    rfl

/-- **C27 fails for soft thresholding of zeros with `t ≤ 0`:** the result is not a number (the code
computes `0 * (1 - t/0)`), although the documentation gives `0`. -/
theorem C27_soft_undefined {dt : Dtype K E} (hd : IsMagnitude dt) (a : Arr E) (hn : a.ndim ≠ 0) {t : K}
    (ht : t ≤ 0) (s : E) {idx : ℕ → ℕ} (hi : InB a.shape idx) (hx : a.get idx = 0) :
    ∃ out, threshold dt a t "soft" s = .ok out ∧ out.get idx = .nonfinite := by
  have hm : dt.mag (a.get idx) = 0 := (hd.zero _).2 hx
  have hf : (softFactor t (dt.mag (a.get idx))).scale (a.get idx) = .nonfinite := by
    rw [hm]
    rcases softFactor_bad ht with h | h <;> rw [h] <;> rfl
  by_cases hs : s = 0
  · refine ⟨_, by simp only [threshold, shrink, if_neg hn, if_pos hs, if_true, Py_pure]; rfl, ?_⟩
    rw [get_mapCells _ _ hi, hf]
  · refine ⟨_, by simp only [threshold, shrink, if_neg hn, if_neg hs, if_true, Py_pure]; rfl, ?_⟩
    rw [get_mapCells _ _ hi, hf, if_neg]
    rw [hm]; exact not_lt.2 ht

/-- **C27 (garrote).** Under both spellings: entries with `|x| ≥ |t|` become `x - (t²/|x|²) x`, all
others become 0; with a substitute other than 0, entries with `|x| < t` are replaced by it. -/
theorem C27_garrote_partial {dt : Dtype K E} (hd : IsMagnitude dt) (a : Arr E) (hn : a.ndim ≠ 0) (t : K) (s : E)
    {mode : String} (hmode : mode = "garrote" ∨ mode = "garotte") :
    ∃ out, threshold dt a t mode s = .ok out ∧ out.shape = a.shape ∧
      ∀ idx, InB a.shape idx → a.get idx ≠ 0 ∨ t ≠ 0 →
        out.get idx = .num
          (if s ≠ 0 ∧ dt.mag (a.get idx) < t then s
           else if |t| ≤ dt.mag (a.get idx) then
             a.get idx - (t ^ 2 / dt.mag (a.get idx) ^ 2) • a.get idx
           else 0) := by
  have e : threshold dt a t mode s = shrink dt garroteFactor t s a := by
    rcases hmode with rfl | rfl <;> rfl
  rw [e]
  by_cases hs : s = 0
  · refine ⟨_, by simp only [shrink, if_neg hn, if_pos hs, Py_pure]; rfl, rfl, ?_⟩
    intro idx h hx
    rw [get_mapCells _ _ h, garroteFactor_is hd hx, if_neg (c := s ≠ 0 ∧ _) (fun h => h.1 hs)]
  · refine ⟨_, by simp only [shrink, if_neg hn, if_neg hs, Py_pure]; rfl, rfl, ?_⟩
    intro idx h hx
    rw [get_mapCells _ _ h, garroteFactor_is hd hx]
    by_cases hc : dt.mag (a.get idx) < t
    · rw [if_pos hc, if_pos ⟨hs, hc⟩]
    · rw [if_neg hc, if_neg (c := s ≠ 0 ∧ _) (fun h => hc h.2)]

/-- **C27 fails for garrote thresholding of zeros with `t = 0`:** `0 * (1 - 0/0)` is not a number. -/
theorem C27_garrote_undefined {dt : Dtype K E} (hd : IsMagnitude dt) (a : Arr E) (hn : a.ndim ≠ 0)
    (s : E) {idx : ℕ → ℕ} (hi : InB a.shape idx) (hx : a.get idx = 0) :
    ∃ out, threshold dt a 0 "garrote" s = .ok out ∧ out.get idx = .nonfinite := by
  have hm : dt.mag (a.get idx) = 0 := (hd.zero _).2 hx
  have hf : (garroteFactor 0 (dt.mag (a.get idx))).scale (a.get idx) = .nonfinite := by
    rw [hm]
    simp [garroteFactor, Flt.div, Flt.oneSub, Flt.clip0, Flt.scale]
  have e : threshold dt a 0 "garrote" s = shrink dt garroteFactor 0 s a := rfl
  rw [e]
  by_cases hs : s = 0
  · refine ⟨_, by simp only [shrink, if_neg hn, if_pos hs, Py_pure]; rfl, ?_⟩
    rw [get_mapCells _ _ hi, hf]
  · refine ⟨_, by simp only [shrink, if_neg hn, if_neg hs, Py_pure]; rfl, ?_⟩
    rw [get_mapCells _ _ hi, hf, if_neg]
    rw [hm]; exact lt_irrefl _

/-- **C27 (garrote, real data).** Above the threshold the value is `x - t²/x`. -/
theorem C27_garrote_real_partial (a : Arr K) (hn : a.ndim ≠ 0) (t : K) :
    ∃ out, threshold realDtype a t "garrote" 0 = .ok out ∧ out.shape = a.shape ∧
      ∀ idx, InB a.shape idx → a.get idx ≠ 0 ∨ t ≠ 0 →
        out.get idx = .num (if |t| ≤ |a.get idx| then a.get idx - t ^ 2 / a.get idx else 0) := by
  obtain ⟨out, h1, h2, h3⟩ := C27_garrote_partial realDtype_ok a hn t 0 (mode := "garrote") (Or.inl rfl)
  refine ⟨out, h1, h2, fun idx hi hx => ?_⟩
  rw [h3 idx hi hx, if_neg (fun h => h.1 rfl)]
  congr 1
  simp only [realDtype, sq_abs, smul_eq_mul]
  split_ifs with hc
  · have hx0 : a.get idx ≠ 0 := by
      intro h0
      rcases hx with h | h
      · exact h h0
      · rw [h0, abs_zero] at hc
        exact h (abs_nonpos_iff.1 hc)
    congr 1
    field_simp
  · rfl

/-- **C27 (greater).** Real data: entries `≥ t` are kept, the others are replaced. -/
theorem C27_greater {dt : Dtype K E} {re : E → K} (hr : dt.real = some re) (a : Arr E) (t : K) (s : E) :
    ∃ out, threshold dt a t "greater" s = .ok out ∧ out.shape = a.shape ∧
      ∀ idx, InB a.shape idx →
        out.get idx = .num (if t ≤ re (a.get idx) then a.get idx else s) := by
  refine ⟨_, by simp only [threshold, greater, hr, Py_pure]; rfl, rfl, fun idx h => ?_⟩
  rw [get_mapCells _ _ h]
  simp only [← not_lt]
  split_ifs <;> rfl

/-- **C27 (less).** Real data: entries `≤ t` are kept, the others are replaced. -/
theorem C27_less {dt : Dtype K E} {re : E → K} (hr : dt.real = some re) (a : Arr E) (t : K) (s : E) :
    ∃ out, threshold dt a t "less" s = .ok out ∧ out.shape = a.shape ∧
      ∀ idx, InB a.shape idx →
        out.get idx = .num (if re (a.get idx) ≤ t then a.get idx else s) := by
  refine ⟨_, by simp only [threshold, less, hr, Py_pure]; rfl, rfl, fun idx h => ?_⟩
  rw [get_mapCells _ _ h]
  simp only [← not_lt]
  split_ifs <;> rfl

/-- **C27.** Complex data is rejected by `greater` and `less`, and an unknown mode is rejected. -/
theorem C27_rejects (dt : Dtype K E) (a : Arr E) (t : K) (s : E) {mode : String}
    (h : (dt.real = none ∧ (mode = "greater" ∨ mode = "less")) ∨
      mode ∉ ["soft", "hard", "garrote", "garotte", "greater", "less"]) :
    threshold dt a t mode s = .error .value := by
  rcases h with ⟨h, rfl | rfl⟩ | h
  · simp only [threshold, greater, h]; rfl
  · simp only [threshold, less, h]; rfl
  · simp only [List.mem_cons, List.not_mem_nil, or_false, not_or] at h
    obtain ⟨h1, h2, h3, h4, h5, h6⟩ := h
    simp only [threshold, if_neg h1, if_neg h2, if_neg h3, if_neg h4, if_neg h5, if_neg h6, Py_throw]

/-- **C27.** For `t > 0` garrote lies between soft and hard thresholding, which lie between 0 and the
data: `0 ≤ |soft| ≤ |garrote| ≤ |hard| ≤ |x|`. -/
theorem C27_order {dt : Dtype K E} (hd : IsMagnitude dt) (a : Arr E) (hn : a.ndim ≠ 0) {t : K}
    (ht : 0 < t) {idx : ℕ → ℕ} (hi : InB a.shape idx) :
    ∃ o₁ o₂ o₃ y₁ y₂ y₃, threshold dt a t "soft" 0 = .ok o₁ ∧ threshold dt a t "garrote" 0 = .ok o₂ ∧
      threshold dt a t "hard" 0 = .ok o₃ ∧ o₁.get idx = .num y₁ ∧ o₂.get idx = .num y₂ ∧
      o₃.get idx = .num y₃ ∧ dt.mag y₁ ≤ dt.mag y₂ ∧ dt.mag y₂ ≤ dt.mag y₃ ∧
      dt.mag y₃ ≤ dt.mag (a.get idx) := by
  obtain ⟨o₁, p1, -, p2⟩ := C27_soft_partial hd a hn t 0
  obtain ⟨o₂, q1, -, q2⟩ := C27_garrote_partial hd a hn t 0 (mode := "garrote") (Or.inl rfl)
  obtain ⟨o₃, r1, -, r2⟩ := C27_hard dt a t 0
  obtain ⟨y₁, p3, -, p4⟩ := (p2 idx hi (Or.inr ht)).2 (Or.inl rfl)
  have q3 := q2 idx hi (Or.inr ht.ne')
  rw [if_neg (fun h => h.1 rfl), abs_of_pos ht] at q3
  refine ⟨o₁, o₂, o₃, y₁, _, _, p1, q1, r1, p3, q3, r2 idx hi, ?_⟩
  have h0 : dt.mag 0 = 0 := (hd.zero 0).2 rfl
  rw [p4]
  by_cases hc : t ≤ dt.mag (a.get idx)
  · simp only [if_pos hc, le_refl, and_true]
    have hm : 0 < dt.mag (a.get idx) := lt_of_lt_of_le ht hc
    have e : a.get idx - (t ^ 2 / dt.mag (a.get idx) ^ 2) • a.get idx =
        (1 - t ^ 2 / dt.mag (a.get idx) ^ 2) • a.get idx := by rw [sub_smul, one_smul]
    have hq : t ^ 2 / dt.mag (a.get idx) ^ 2 ≤ 1 := by
      rw [div_le_one (by positivity)]
      exact pow_le_pow_left₀ ht.le hc 2
    have hq0 : 0 ≤ t ^ 2 / dt.mag (a.get idx) ^ 2 := by positivity
    rw [e, hd.smul, abs_of_nonneg (by linarith)]
    constructor
    · apply max_le
      · have : (1 - t ^ 2 / dt.mag (a.get idx) ^ 2) * dt.mag (a.get idx) =
            dt.mag (a.get idx) - t * (t / dt.mag (a.get idx)) := by field_simp
        rw [this]
        have : t / dt.mag (a.get idx) ≤ 1 := (div_le_one hm).2 hc
        nlinarith
      · exact mul_nonneg (by linarith) hm.le
    · nlinarith
  · simp only [if_neg hc, le_refl, true_and, h0]
    exact ⟨max_le (by linarith [not_le.1 hc]) (le_refl _), hd.nonneg _⟩

end

/-- Complex data. -/
noncomputable def complexDtype : Dtype ℝ ℂ := ⟨fun z => ‖z‖, none⟩

/-- Complex data meets the hypothesis of the theorems. -/
theorem complexDtype_ok : IsMagnitude complexDtype where
  nonneg x := norm_nonneg x
  zero x := norm_eq_zero
  smul c x := by simp [complexDtype]
  real re h := by simp [complexDtype] at h

/-- The documentation's values, equality with the threshold included. -/
example : let a : Arr ℚ := ⟨[4], [1, -2, 5/2, -4], rfl⟩
    (threshold realDtype a 2 "soft" 0).map (·.data) = .ok [.num 0, .num 0, .num (1/2), .num (-2)] ∧
    (threshold realDtype a 2 "hard" 0).map (·.data) = .ok [.num 0, .num (-2), .num (5/2), .num (-4)] ∧
    (threshold realDtype a 2 "hard" 7).map (·.data) = .ok [.num 7, .num (-2), .num (5/2), .num (-4)] ∧
    (threshold realDtype a 2 "garrote" 0).map (·.data) = .ok [.num 0, .num 0, .num (9/10), .num (-3)] ∧
    (threshold realDtype a 2 "greater" 0).map (·.data) = .ok [.num 0, .num 0, .num (5/2), .num 0] ∧
    (threshold realDtype a 2 "less" 9).map (·.data) = .ok [.num 1, .num (-2), .num 9, .num (-4)] ∧
    (threshold realDtype a 0 "soft" 0).map (·.data) = .ok [.num 1, .num (-2), .num (5/2), .num (-4)] ∧
    (threshold realDtype (⟨[2], [0, 1], rfl⟩ : Arr ℚ) 0 "soft" 0).map (·.data) =
      .ok [.nonfinite, .num 1] := by
  decide +kernel

section
variable {K E : Type} [Field K] [LinearOrder K] [IsStrictOrderedRing K] [AddCommGroup E] [Module K E]
  [DecidableEq E]

/-- What `threshold_firm` should return for the entry `x`. -/
structure FirmOf (dt : Dtype K E) (low high : K) (x y : E) : Prop where
  small : dt.mag x ≤ low → y = 0
  large : high ≤ dt.mag x → y = x
  phase : SamePhase (K := K) x y
  between : low ≤ dt.mag x → dt.mag x ≤ high →
    dt.mag y = high * (dt.mag x - low) / (high - low)

theorem firmOf_scale {dt : Dtype K E} (hd : IsMagnitude dt) {low high : K} (h0 : 0 ≤ low)
    (hlh : low < high) {x : E} (hz : x ≠ 0 ∨ 0 < low) (hh : dt.mag x ≤ high) :
    ∃ y, (firmFactor low high (dt.mag x)).scale x = .num y ∧ FirmOf dt low high x y := by
  have hz' : dt.mag x ≠ 0 ∨ 0 < low := hz.imp_left fun h h' => h ((hd.zero x).1 h')
  have hhp : 0 < high := lt_of_le_of_lt h0 hlh
  have m0 : dt.mag 0 = 0 := (hd.zero 0).2 rfl
  rcases le_or_gt (dt.mag x) low with hl | hl
  · rw [firmFactor_low h0 hlh (hd.nonneg x) hz' hl]
    refine ⟨0, by simp [Flt.scale], fun _ => rfl, fun h => ?_, ⟨0, le_refl _, by simp⟩, fun h1 _ => ?_⟩
    · exact absurd (lt_of_lt_of_le hlh h) (not_lt.2 hl)
    · rw [le_antisymm hl h1, m0]; simp
  · have hm : 0 < dt.mag x := lt_of_le_of_lt h0 hl
    have h1 : 0 < high - low := sub_pos.2 hlh
    have h2 : 0 < dt.mag x - low := sub_pos.2 hl
    rw [firmFactor_high h0 hlh hl]
    refine ⟨_, rfl, fun h => absurd hl (not_lt.2 h), fun h => ?_, ⟨_, by positivity, rfl⟩, fun _ _ => ?_⟩
    · have e : dt.mag x = high := le_antisymm hh h
      rw [e]
      have : high * (high - low) / (high - low) / high = 1 := by field_simp
      rw [this, one_smul]
    · rw [hd.smul, abs_of_nonneg (by positivity)]
      field_simp

/-- **C28.** `0 ≤ low < high`: `|x| ≤ low` gives 0, `|x| ≥ high` gives `x`, in between the magnitude is
interpolated linearly and the sign (phase) is kept.  Proved for arrays in which some entry with
`|x| > high` has a first index other than 0, or no entry has `|x| > high`; and for entries that are not
0 if `low = 0`.  What is missing is false: see `C28_firm_wrong` and `C28_firm_undefined`. -/
theorem C28_firm_partial {dt : Dtype K E} (hd : IsMagnitude dt) (a : Arr E) (hn : a.ndim ≠ 0)
    {low high : K} (h0 : 0 ≤ low) (hlh : low < high)
    (hrow : (∃ idx, InB a.shape idx ∧ idx 0 ≠ 0 ∧ high < dt.mag (a.get idx)) ∨
      ∀ idx, InB a.shape idx → dt.mag (a.get idx) ≤ high) :
    ∃ out, thresholdFirm dt a low high = .ok out ∧ out.shape = a.shape ∧
      ∀ idx, InB a.shape idx → a.get idx ≠ 0 ∨ 0 < low →
        ∃ y, out.get idx = .num y ∧ FirmOf dt low high (a.get idx) y := by
  have e1 : ¬ low < 0 := not_lt.2 h0
  have e2 : ¬ high < low := not_lt.2 hlh.le
  by_cases hb : ((largeRows dt high a).any fun r => decide (r ≠ 0)) = true
  · refine ⟨_, by simp only [thresholdFirm, if_neg e1, if_neg e2, if_neg hn, if_pos hb, Py_pure]; rfl, rfl, ?_⟩
    intro idx hi hz
    rw [get_mapCells _ _ hi]
    by_cases hl : high < dt.mag (a.get idx)
    · rw [if_pos hl]
      refine ⟨_, rfl, fun h => ?_, fun _ => rfl, ⟨1, zero_le_one, by simp⟩, fun _ h => ?_⟩
      · exact absurd (lt_of_lt_of_le hl h) (not_lt.2 hlh.le)
      · exact absurd hl (not_lt.2 h)
    · rw [if_neg hl]
      exact firmOf_scale hd h0 hlh hz (not_lt.1 hl)
  · refine ⟨_, by simp only [thresholdFirm, if_neg e1, if_neg e2, if_neg hn, if_neg hb, Py_pure]; rfl,
      rfl, ?_⟩
    intro idx hi hz
    rw [get_mapCells _ _ hi]
    apply firmOf_scale hd h0 hlh hz
    rw [largeRows_any (Nat.pos_of_ne_zero hn)] at hb
    exact hrow.resolve_left hb idx hi

/-- **C28.** In the same cases the magnitude never grows. -/
theorem C28_firm_shrinks_partial {dt : Dtype K E} (hd : IsMagnitude dt) {low high : K} (h0 : 0 ≤ low)
    (hlh : low < high) {x y : E} (h : FirmOf dt low high x y) : dt.mag y ≤ dt.mag x := by
  have m0 : dt.mag 0 = 0 := (hd.zero 0).2 rfl
  rcases le_total (dt.mag x) low with h1 | h1
  · rw [h.small h1, m0]; exact hd.nonneg x
  · rcases le_total high (dt.mag x) with h2 | h2
    · rw [h.large h2]
    · rw [h.between h1 h2, div_le_iff₀ (sub_pos.2 hlh)]
      nlinarith

/-- **C28.** `threshold_firm` is odd, for all arguments: negating the data negates every number in the
result. -/
theorem C28_firm_odd {dt : Dtype K E} (hd : IsMagnitude dt) (a : Arr E) {low high : K}
    {out : Arr (Cell E)} (h : thresholdFirm dt a low high = .ok out) :
    ∃ out', thresholdFirm dt (a.mapCells fun x => -x) low high = .ok out' ∧ out'.shape = out.shape ∧
      ∀ idx, InB a.shape idx →
        (∀ y, out.get idx = .num y → out'.get idx = .num (-y)) ∧
        (out.get idx = .nonfinite → out'.get idx = .nonfinite) := by
  have hm : ∀ x, dt.mag (-x) = dt.mag x := fun x => by
    have := hd.smul (-1) x
    rwa [neg_one_smul, abs_neg, abs_one, one_mul] at this
  have hneg : ∀ (f : Flt K) (x : E), (∀ y, f.scale x = .num y → f.scale (-x) = .num (-y)) ∧
      (f.scale x = .nonfinite → f.scale (-x) = .nonfinite) := by
    intro f x
    cases f <;> simp [Flt.scale]
  have hnd : (a.mapCells fun x => -x).ndim = a.ndim := rfl
  by_cases c3 : a.ndim = 0
  · simp only [thresholdFirm, if_pos c3] at h
    split_ifs at h
  have hany : ((largeRows dt high (a.mapCells fun x => -x)).any fun r => decide (r ≠ 0)) =
      ((largeRows dt high a).any fun r => decide (r ≠ 0)) := by
    have hp := Nat.pos_of_ne_zero c3
    rw [Bool.eq_iff_iff, largeRows_any hp, largeRows_any (a := a.mapCells _) hp]
    constructor
    · rintro ⟨idx, i1, i2, i3⟩
      have i1' : InB a.shape idx := i1
      rw [get_mapCells _ _ i1', hm] at i3
      exact ⟨idx, i1', i2, i3⟩
    · rintro ⟨idx, i1, i2, i3⟩
      refine ⟨idx, i1, i2, ?_⟩
      rw [get_mapCells _ _ i1, hm]
      exact i3
  simp only [thresholdFirm, hnd, hany] at h ⊢
  split_ifs at h ⊢
  all_goals
    injection h with h
    subst h
    refine ⟨_, rfl, rfl, fun idx hi => ?_⟩
    have hi' : InB (a.mapCells fun x => -x).shape idx := hi
    rw [get_mapCells _ _ hi, get_mapCells _ _ hi', get_mapCells _ _ hi, hm]
  · split_ifs
    · exact ⟨fun y h => by simpa using h, fun h => by simp at h⟩
    · exact hneg _ _
  · exact hneg _ _

/-- **C28.** Negative `low` and `high < low` are rejected. -/
theorem C28_rejects (dt : Dtype K E) (a : Arr E) {low high : K} (h : low < 0 ∨ high < low) :
    thresholdFirm dt a low high = .error .value := by
  unfold thresholdFirm
  by_cases c : low < 0
  · rw [if_pos c]; rfl
  · rw [if_neg c, if_pos (h.resolve_left c)]; rfl

/-- **C28 fails when all large entries lie in the first row** (for a 1-D array: only the first element
is large): the code tests `np.any` on their row numbers, which are all zero, and leaves them amplified.
For `0 < low` each of them comes out strictly larger than it was. -/
theorem C28_firm_wrong {dt : Dtype K E} (hd : IsMagnitude dt) (a : Arr E) (hn : a.ndim ≠ 0)
    {low high : K} (h0 : 0 < low) (hlh : low < high)
    (hrow : ∀ idx, InB a.shape idx → idx 0 ≠ 0 → dt.mag (a.get idx) ≤ high) :
    ∃ out, thresholdFirm dt a low high = .ok out ∧
      ∀ idx, InB a.shape idx → high < dt.mag (a.get idx) →
        ∃ y, out.get idx = .num y ∧ dt.mag (a.get idx) < dt.mag y ∧
          dt.mag y = high * (dt.mag (a.get idx) - low) / (high - low) := by
  have e1 : ¬ low < 0 := not_lt.2 h0.le
  have e2 : ¬ high < low := not_lt.2 hlh.le
  have hb : ¬ ((largeRows dt high a).any fun r => decide (r ≠ 0)) = true := by
    rw [largeRows_any (Nat.pos_of_ne_zero hn)]
    rintro ⟨idx, i1, i2, i3⟩
    exact absurd i3 (not_lt.2 (hrow idx i1 i2))
  refine ⟨_, by simp only [thresholdFirm, if_neg e1, if_neg e2, if_neg hn, if_neg hb, Py_pure]; rfl, ?_⟩
  intro idx hi hl
  have hl' : low < dt.mag (a.get idx) := hlh.trans hl
  have hm : 0 < dt.mag (a.get idx) := h0.trans hl'
  have hhp : 0 < high := h0.trans hlh
  have h1 : 0 < high - low := sub_pos.2 hlh
  have h2 : 0 < dt.mag (a.get idx) - low := sub_pos.2 hl'
  rw [get_mapCells _ _ hi, firmFactor_high h0.le hlh hl']
  have hmag : dt.mag ((high * (dt.mag (a.get idx) - low) / (high - low) / dt.mag (a.get idx)) •
      a.get idx) = high * (dt.mag (a.get idx) - low) / (high - low) := by
    rw [hd.smul, abs_of_nonneg (by positivity)]
    field_simp
  refine ⟨_, rfl, ?_, hmag⟩
  rw [hmag, lt_div_iff₀ h1]
  nlinarith

/-- **C28, `high = low`.** The documentation says that this is hard thresholding; entries of exactly
this magnitude come out as NaN instead. -/
theorem C28_firm_undefined {dt : Dtype K E} (a : Arr E) (hn : a.ndim ≠ 0)
    {t : K} (h0 : 0 < t) {idx : ℕ → ℕ} (hi : InB a.shape idx) (hx : dt.mag (a.get idx) = t) :
    ∃ out, thresholdFirm dt a t t = .ok out ∧ out.get idx = .nonfinite := by
  have e1 : ¬ t < 0 := not_lt.2 h0.le
  have e2 : ¬ t < t := lt_irrefl t
  have hf : (firmFactor t t (dt.mag (a.get idx))).scale (a.get idx) = .nonfinite := by
    rw [hx]
    simp [firmFactor, Flt.div, h0.ne', Flt.oneSub, Flt.mul, Flt.divBy, Flt.clip0, Flt.scale]
  by_cases hb : ((largeRows dt t a).any fun r => decide (r ≠ 0)) = true
  · refine ⟨_, by simp only [thresholdFirm, if_neg e1, if_neg e2, if_neg hn, if_pos hb, Py_pure]; rfl, ?_⟩
    rw [get_mapCells _ _ hi, if_neg (by rw [hx]; exact lt_irrefl t), hf]
  · refine ⟨_, by simp only [thresholdFirm, if_neg e1, if_neg e2, if_neg hn, if_neg hb, Py_pure]; rfl, ?_⟩
    rw [get_mapCells _ _ hi, hf]

end

/-- A large entry at index 1: correct.  The same values with the large entry first: `10` becomes `18`. -/
example :
    (thresholdFirm realDtype (⟨[4], [3/2, 10, -1, 0], rfl⟩ : Arr ℚ) 1 2).map (·.data) =
      .ok [.num 1, .num 10, .num 0, .num 0] ∧
    (thresholdFirm realDtype (⟨[4], [10, 3/2, -1, 0], rfl⟩ : Arr ℚ) 1 2).map (·.data) =
      .ok [.num 18, .num 1, .num 0, .num 0] ∧
    (thresholdFirm realDtype (⟨[2, 2], [10, -10, -1, 0], rfl⟩ : Arr ℚ) 1 2).map (·.data) =
      .ok [.num 18, .num (-18), .num 0, .num 0] ∧
    (thresholdFirm realDtype (⟨[2], [0, 1], rfl⟩ : Arr ℚ) 0 2).map (·.data) =
      .ok [.nonfinite, .num 1] := by
  decide +kernel

end Pywt
