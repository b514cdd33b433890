import Verif.Spec.Threshold
import Verif.Proof.Arr
import Verif.Proof.Dwt
import Mathlib.Tactic.FieldSimp
import Mathlib.Tactic.Positivity

namespace Pywt

open Spec

set_option linter.unusedSectionVars false

variable {K E : Type} [Field K] [LinearOrder K] [IsStrictOrderedRing K] [AddCommGroup E] [Module K E]
  [DecidableEq E]

theorem get_mapCells {F G : Type} [Zero F] [Zero G] (f : F → G) (a : Arr F) {idx : ℕ → ℕ}
    (h : InB a.shape idx) : (a.mapCells f).get idx = f (a.get idx) := by
  have hp : ravelIx a.shape idx a.shape.length < a.data.length := by
    rw [a.ok]; exact h.ravel_lt
  simp only [Arr.get, Arr.mapCells]
  rw [List.getD_eq_getElem _ _ (by simpa using hp), List.getD_eq_getElem _ _ hp, List.getElem_map]

theorem realDtype_ok : IsMagnitude (realDtype : Dtype K K) where
  nonneg x := abs_nonneg x
  zero x := abs_eq_zero
  smul c x := by simp [realDtype, abs_mul]
  real re h x := by
    simp only [realDtype, Option.some.injEq] at h
    subst h; rfl

theorem softFactor_zero {t : K} (ht : 0 < t) : softFactor t (0 : K) = .num 0 := by
  simp [softFactor, Flt.div, ht, Flt.oneSub, Flt.clip0]

theorem softFactor_pos {t m : K} (hm : 0 < m) : softFactor t m = .num (max (1 - t / m) 0) := by
  simp [softFactor, Flt.div, hm.ne', Flt.oneSub, Flt.clip0]

theorem softFactor_bad {t : K} (ht : t ≤ 0) : softFactor t (0 : K) = .inf ∨ softFactor t (0 : K) = .nan := by
  rcases ht.lt_or_eq with h | h
  · left; simp [softFactor, Flt.div, h, not_lt.2 h.le, Flt.oneSub, Flt.clip0]
  · right; subst h; simp [softFactor, Flt.div, Flt.oneSub, Flt.clip0]

theorem softFactor_is {dt : Dtype K E} (hd : IsMagnitude dt) {t : K} {x : E} (h : x ≠ 0 ∨ 0 < t) :
    ∃ c : K, 0 ≤ c ∧ softFactor t (dt.mag x) = .num c ∧ dt.mag (c • x) = max (dt.mag x - t) 0 := by
  rcases (hd.nonneg x).lt_or_eq with hm | hm
  · refine ⟨max (1 - t / dt.mag x) 0, le_max_right _ _, softFactor_pos hm, ?_⟩
    rw [hd.smul, abs_of_nonneg (le_max_right _ _), max_mul_of_nonneg _ _ hm.le]
    congr 1
    · field_simp
    · simp
  · have ht : 0 < t := h.resolve_left fun hx => hx ((hd.zero x).1 hm.symm)
    refine ⟨0, le_refl _, by rw [← hm]; exact softFactor_zero ht, ?_⟩
    rw [hd.smul, ← hm, abs_zero, zero_mul, max_eq_right]
    linarith

theorem garroteFactor_zero {t : K} (ht : t ≠ 0) : garroteFactor t (0 : K) = .num 0 := by
  have : 0 < t ^ 2 := by positivity
  simp [garroteFactor, Flt.div, this, Flt.oneSub, Flt.clip0]

theorem garroteFactor_pos {t m : K} (hm : 0 < m) :
    garroteFactor t m = .num (max (1 - t ^ 2 / m ^ 2) 0) := by
  simp [garroteFactor, Flt.div, hm.ne', Flt.oneSub, Flt.clip0]

theorem garroteFactor_is {dt : Dtype K E} (hd : IsMagnitude dt) {t : K} {x : E} (h : x ≠ 0 ∨ t ≠ 0) :
    (garroteFactor t (dt.mag x)).scale x =
      .num (if |t| ≤ dt.mag x then x - (t ^ 2 / dt.mag x ^ 2) • x else 0) := by
  rcases (hd.nonneg x).lt_or_eq with hm | hm
  · rw [garroteFactor_pos hm]
    simp only [Flt.scale, Cell.num.injEq]
    have hm2 : 0 < dt.mag x ^ 2 := by positivity
    split_ifs with hc
    · rw [max_eq_left, sub_smul, one_smul]
      rw [sub_nonneg, div_le_one hm2, ← sq_abs]
      exact pow_le_pow_left₀ (abs_nonneg _) hc 2
    · rw [max_eq_right, zero_smul]
      rw [sub_nonpos, one_le_div hm2, ← sq_abs t]
      exact pow_le_pow_left₀ hm.le (not_le.1 hc).le 2
  · have hx : x = 0 := (hd.zero x).1 hm.symm
    have ht : t ≠ 0 := h.resolve_left fun h => h hx
    rw [← hm, garroteFactor_zero ht]
    subst hx
    simp [Flt.scale]

theorem firmFactor_low {low high m : K} (h0 : 0 ≤ low) (hlh : low < high) (hm0 : 0 ≤ m)
    (hz : m ≠ 0 ∨ 0 < low) (hm : m ≤ low) : firmFactor low high m = .num 0 := by
  have hh : 0 < high := lt_of_le_of_lt h0 hlh
  have hd : high - low ≠ 0 := (sub_pos.2 hlh).ne'
  rcases hm0.lt_or_eq with hp | hp
  · simp only [firmFactor, Flt.div, hp.ne', Flt.oneSub, Flt.mul, Flt.divBy, if_false, if_neg hd,
      Flt.clip0, Flt.num.injEq]
    apply max_eq_right
    apply div_nonpos_of_nonpos_of_nonneg _ (sub_pos.2 hlh).le
    apply mul_nonpos_of_nonneg_of_nonpos hh.le
    rw [sub_nonpos, one_le_div hp]
    exact hm
  · have hl : 0 < low := hz.resolve_left fun h => h hp.symm
    subst hp
    simp [firmFactor, Flt.div, hl, Flt.oneSub, Flt.mul, hh, Flt.divBy, Flt.clip0]

theorem firmFactor_high {low high m : K} (h0 : 0 ≤ low) (hlh : low < high) (hm : low < m) :
    firmFactor low high m = .num (high * (m - low) / (high - low) / m) := by
  have hh : 0 < high := lt_of_le_of_lt h0 hlh
  have hp : 0 < m := lt_of_le_of_lt h0 hm
  have hd : 0 < high - low := sub_pos.2 hlh
  have hd' : 0 < m - low := sub_pos.2 hm
  simp only [firmFactor, Flt.div, hp.ne', Flt.oneSub, Flt.mul, Flt.divBy, if_false, if_neg hd.ne',
    Flt.clip0, Flt.num.injEq]
  have : high * (1 - low / m) / (high - low) = high * (m - low) / (high - low) / m := by
    field_simp
  rw [this]
  apply max_eq_left
  positivity

theorem largeRows_any {dt : Dtype K E} {high : K} {a : Arr E} (hn : 0 < a.shape.length) :
    ((largeRows dt high a).any fun r => decide (r ≠ 0)) = true ↔
      ∃ idx, InB a.shape idx ∧ idx 0 ≠ 0 ∧ high < dt.mag (a.get idx) := by
  simp only [largeRows, List.any_map, List.any_filter, List.any_eq_true, List.mem_range,
    Function.comp, Bool.and_eq_true, decide_eq_true_eq]
  constructor
  · rintro ⟨p, hp, h1, h2⟩
    have hp' : p < prodTo a.shape a.shape.length := by rw [prodTo_length, ← a.ok]; exact hp
    refine ⟨unravelIx a.shape a.shape.length p, unravelIx_inB hp', h2, ?_⟩
    rw [Arr.get, ravel_unravel hp']
    exact h1
  · rintro ⟨idx, h1, h2, h3⟩
    refine ⟨ravelIx a.shape idx a.shape.length, by rw [a.ok]; exact h1.ravel_lt, h3, ?_⟩
    rw [unravel_ravel h1 0 hn]
    exact h2

end Pywt
