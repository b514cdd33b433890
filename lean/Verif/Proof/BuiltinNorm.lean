import Verif.Proof.MomentsTable
import Verif.Proof.Rounding

/-!
# The size of the built-in filters, checked by the kernel
-/

set_option autoImplicit false

namespace Pywt

open Finset Spec

/-- The sum of the magnitudes. -/
def absSum : List ℤ → ℕ
  | [] => 0
  | a :: l => a.natAbs + absSum l

/-- At most 102 taps, of magnitudes that add up to at most 4. -/
def normCheck (single : Bool) (fam : Family) (order : ℕ) : Bool :=
  match bankPair single fam order with
  | some (b, c) => Nat.ble b.length 102 && (Nat.ble (absSum b) (4 * 2 ^ 160) && Nat.ble (absSum c) (4 * 2 ^ 160))
  | none => false

theorem norm_double : (wnameToCode.all fun e => !e.2.1.isDiscrete || normCheck false e.2.1 e.2.2) = true := by
  decide +kernel
theorem norm_single : (wnameToCode.all fun e => !e.2.1.isDiscrete || normCheck true e.2.1 e.2.2) = true := by
  decide +kernel

theorem absSum_eq (l : List ℤ) : (absSum l : ℝ) = ∑ i ∈ range l.length, |((l.getD i 0 : ℤ) : ℝ)| := by
  induction l with
  | nil => simp [absSum]
  | cons a l ih =>
    rw [List.length_cons, sum_range_succ']
    simp only [List.getD_cons_succ, List.getD_cons_zero]
    rw [← ih]
    simp only [absSum]
    push_cast
    rw [Nat.cast_natAbs, add_comm]
    push_cast
    rfl

theorem l1_fx (l : List ℤ) : l1 (l.map fun z => ((fxVal z : ℚ) : ℝ)) =
    (∑ i ∈ range l.length, |((l.getD i 0 : ℤ) : ℝ)|) / 2 ^ 160 := by
  rw [← sum_l1, List.length_map, sum_div]
  refine sum_congr rfl fun i hi => ?_
  rw [mem_range] at hi
  rw [List.getD_eq_getElem _ _ (by simpa using hi), List.getElem_map, List.getD_eq_getElem _ _ hi]
  unfold fxVal fxBits
  push_cast
  rw [abs_div, abs_of_pos (show (0 : ℝ) < 2 ^ 160 by positivity)]

/-- The sizes of the filters of a built-in wavelet. -/
theorem builtin_norm {single : Bool} {name : String} {fam : Family} {order : ℕ}
    (h : (name, fam, order) ∈ wnameToCode) (hd : fam.isDiscrete = true) {w : Wavelet ℤ}
    (hw : discreteWavelet single fam order = .ok (some w)) :
    w.dec_len ≤ 102 ∧ l1 (realBank w).dec_lo ≤ 4 ∧ l1 (realBank w).dec_hi ≤ 4 ∧
      l1 (realBank w).rec_lo ≤ 4 ∧ l1 (realBank w).rec_hi ≤ 4 := by
  have hn : normCheck single fam order = true := by
    have : (!fam.isDiscrete || normCheck single fam order) = true := by
      cases single
      · exact List.all_eq_true.mp norm_double _ h
      · exact List.all_eq_true.mp norm_single _ h
    simpa [hd] using this
  obtain ⟨w', b, c, hw', hbc, hf⟩ := bankPair_ok (entryCheck_of_orderOk (single := single) (table_orderOk _ h hd))
  have : w' = w := by
    rw [hw'] at hw
    simpa using hw
  subst this
  simp only [normCheck, hbc, Bool.and_eq_true, Nat.ble_eq] at hn
  obtain ⟨h1, h2, h3⟩ := hn
  have hlen := hf.len
  have hpos := hf.pos
  have hb : (∑ i ∈ range b.length, |((b.getD i 0 : ℤ) : ℝ)|) / 2 ^ 160 ≤ 4 := by
    rw [← absSum_eq, div_le_iff₀ (by positivity)]
    exact_mod_cast h2
  have hc : (∑ i ∈ range c.length, |((c.getD i 0 : ℤ) : ℝ)|) / 2 ^ 160 ≤ 4 := by
    rw [← absSum_eq, div_le_iff₀ (by positivity)]
    exact_mod_cast h3
  have habs : ∀ (k : ℕ) (z : ℤ), |(((-1) ^ k * z : ℤ) : ℝ)| = |(z : ℝ)| := by
    intro k z
    push_cast
    rw [abs_mul, abs_pow, abs_neg, abs_one, one_pow, one_mul]
  refine ⟨?_, ?_, ?_, ?_, ?_⟩
  · unfold Wavelet.dec_len
    rw [hf.dl, List.length_reverse]
    omega
  · simp only [realBank]
    rw [l1_fx, hf.dl, List.length_reverse, ← sum_range_reflect]
    refine le_trans (le_of_eq ?_) hc
    congr 1
    refine sum_congr rfl fun i hi => ?_
    rw [mem_range] at hi
    rw [List.getD_eq_getElem _ _ (by rw [List.length_reverse]; omega), List.getElem_reverse,
      List.getD_eq_getElem _ _ hi]
    congr 3
    omega
  · simp only [realBank]
    rw [l1_fx, hf.dhl]
    refine le_trans (le_of_eq ?_) hb
    congr 1
    refine sum_congr rfl fun i hi => ?_
    rw [mem_range] at hi
    rw [hf.dh i hi, habs]
  · simp only [realBank]
    rw [l1_fx, hf.rl]
    exact hb
  · simp only [realBank]
    rw [l1_fx, hf.rhl, ← sum_range_reflect]
    refine le_trans (le_of_eq ?_) hc
    rw [hlen]
    congr 1
    refine sum_congr rfl fun i hi => ?_
    rw [mem_range] at hi
    rw [hf.rh _ (by omega), habs]
    congr 3
    omega

end Pywt
