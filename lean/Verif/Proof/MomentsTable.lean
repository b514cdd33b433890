import Verif.Spec.Moments
import Verif.Spec.Builtin
import Verif.Proof.BuiltinTop
import Verif.Proof.BuiltinTable

/-!
# The moments of the built-in wavelets, checked by the kernel
-/

namespace Pywt

open Spec Finset

/-! ### The pair of tables a built-in wavelet is made of -/

/-- The two low-pass tables from which the filters are filled. -/
def fillPair (f : FillFrom) : List ℤ × List ℤ := ((f.b.drop f.n).take f.F, f.c)

/-- The pair for one entry of the table of names. -/
def bankPair (single : Bool) (fam : Family) (order : ℕ) : Option (List ℤ × List ℤ) :=
  match fam with
  | .haar => (fillFrom single .db 1).map fillPair
  | .rbio => (fillFrom single .bior order).map fun f => (fillPair f).swap
  | _ => (fillFrom single fam order).map fillPair

theorem fillCheck_pair {swap : Bool} {tol : ℕ × ℕ} {f : Option FillFrom} (h : fillCheck swap tol f = true) :
    ∃ w f', f = some f' ∧ fillWith f = .ok (some w) ∧ FromPair w (fillPair f').1 (fillPair f').2 := by
  cases f with
  | none => simp [fillCheck] at h
  | some f =>
    simp only [fillCheck, Bool.and_eq_true, decide_eq_true_eq] at h
    obtain ⟨⟨⟨⟨h1, h2⟩, h3⟩, h4⟩, -⟩ := h
    obtain ⟨w, hw, hf⟩ := fillBank_ok h1 h2 h3 h4
    exact ⟨w, f, rfl, by simp only [fillWith, hw]; rfl, hf⟩

theorem bankPair_ok {single : Bool} {fam : Family} {order : ℕ} (h : entryCheck single fam order = true) :
    ∃ w b c, discreteWavelet single fam order = .ok (some w) ∧ bankPair single fam order = some (b, c) ∧
      FromPair w b c := by
  by_cases h1 : fam = .haar
  · subst h1
    have h' : fillCheck false (tolerance single .haar) (fillFrom single .db 1) = true := h
    obtain ⟨w, f, e, hw, hf⟩ := fillCheck_pair h'
    exact ⟨w, _, _, hw, by simp only [bankPair, e]; rfl, hf⟩
  by_cases h2 : fam = .rbio
  · subst h2
    have h : fillCheck true (tolerance single .rbio) (fillFrom single .bior order) = true := h
    obtain ⟨w, f, e, hw, hf⟩ := fillCheck_pair h
    exact ⟨Pywt.swapReverse w, _, _, by simp only [discreteWavelet, hw]; rfl,
      by simp only [bankPair, e]; rfl, hf.swapReverse⟩
  · have e1 : entryCheck single fam order = fillCheck false (tolerance single fam) (fillFrom single fam order) := by
      cases fam <;> first | rfl | exact absurd rfl h1 | exact absurd rfl h2
    have e2 : discreteWavelet single fam order = fillWith (fillFrom single fam order) := by
      cases fam <;> first | rfl | exact absurd rfl h1 | exact absurd rfl h2
    have e3 : bankPair single fam order = (fillFrom single fam order).map fillPair := by
      cases fam <;> first | rfl | exact absurd rfl h1 | exact absurd rfl h2
    rw [e1] at h
    obtain ⟨w, f, e, hw, hf⟩ := fillCheck_pair h
    exact ⟨w, _, _, by rw [e2, hw], by rw [e3, e]; rfl, hf⟩

/-! ### Moments of filters with alternating signs, in natural numbers -/

/-- `Σ_j l[j]·(k+j)^i`. -/
def dotPow : List ℕ → ℕ → ℕ → ℕ
  | [], _, _ => 0
  | a :: l, k, i => a * k ^ i + dotPow l (k + 1) i

/-- Positive and negative parts of the list with the signs of every second entry changed. -/
def altParts : List ℤ → List ℕ × List ℕ
  | [] => ([], [])
  | a :: l => let r := altParts l; (a.toNat :: r.2, (-a).toNat :: r.1)

/-- The first `p` moment conditions hold up to `2^-b`. -/
def momsOk (b : ℕ) (P N : List ℕ) : ℕ → Bool
  | 0 => true
  | i + 1 => momsOk b P N i &&
     (let u := dotPow P 0 i; let v := dotPow N 0 i
      Nat.ble ((u - v) * 2 ^ b) (u + v) && Nat.ble ((v - u) * 2 ^ b) (u + v))

def altOk (b p : ℕ) (l : List ℤ) : Bool := momsOk b (altParts l).1 (altParts l).2 p

theorem altParts_sub (l : List ℤ) (k i : ℕ) :
    (dotPow (altParts l).1 k i : ℤ) - dotPow (altParts l).2 k i =
      ∑ j ∈ range l.length, (-1) ^ j * l.getD j 0 * ((k + j : ℕ) : ℤ) ^ i := by
  induction l generalizing k with
  | nil => simp [altParts, dotPow]
  | cons a l ih =>
    rw [List.length_cons, sum_range_succ']
    have : ∑ j ∈ range l.length, (-1 : ℤ) ^ (j + 1) * (a :: l).getD (j + 1) 0 * ((k + (j + 1) : ℕ) : ℤ) ^ i =
        -∑ j ∈ range l.length, (-1 : ℤ) ^ j * l.getD j 0 * ((k + 1 + j : ℕ) : ℤ) ^ i := by
      rw [← sum_neg_distrib]
      refine sum_congr rfl fun j _ => ?_
      rw [List.getD_cons_succ, pow_succ, show k + (j + 1) = k + 1 + j by omega]
      ring
    rw [this, ← ih]
    simp only [altParts, dotPow, List.getD_cons_zero, pow_zero, one_mul, add_zero]
    push_cast
    have := Int.toNat_sub_toNat_neg a
    linear_combination ((k : ℤ) ^ i) * this

theorem altParts_add (l : List ℤ) (k i : ℕ) :
    (dotPow (altParts l).1 k i : ℤ) + dotPow (altParts l).2 k i =
      ∑ j ∈ range l.length, |l.getD j 0| * ((k + j : ℕ) : ℤ) ^ i := by
  induction l generalizing k with
  | nil => simp [altParts, dotPow]
  | cons a l ih =>
    rw [List.length_cons, sum_range_succ']
    have : ∑ j ∈ range l.length, |(a :: l).getD (j + 1) 0| * ((k + (j + 1) : ℕ) : ℤ) ^ i =
        ∑ j ∈ range l.length, |l.getD j 0| * ((k + 1 + j : ℕ) : ℤ) ^ i := by
      refine sum_congr rfl fun j _ => ?_
      rw [List.getD_cons_succ, show k + (j + 1) = k + 1 + j by omega]
    rw [this, ← ih]
    simp only [altParts, dotPow, List.getD_cons_zero, add_zero]
    push_cast
    have : ((a.toNat : ℕ) : ℤ) + ((-a).toNat : ℕ) = |a| := by
      rcases le_total 0 a with h | h
      · rw [abs_of_nonneg h]; omega
      · rw [abs_of_nonpos h]; omega
    linear_combination ((k : ℤ) ^ i) * this

theorem altOk_spec {b p : ℕ} {l : List ℤ} (h : altOk b p l = true) : ∀ i < p,
    |∑ j ∈ range l.length, (-1) ^ j * l.getD j 0 * (j : ℤ) ^ i| * 2 ^ b ≤
      ∑ j ∈ range l.length, |l.getD j 0| * (j : ℤ) ^ i := by
  unfold altOk at h
  induction p with
  | zero => intro i hi; omega
  | succ p ih =>
    simp only [momsOk, Bool.and_eq_true, Nat.ble_eq] at h
    intro i hi
    by_cases hip : i = p
    · subst hip
      obtain ⟨-, h1, h2⟩ := h
      have e1 := altParts_sub l 0 i
      have e2 := altParts_add l 0 i
      simp only [zero_add] at e1 e2
      rw [← e1, ← e2]
      generalize dotPow (altParts l).1 0 i = u at *
      generalize dotPow (altParts l).2 0 i = v at *
      rcases le_total u v with huv | huv
      · rw [abs_of_nonpos (by omega)]
        have : (((v - u) * 2 ^ b : ℕ) : ℤ) ≤ (u + v : ℕ) := by exact_mod_cast h2
        push_cast [huv] at this
        linarith
      · rw [abs_of_nonneg (by omega)]
        have : (((u - v) * 2 ^ b : ℕ) : ℤ) ≤ (u + v : ℕ) := by exact_mod_cast h1
        push_cast [huv] at this
        linarith
    · exact ih h.1 i (by omega)

/-- The filter satisfies the first `p` moment conditions up to `2^-b`. -/
def MomOk (p b : ℕ) (f : List ℤ) : Prop := ∀ i < p,
  |moment f i| * 2 ^ b ≤ moment (f.map fun z => |z|) i

theorem momOk_alt {p b : ℕ} {f l : List ℤ} (h : altOk b p l = true) (hl : f.length = l.length)
    {s : ℤ} (hs : |s| = 1) (hf : ∀ j < l.length, f.getD j 0 = s * ((-1) ^ j * l.getD j 0)) : MomOk p b f := by
  intro i hi
  have := altOk_spec h i hi
  have e1 : moment f i = s * ∑ j ∈ range l.length, (-1) ^ j * l.getD j 0 * (j : ℤ) ^ i := by
    unfold moment
    rw [hl, mul_sum]
    refine sum_congr rfl fun j hj => ?_
    rw [hf j (mem_range.mp hj), mul_assoc]
  have e2 : moment (f.map fun z => |z|) i = ∑ j ∈ range l.length, |l.getD j 0| * (j : ℤ) ^ i := by
    unfold moment
    rw [List.length_map, hl]
    refine sum_congr rfl fun j hj => ?_
    rw [mem_range] at hj
    have h1 : (f.map fun z => |z|).getD j 0 = |f.getD j 0| := by
      rw [List.getD_eq_getElem (hn := by simp; omega), List.getD_eq_getElem (hn := by omega)]
      simp
    rw [h1, hf j hj, abs_mul, abs_mul, hs, abs_pow]
    simp
  rw [e1, e2, abs_mul, hs, one_mul]
  exact this

/-- The square of the sum of the taps is two up to `2^-b`. -/
def sumOk (b : ℕ) (f : List ℤ) : Bool :=
  let s := f.sum.natAbs
  Nat.ble ((s ^ 2 - 2 ^ 321) * 2 ^ b) (2 ^ 320) && Nat.ble ((2 ^ 321 - s ^ 2) * 2 ^ b) (2 ^ 320)

/-- The check of one entry of the table of names. -/
def momentCheck (single : Bool) (fam : Family) (order : ℕ) : Bool :=
  match bankPair single fam order with
  | some (b, c) =>
    let p := (discreteInfo fam order).2.2.2.2.2.1.toNat
    ((fam == .rbio && (order == 31 || order == 55)) || altOk (momentBits single fam) p b) &&
    (!(fam == .rbio) || altOk (momentBits single fam) p c.reverse) &&
    (sumOk (if single then 21 else 49) b && sumOk (if single then 21 else 49) c)
  | none => false

theorem moments_haar : momentCheck false .haar 0 = true ∧ momentCheck true .haar 0 = true := by decide +kernel
theorem moments_dmey : momentCheck false .dmey 0 = true ∧ momentCheck true .dmey 0 = true := by decide +kernel
theorem moments_db_double : ((List.range 38).all fun k => momentCheck false .db (k + 1)) = true := by decide +kernel
theorem moments_db_single : ((List.range 38).all fun k => momentCheck true .db (k + 1)) = true := by decide +kernel
theorem moments_sym_double : ((List.range 19).all fun k => momentCheck false .sym (k + 2)) = true := by decide +kernel
theorem moments_sym_single : ((List.range 19).all fun k => momentCheck true .sym (k + 2)) = true := by decide +kernel
theorem moments_coif_double : ((List.range 17).all fun k => momentCheck false .coif (k + 1)) = true := by decide +kernel
theorem moments_coif_single : ((List.range 17).all fun k => momentCheck true .coif (k + 1)) = true := by decide +kernel
theorem moments_bior_double :
    (biorOrders.all fun k => momentCheck false .bior k && momentCheck false .rbio k) = true := by decide +kernel
theorem moments_bior_single :
    (biorOrders.all fun k => momentCheck true .bior k && momentCheck true .rbio k) = true := by decide +kernel

theorem momentCheck_of_orderOk {single : Bool} {fam : Family} {order : ℕ} (h : orderOk fam order = true)
    (h0 : fam = .haar ∨ fam = .dmey → order = 0) : momentCheck single fam order = true := by
  have hbior : ∀ k ∈ biorOrders, momentCheck single .bior k = true ∧ momentCheck single .rbio k = true := by
    intro k hk
    cases single
    · have := List.all_eq_true.mp moments_bior_double k hk
      simpa using this
    · have := List.all_eq_true.mp moments_bior_single k hk
      simpa using this
  cases fam <;> simp only [orderOk, decide_eq_true_eq, reduceCtorEq] at h
  case haar =>
    rw [h0 (Or.inl rfl)]
    cases single
    · exact moments_haar.1
    · exact moments_haar.2
  case dmey =>
    rw [h0 (Or.inr rfl)]
    cases single
    · exact moments_dmey.1
    · exact moments_dmey.2
  case db =>
    obtain ⟨k, rfl⟩ : ∃ k, order = k + 1 := ⟨order - 1, by omega⟩
    cases single
    · exact List.all_eq_true.mp moments_db_double k (by simp; omega)
    · exact List.all_eq_true.mp moments_db_single k (by simp; omega)
  case sym =>
    obtain ⟨k, rfl⟩ : ∃ k, order = k + 2 := ⟨order - 2, by omega⟩
    cases single
    · exact List.all_eq_true.mp moments_sym_double k (by simp; omega)
    · exact List.all_eq_true.mp moments_sym_single k (by simp; omega)
  case coif =>
    obtain ⟨k, rfl⟩ : ∃ k, order = k + 1 := ⟨order - 1, by omega⟩
    cases single
    · exact List.all_eq_true.mp moments_coif_double k (by simp; omega)
    · exact List.all_eq_true.mp moments_coif_single k (by simp; omega)
  case bior => exact (hbior order h).1
  case rbio => exact (hbior order h).2

theorem table_orders : ∀ e ∈ wnameToCode,
    (e.2.1 = .haar ∨ e.2.1 = .dmey → e.2.2 = 0) ∧
    (e.2.1 = .rbio → (e.2.2 = 31 → e.1 = "rbio3.1") ∧ (e.2.2 = 55 → e.1 = "rbio5.5")) := by
  decide +kernel

/-- The check, in the real numbers. -/
theorem momOk_real {p b : ℕ} {f : List ℤ} (h : MomOk p b f) :
    ∀ i < p, |moment (f.map fun z => (fxVal z : ℝ)) i| ≤
      1 / 2 ^ b * moment (f.map fun z => |(fxVal z : ℝ)|) i := by
  intro i hi
  have h1 := h i hi
  have e1 : moment (f.map fun z => (fxVal z : ℝ)) i = ((moment f i : ℤ) : ℝ) / 2 ^ fxBits := by
    unfold moment
    push_cast
    rw [Finset.sum_div, List.length_map]
    refine Finset.sum_congr rfl fun k hk => ?_
    rw [Finset.mem_range] at hk
    rw [List.getD_eq_getElem (hn := by simpa using hk), List.getD_eq_getElem (hn := hk)]
    simp [fxVal]; ring
  have e2 : moment (f.map fun z => |(fxVal z : ℝ)|) i = ((moment (f.map fun z => |z|) i : ℤ) : ℝ) / 2 ^ fxBits := by
    unfold moment
    push_cast
    rw [Finset.sum_div, List.length_map, List.length_map]
    refine Finset.sum_congr rfl fun k hk => ?_
    rw [Finset.mem_range] at hk
    rw [List.getD_eq_getElem (hn := by simpa using hk), List.getD_eq_getElem (hn := by simpa using hk)]
    simp [fxVal, abs_div]; ring
  have h2 : |((moment f i : ℤ) : ℝ)| * 2 ^ b ≤ ((moment (f.map fun z => |z|) i : ℤ) : ℝ) := by exact_mod_cast h1
  rw [e1, e2, abs_div, abs_of_pos (show (0 : ℝ) < 2 ^ fxBits by positivity)]
  rw [← mul_div_assoc]
  apply div_le_div_of_nonneg_right _ (by positivity)
  rw [one_div, ← div_eq_inv_mul, le_div_iff₀ (by positivity)]
  exact h2

theorem sumOk_real {b : ℕ} {f : List ℤ} (h : sumOk b f = true) :
    |(f.map fun z => (fxVal z : ℝ)).sum ^ 2 - 2| ≤ 1 / 2 ^ b := by
  have h0 : |f.sum ^ 2 - 2 ^ 321| * 2 ^ b ≤ 2 ^ 320 := by
    simp only [sumOk, Bool.and_eq_true, Nat.ble_eq] at h
    obtain ⟨h1, h2⟩ := h
    have e : f.sum ^ 2 = ((f.sum.natAbs ^ 2 : ℕ) : ℤ) := by push_cast; rw [sq_abs]
    rw [e]
    generalize f.sum.natAbs ^ 2 = u at *
    rcases le_total u (2 ^ 321) with hu | hu
    · have : (((2 ^ 321 - u) * 2 ^ b : ℕ) : ℤ) ≤ (2 ^ 320 : ℕ) := by exact_mod_cast h2
      rw [Nat.cast_mul, Nat.cast_sub hu] at this
      rw [abs_of_nonpos (by have : (u : ℤ) ≤ (2 ^ 321 : ℕ) := by exact_mod_cast hu
                            push_cast at this; linarith)]
      push_cast at this
      linarith
    · have : (((u - 2 ^ 321) * 2 ^ b : ℕ) : ℤ) ≤ (2 ^ 320 : ℕ) := by exact_mod_cast h1
      rw [Nat.cast_mul, Nat.cast_sub hu] at this
      rw [abs_of_nonneg (by have : ((2 ^ 321 : ℕ) : ℤ) ≤ u := by exact_mod_cast hu
                            push_cast at this; linarith)]
      push_cast at this
      linarith
  have e : (f.map fun z => (fxVal z : ℝ)).sum = (f.sum : ℝ) / 2 ^ fxBits := by
    clear h h0
    induction f with
    | nil => simp
    | cons a f ih =>
      rw [List.map_cons, List.sum_cons, ih, List.sum_cons]
      simp [fxVal]; ring
  have h2 : |(f.sum : ℝ) ^ 2 - 2 ^ 321| * 2 ^ b ≤ 2 ^ 320 := by exact_mod_cast h0
  have e2 : ((f.sum : ℝ) / 2 ^ fxBits) ^ 2 - 2 = ((f.sum : ℝ) ^ 2 - 2 ^ 321) / 2 ^ 320 := by
    rw [div_pow]
    unfold fxBits
    field_simp
  rw [e, e2, abs_div, abs_of_pos (show (0 : ℝ) < 2 ^ 320 by positivity), div_le_div_iff₀ (by positivity) (by positivity)]
  rw [one_mul]
  exact h2

/-- The conditions for the integer filters. -/
theorem builtin_moments {single : Bool} {name : String} {fam : Family} {order : ℕ}
    (h : (name, fam, order) ∈ wnameToCode) (hd : fam.isDiscrete = true) {w : Wavelet ℤ}
    (hw : discreteWavelet single fam order = .ok (some w)) :
    (name ≠ "rbio3.1" → name ≠ "rbio5.5" →
      MomOk (discreteInfo fam order).2.2.2.2.2.1.toNat (momentBits single fam) w.dec_hi) ∧
    (fam = .rbio → MomOk (discreteInfo fam order).2.2.2.2.2.1.toNat (momentBits single fam) w.rec_hi) ∧
    sumOk (if single then 21 else 49) w.dec_lo = true ∧ sumOk (if single then 21 else 49) w.rec_lo = true := by
  have hok := table_orderOk _ h hd
  simp only at hok
  obtain ⟨t1, t2⟩ := table_orders _ h
  simp only at t1 t2
  obtain ⟨w', b, c, e1, e2, e3⟩ := bankPair_ok (entryCheck_of_orderOk (single := single) hok)
  have : w' = w := by rw [e1] at hw; simpa using hw
  subst this
  have hc := momentCheck_of_orderOk (single := single) hok t1
  simp only [momentCheck, e2, Bool.and_eq_true, Bool.or_eq_true, Bool.not_eq_true', beq_iff_eq,
    beq_eq_false_iff_ne] at hc
  obtain ⟨⟨c1, c2⟩, c3, c4⟩ := hc
  have hl := e3.len
  have hev := e3.even
  refine ⟨?_, ?_, ?_, ?_⟩
  · intro n1 n2
    have : altOk (momentBits single fam) (discreteInfo fam order).2.2.2.2.2.1.toNat b = true := by
      rcases c1 with ⟨g1, g2⟩ | g
      · rcases g2 with g2 | g2
        · exact absurd ((t2 g1).1 g2) n1
        · exact absurd ((t2 g1).2 g2) n2
      · exact g
    refine momOk_alt this e3.dhl (s := -1) (by simp) fun j hj => ?_
    rw [e3.dh j hj]
    have : ((-1 : ℤ)) ^ (b.length - 1 - j) = -1 * (-1) ^ j := by
      rcases Nat.even_or_odd j with hj2 | hj2
      · rw [hj2.neg_one_pow, Odd.neg_one_pow (by rw [Nat.odd_iff]; rw [Nat.even_iff] at hj2; omega)]; rfl
      · rw [hj2.neg_one_pow, Even.neg_one_pow (by rw [Nat.even_iff]; rw [Nat.odd_iff] at hj2; omega)]; rfl
    rw [this]; ring
  · intro g
    have : altOk (momentBits single fam) (discreteInfo fam order).2.2.2.2.2.1.toNat c.reverse = true := by
      rcases c2 with g2 | g2
      · exact absurd g g2
      · exact g2
    refine momOk_alt this (by rw [e3.rhl, List.length_reverse, hl]) (s := 1) (by simp) fun j hj => ?_
    rw [List.length_reverse, hl] at hj
    rw [e3.rh j hj, one_mul]
    congr 1
    rw [List.getD_eq_getElem (hn := by omega), List.getD_eq_getElem (hn := by rw [List.length_reverse]; omega),
      List.getElem_reverse]
    congr 1; omega
  · rw [e3.dl]
    unfold sumOk at c4 ⊢
    rw [List.sum_reverse]; exact c4
  · rw [e3.rl]; exact c3

end Pywt
