import Verif.Proof.Approx
import Verif.Proof.Bank
import Mathlib.Algebra.BigOperators.Field

/-! The tables of the built-in wavelets. -/

namespace Pywt

open Finset Spec

set_option linter.unusedSectionVars false

/-- The base in which filters are packed into one number. -/
def packBase : ℕ := 2 ^ 400

/-- The number with the digits `l`, least significant first. -/
def pack (l : List ℕ) : ℕ := l.foldr (fun a acc => a + packBase * acc) 0

/-- Digit number `s`. -/
def packDigit (P s : ℕ) : ℕ := P / packBase ^ s % packBase

theorem pack_eq (l : List ℕ) : pack l = ∑ t ∈ range l.length, l.getD t 0 * packBase ^ t := by
  induction l with
  | nil => rfl
  | cons a l ih =>
    rw [List.length_cons, sum_range_succ']
    show a + packBase * pack l = _
    rw [ih, mul_sum, add_comm]
    simp only [List.getD_cons_succ, List.getD_cons_zero, pow_zero, mul_one]
    congr 1
    apply sum_congr rfl
    intro t _
    ring

theorem pack_mul (l m : List ℕ) :
    pack l * pack m = ∑ s ∈ range (l.length + m.length), prodCoeff l m s * packBase ^ s := by
  rw [pack_eq, pack_eq, sum_mul_sum]
  have h1 : ∀ s ∈ range (l.length + m.length), prodCoeff l m s * packBase ^ s =
      ∑ t ∈ range l.length, ∑ u ∈ range m.length,
        if t + u = s then l.getD t 0 * m.getD u 0 * packBase ^ (t + u) else 0 := by
    intro s _
    unfold prodCoeff
    rw [sum_mul]
    apply sum_congr rfl; intro t _
    rw [sum_mul]
    apply sum_congr rfl; intro u _
    split_ifs with h
    · rw [h]
    · simp
  rw [sum_congr rfl h1]
  symm
  rw [sum_comm]
  apply sum_congr rfl; intro t ht
  rw [sum_comm]
  apply sum_congr rfl; intro u hu
  simp only [mem_range] at ht hu
  rw [sum_ite_eq, if_pos (by simp; omega)]
  ring

theorem packDigit_sum (n : ℕ) : ∀ (d : ℕ → ℕ), (∀ s, d s < packBase) → ∀ s < n,
    packDigit (∑ s ∈ range n, d s * packBase ^ s) s = d s := by
  have hX : 0 < packBase := by unfold packBase; positivity
  induction n with
  | zero => intro d _ s hs; omega
  | succ n ih =>
    intro d hd s hs
    have e : ∑ s ∈ range (n + 1), d s * packBase ^ s =
        d 0 + packBase * ∑ s ∈ range n, d (s + 1) * packBase ^ s := by
      rw [sum_range_succ', mul_sum, add_comm]
      congr 1
      · simp
      · apply sum_congr rfl; intro t _; ring
    rw [e]
    unfold packDigit
    cases s with
    | zero => rw [pow_zero, Nat.div_one, Nat.add_mul_mod_self_left, Nat.mod_eq_of_lt (hd 0)]
    | succ s =>
      rw [pow_succ', ← Nat.div_div_eq_div_mul, Nat.add_mul_div_left _ _ hX, Nat.div_eq_of_lt (hd 0),
        zero_add]
      exact ih (fun s => d (s + 1)) (fun s => hd _) s (by omega)

/-- Positive and negative parts of a filter. -/
def posPart (l : List ℤ) : List ℕ := l.map Int.toNat
def negPart (l : List ℤ) : List ℕ := l.map fun a => (-a).toNat

theorem posPart_getD (l : List ℤ) (i : ℕ) : (posPart l).getD i 0 = (l.getD i 0).toNat := by
  unfold posPart
  rw [show (0 : ℕ) = Int.toNat 0 from rfl, List.getD_map]

theorem negPart_getD (l : List ℤ) (i : ℕ) : (negPart l).getD i 0 = (-(l.getD i 0)).toNat := by
  unfold negPart
  rw [show (0 : ℕ) = (fun a : ℤ => (-a).toNat) 0 from rfl, List.getD_map]

theorem prodCoeff_parts (b c : List ℤ) (s : ℕ) :
    prodCoeff b c s =
      ((prodCoeff (posPart b) (posPart c) s + prodCoeff (negPart b) (negPart c) s : ℕ) : ℤ) -
      ((prodCoeff (posPart b) (negPart c) s + prodCoeff (negPart b) (posPart c) s : ℕ) : ℤ) := by
  unfold prodCoeff
  have hl : ∀ l : List ℤ, (posPart l).length = l.length ∧ (negPart l).length = l.length := by
    intro l; simp [posPart, negPart]
  simp only [(hl _).1, (hl _).2]
  push_cast
  rw [← sum_add_distrib, ← sum_add_distrib, ← sum_sub_distrib]
  apply sum_congr rfl; intro t _
  rw [← sum_add_distrib, ← sum_add_distrib, ← sum_sub_distrib]
  apply sum_congr rfl; intro u _
  split_ifs
  · rw [posPart_getD, posPart_getD, negPart_getD, negPart_getD]
    have h1 : b.getD t 0 = ((b.getD t 0).toNat : ℤ) - ((-(b.getD t 0)).toNat : ℤ) := by omega
    have h2 : c.getD u 0 = ((c.getD u 0).toNat : ℤ) - ((-(c.getD u 0)).toNat : ℤ) := by omega
    conv_lhs => rw [h1, h2]
    ring
  · simp

/-- All entries are below `2¹⁸⁰` in absolute value, and there are not too many. -/
def sizeOk (l : List ℤ) : Bool := decide (l.length ≤ 1024) && l.all fun a => decide (a.natAbs < 2 ^ 180)

theorem sizeOk_getD {l : List ℤ} (h : sizeOk l = true) (i : ℕ) : (l.getD i 0).natAbs < 2 ^ 180 := by
  simp only [sizeOk, Bool.and_eq_true, decide_eq_true_eq, List.all_eq_true] at h
  by_cases hi : i < l.length
  · rw [List.getD_eq_getElem _ _ hi]
    exact h.2 _ (List.getElem_mem hi)
  · rw [List.getD_eq_default _ _ (by omega)]
    simp

theorem prodCoeff_bound {l m : List ℕ} (hl : l.length ≤ 1024) (hm : m.length ≤ 1024)
    (h1 : ∀ i, l.getD i 0 < 2 ^ 180) (h2 : ∀ i, m.getD i 0 < 2 ^ 180) (s : ℕ) :
    prodCoeff l m s ≤ 2 ^ 380 := by
  unfold prodCoeff
  calc _ ≤ ∑ t ∈ range l.length, ∑ u ∈ range m.length, 2 ^ 360 := by
        apply sum_le_sum; intro t _
        apply sum_le_sum; intro u _
        split_ifs
        · calc _ ≤ 2 ^ 180 * 2 ^ 180 := Nat.mul_le_mul (h1 t).le (h2 u).le
            _ = 2 ^ 360 := by rw [← pow_add]
        · positivity
    _ = l.length * (m.length * 2 ^ 360) := by simp
    _ ≤ 1024 * (1024 * 2 ^ 360) := Nat.mul_le_mul hl (Nat.mul_le_mul hm le_rfl)
    _ = 2 ^ 380 := by rw [show (1024 : ℕ) = 2 ^ 10 by norm_num, ← pow_add, ← pow_add]

/-- The two numbers whose digits differ by the coefficients of the product of `b` and `c`. -/
def packP (b c : List ℤ) : ℕ :=
  pack (posPart b) * pack (posPart c) + pack (negPart b) * pack (negPart c)
def packQ (b c : List ℤ) : ℕ :=
  pack (posPart b) * pack (negPart c) + pack (negPart b) * pack (posPart c)

theorem prodCoeff_digit {b c : List ℤ} (hb : sizeOk b = true) (hc : sizeOk c = true) {s : ℕ}
    (hs : s < b.length + c.length) :
    prodCoeff b c s = (packDigit (packP b c) s : ℤ) - packDigit (packQ b c) s := by
  have hl : ∀ l : List ℤ, (posPart l).length = l.length ∧ (negPart l).length = l.length := by
    intro l; simp [posPart, negPart]
  have lb : b.length ≤ 1024 := by
    simp only [sizeOk, Bool.and_eq_true, decide_eq_true_eq] at hb; exact hb.1
  have lc : c.length ≤ 1024 := by
    simp only [sizeOk, Bool.and_eq_true, decide_eq_true_eq] at hc; exact hc.1
  have p : ∀ {l : List ℤ}, sizeOk l = true → ∀ i, (posPart l).getD i 0 < 2 ^ 180 := by
    intro l h i
    have := sizeOk_getD h i
    rw [posPart_getD]; omega
  have n : ∀ {l : List ℤ}, sizeOk l = true → ∀ i, (negPart l).getD i 0 < 2 ^ 180 := by
    intro l h i
    have := sizeOk_getD h i
    rw [negPart_getD]; omega
  have hsum : ∀ k1 k2 : ℕ, k1 ≤ 2 ^ 380 → k2 ≤ 2 ^ 380 → k1 + k2 < packBase := by
    intro k1 k2 h1 h2
    unfold packBase
    calc k1 + k2 ≤ 2 ^ 380 + 2 ^ 380 := by omega
      _ = 2 ^ 381 := by rw [← two_mul, ← pow_succ']
      _ < 2 ^ 400 := Nat.pow_lt_pow_right (by norm_num) (by norm_num)
  unfold packP packQ
  rw [pack_mul, pack_mul, pack_mul, pack_mul]
  simp only [(hl _).1, (hl _).2]
  rw [← sum_add_distrib, ← sum_add_distrib]
  simp only [← add_mul]
  rw [packDigit_sum _ (fun s => prodCoeff (posPart b) (posPart c) s + prodCoeff (negPart b) (negPart c) s)
      (fun s => hsum _ _ (prodCoeff_bound (by simp [posPart, lb]) (by simp [posPart, lc]) (p hb) (p hc) s)
        (prodCoeff_bound (by simp [negPart, lb]) (by simp [negPart, lc]) (n hb) (n hc) s)) s hs,
    packDigit_sum _ (fun s => prodCoeff (posPart b) (negPart c) s + prodCoeff (negPart b) (posPart c) s)
      (fun s => hsum _ _ (prodCoeff_bound (by simp [posPart, lb]) (by simp [negPart, lc]) (p hb) (n hc) s)
        (prodCoeff_bound (by simp [negPart, lb]) (by simp [posPart, lc]) (n hb) (p hc) s)) s hs,
    prodCoeff_parts]

theorem prodCoeff_xcorr (b c : List ℤ) (s : ℕ) :
    prodCoeff b c.reverse s = xcorr b c ((c.length : ℤ) - 1 - s) := by
  rw [prodCoeff_parity, parityCoeff_tap, parityCoeff_tap, ← sum_add_distrib]
  unfold xcorr
  apply sum_congr rfl
  intro t _
  rw [tap_reverse]
  have e : ((c.length : ℤ) - 1 - ((s : ℤ) - t)) = t + ((c.length : ℤ) - 1 - s) := by ring
  rw [e]
  by_cases h : t % 2 = 0
  · rw [if_pos h, if_neg (by omega), add_zero]
  · rw [if_neg h, if_pos (by omega), zero_add]

/-- The square of the unit of the fixed-point numbers. -/
def fxOne2 : ℤ := 2 ^ (2 * fxBits)

/-- Sum of the deviations of the pair from biorthogonality. -/
def devSum (P Q F : ℕ) : ℕ → ℕ
  | 0 => 0
  | k + 1 => devSum P Q F k +
      ((packDigit P (2 * k + 1) : ℤ) - packDigit Q (2 * k + 1) - if 2 * k + 2 = F then fxOne2 else 0).natAbs

theorem devSum_eq (P Q F k : ℕ) : ((devSum P Q F k : ℕ) : ℤ) = ∑ i ∈ range k,
    |(packDigit P (2 * i + 1) : ℤ) - packDigit Q (2 * i + 1) - if 2 * i + 2 = F then fxOne2 else 0| := by
  induction k with
  | zero => rfl
  | succ k ih => rw [devSum, sum_range_succ, ← ih, Nat.cast_add, Int.natCast_natAbs]

/-- The same for a pair of filters. -/
def pairDev (b c : List ℤ) : ℕ :=
  let P := packP b c.reverse
  let Q := packQ b c.reverse
  devSum P Q b.length b.length

theorem sum_range_two_mul {A : Type} [AddCommMonoid A] (g : ℕ → A) (n : ℕ) :
    ∑ s ∈ range (2 * n), g s = ∑ i ∈ range n, (g (2 * i) + g (2 * i + 1)) := by
  induction n with
  | zero => simp
  | succ n ih => rw [show 2 * (n + 1) = 2 * n + 1 + 1 by ring, sum_range_succ, sum_range_succ, ih,
      sum_range_succ, add_assoc]

/-- The deviations from perfect reconstruction of an integer bank, in units of `2⁻³²⁰`. -/
theorem pairDev_parity {w : Wavelet ℤ} {b c : List ℤ} (h : FromPair w b c) (hb : sizeOk b = true)
    (hc : sizeOk c.reverse = true) {p : ℕ} (hp : p < 2) :
    ∑ s ∈ range (2 * b.length), |parityCoeff w.rec_lo w.dec_lo p s + parityCoeff w.rec_hi w.dec_hi p s -
      (if s + 1 = b.length then fxOne2 else 0)| = pairDev b c := by
  have hev := h.even
  have hl := h.len
  unfold pairDev
  simp only
  rw [devSum_eq, sum_range_two_mul]
  apply sum_congr rfl
  intro i hi
  simp only [mem_range] at hi
  rw [h.parity p _ hp, h.parity p _ hp, if_neg (by omega), if_neg (by omega), if_pos (by omega),
    ← prodCoeff_digit hb hc (by rw [List.length_reverse]; omega), prodCoeff_xcorr, hl]
  simp

/-! ### From integers to numbers -/

theorem fxVal_real (z : ℤ) : ((fxVal z : ℚ) : ℝ) = (z : ℝ) / 2 ^ fxBits := by
  unfold fxVal; push_cast; rfl

theorem getD_fx (l : List ℤ) (i : ℕ) :
    (l.map fun z => ((fxVal z : ℚ) : ℝ)).getD i 0 = ((l.getD i 0 : ℤ) : ℝ) / 2 ^ fxBits := by
  rw [← fxVal_real]
  have h0 : ((fxVal 0 : ℚ) : ℝ) = 0 := by simp [fxVal]
  conv_lhs => rw [← h0]
  exact List.getD_map (f := fun z => ((fxVal z : ℚ) : ℝ)) (d := (0 : ℤ)) l

theorem parityCoeff_fx (f g : List ℤ) (p s : ℕ) :
    parityCoeff (f.map fun z => ((fxVal z : ℚ) : ℝ)) (g.map fun z => ((fxVal z : ℚ) : ℝ)) p s =
      ((parityCoeff f g p s : ℤ) : ℝ) / (fxOne2 : ℤ) := by
  unfold parityCoeff
  rw [List.length_map, List.length_map]
  push_cast
  rw [sum_div]
  apply sum_congr rfl; intro t _
  rw [sum_div]
  apply sum_congr rfl; intro l _
  rw [getD_fx, getD_fx]
  split_ifs
  · unfold fxOne2
    push_cast
    rw [two_mul, pow_add, div_mul_div_comm]
  · simp

theorem fxOne2_pos : (0 : ℝ) < ((fxOne2 : ℤ) : ℝ) := by unfold fxOne2; positivity

theorem PRWithin_of_dev {w : Wavelet ℤ} {b c : List ℤ} (h : FromPair w b c) (hb : sizeOk b = true)
    (hc : sizeOk c.reverse = true) {n d : ℕ} (hd : 0 < d)
    (hdev : pairDev b c * d ≤ n * fxOne2.natAbs) :
    PRWithin ((n : ℝ) / d) (realBank w).dec_lo (realBank w).dec_hi (realBank w).rec_lo
      (realBank w).rec_hi := by
  have hl : w.dec_lo.length = b.length := by rw [h.dl, List.length_reverse, h.len]
  intro p hp
  have hone := fxOne2_pos
  unfold realBank
  simp only [List.length_map, hl]
  have key : ∑ s ∈ range (2 * b.length),
      |parityCoeff (w.rec_lo.map fun z => ((fxVal z : ℚ) : ℝ)) (w.dec_lo.map fun z => ((fxVal z : ℚ) : ℝ)) p s +
        parityCoeff (w.rec_hi.map fun z => ((fxVal z : ℚ) : ℝ)) (w.dec_hi.map fun z => ((fxVal z : ℚ) : ℝ)) p s -
        (if s + 1 = b.length then 1 else 0)| =
      ((pairDev b c : ℕ) : ℝ) / (fxOne2 : ℤ) := by
    have hz : ((pairDev b c : ℕ) : ℝ) =
        (((pairDev b c : ℕ) : ℤ) : ℝ) := by push_cast; rfl
    rw [hz, ← pairDev_parity h hb hc hp]
    push_cast
    rw [sum_div]
    apply sum_congr rfl
    intro s _
    rw [parityCoeff_fx, parityCoeff_fx, ← abs_of_pos hone, ← abs_div, abs_of_pos hone]
    congr 1
    split_ifs
    · rw [sub_div, div_self hone.ne', add_div]
    · simp [add_div]
  rw [key, div_le_div_iff₀ hone (by positivity)]
  have hn : ((fxOne2 : ℤ) : ℝ) = ((fxOne2.natAbs : ℕ) : ℝ) := by
    have : ((fxOne2.natAbs : ℕ) : ℤ) = fxOne2 := by decide +kernel
    rw [← Int.cast_natCast, this]
  rw [hn]
  exact_mod_cast hdev

theorem FromPair.swapReverse {w : Wavelet ℤ} {b c : List ℤ} (h : FromPair w b c) :
    FromPair (swapReverse w) c b := by
  have hl := h.len
  have hpos := h.pos
  have hev := h.even
  refine ⟨by omega, by omega, h.len.symm, ?_, ?_, ?_, ?_, ?_, ?_⟩
  · simp [Pywt.swapReverse, h.dl]
  · simp [Pywt.swapReverse, h.rl]
  · simp [Pywt.swapReverse, h.dhl, hl]
  · simp [Pywt.swapReverse, h.rhl, hl]
  · intro i hi
    simp only [Pywt.swapReverse]
    rw [List.getD_eq_getElem _ _ (by rw [List.length_reverse, h.dhl]; omega), List.getElem_reverse,
      ← List.getD_eq_getElem _ 0, h.dhl, h.dh _ (by omega), hl]
    congr 2
    omega
  · intro i hi
    simp only [Pywt.swapReverse]
    rw [List.getD_eq_getElem _ _ (by rw [List.length_reverse, h.rhl]; omega), List.getElem_reverse,
      ← List.getD_eq_getElem _ 0, h.rhl, h.rh _ (by omega), hl]
    congr 2
    omega

/-! ### The check of the whole table -/

/-- The tables for a wavelet have the sizes the loops need, and deviate from biorthogonality by no more
than the tolerance. -/
def pairCheck (tol : ℕ × ℕ) (b c : List ℤ) : Bool :=
  sizeOk b && sizeOk c.reverse && decide (0 < tol.2) && decide (pairDev b c * tol.2 ≤ tol.1 * fxOne2.natAbs)

def fillCheck (swap : Bool) (tol : ℕ × ℕ) : Option FillFrom → Bool
  | none => false
  | some f =>
    let b := (f.b.drop f.n).take f.F
    decide (0 < f.F) && decide (f.F % 2 = 0) && decide (f.n + f.F ≤ f.b.length) &&
      decide (f.c.length = f.F) && (if swap then pairCheck tol f.c b else pairCheck tol b f.c)

/-- The check for one entry of the table of names. -/
def entryCheck (single : Bool) (fam : Family) (order : ℕ) : Bool :=
  match fam with
  | .haar => fillCheck false (tolerance single fam) (fillFrom single .db 1)
  | .rbio => fillCheck true (tolerance single fam) (fillFrom single .bior order)
  | _ => fillCheck false (tolerance single fam) (fillFrom single fam order)

theorem PRWithin_of_check {w : Wavelet ℤ} {b c : List ℤ} (h : FromPair w b c) {tol : ℕ × ℕ}
    (hc : pairCheck tol b c = true) :
    PRWithin ((tol.1 : ℝ) / tol.2) (realBank w).dec_lo (realBank w).dec_hi (realBank w).rec_lo
      (realBank w).rec_hi := by
  simp only [pairCheck, Bool.and_eq_true, decide_eq_true_eq] at hc
  exact PRWithin_of_dev h hc.1.1.1 hc.1.1.2 hc.1.2 hc.2

theorem fillCheck_ok {swap : Bool} {tol : ℕ × ℕ} {f : Option FillFrom} (h : fillCheck swap tol f = true) :
    ∃ w b c, fillWith f = .ok (some w) ∧ FromPair w b c ∧
      (if swap then pairCheck tol c b else pairCheck tol b c) = true := by
  cases f with
  | none => simp [fillCheck] at h
  | some f =>
    simp only [fillCheck, Bool.and_eq_true, decide_eq_true_eq] at h
    obtain ⟨⟨⟨⟨h1, h2⟩, h3⟩, h4⟩, h6⟩ := h
    obtain ⟨w, hw, hf⟩ := fillBank_ok h1 h2 h3 h4
    exact ⟨w, _, _, by simp only [fillWith, hw]; rfl, hf, h6⟩

theorem entryCheck_ok {single : Bool} {fam : Family} {order : ℕ}
    (h : entryCheck single fam order = true) :
    ∃ w, discreteWavelet single fam order = .ok (some w) ∧ w.Ok ∧
      PRWithin (((tolerance single fam).1 : ℝ) / (tolerance single fam).2) (realBank w).dec_lo
        (realBank w).dec_hi (realBank w).rec_lo (realBank w).rec_hi := by
  by_cases h1 : fam = .haar
  · subst h1
    have h' : fillCheck false (tolerance single .haar) (fillFrom single .db 1) = true := h
    obtain ⟨w, b, c, hw, hf, hdev⟩ := fillCheck_ok h'
    exact ⟨w, hw, hf.ok, PRWithin_of_check hf hdev⟩
  by_cases h2 : fam = .rbio
  · subst h2
    have h : fillCheck true (tolerance single .rbio) (fillFrom single .bior order) = true := h
    obtain ⟨w, b, c, hw, hf, hdev⟩ := fillCheck_ok h
    exact ⟨Pywt.swapReverse w, by simp only [discreteWavelet, hw]; rfl, hf.swapReverse.ok,
      PRWithin_of_check hf.swapReverse hdev⟩
  · have e1 : entryCheck single fam order = fillCheck false (tolerance single fam) (fillFrom single fam order) := by
      cases fam <;> first | rfl | exact absurd rfl h1 | exact absurd rfl h2
    have e2 : discreteWavelet single fam order = fillWith (fillFrom single fam order) := by
      cases fam <;> first | rfl | exact absurd rfl h1 | exact absurd rfl h2
    rw [e1] at h
    obtain ⟨w, b, c, hw, hf, hdev⟩ := fillCheck_ok h
    exact ⟨w, by rw [e2, hw], hf.ok, PRWithin_of_check hf hdev⟩

end Pywt
