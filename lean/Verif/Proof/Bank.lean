import Verif.Proof.Examples
import Verif.Model.Bank
import Mathlib.Tactic.LinearCombination
import Mathlib.Data.Int.Interval

/-! Filter banks built from low-pass filters; banks of inverse filters. -/

namespace Pywt

open Finset Spec

set_option linter.unusedSectionVars false

variable {R : Type}

section ring
variable [Ring R]

theorem tap_nat (f : List R) (i : ℕ) : tap f (i : ℤ) = f.getD i 0 := by
  unfold tap
  by_cases h : i < f.length
  · rw [if_pos (by omega)]; rfl
  · rw [if_neg (by omega), List.getD_eq_default _ _ (by omega)]

theorem tap_out {f : List R} {i : ℤ} (h : i < 0 ∨ f.length ≤ i) : tap f i = 0 := by
  unfold tap
  rw [if_neg (by omega)]

theorem tap_reverse (f : List R) (i : ℤ) : tap f.reverse i = tap f (f.length - 1 - i) := by
  unfold tap
  rw [List.length_reverse]
  by_cases h : 0 ≤ i ∧ i < f.length
  · rw [if_pos h, if_pos (by omega), List.getD_eq_getElem?_getD, List.getElem?_reverse (by omega),
      List.getD_eq_getElem?_getD]
    congr 2
    omega
  · rw [if_neg h, if_neg (by omega)]

/-- A tap as a sum over all positions. -/
theorem tap_sum (f : List R) (i : ℤ) :
    tap f i = ∑ j ∈ range f.length, if (j : ℤ) = i then f.getD j 0 else 0 := by
  by_cases h : 0 ≤ i ∧ i < f.length
  · rw [sum_eq_single i.toNat]
    · rw [if_pos (by omega), ← tap_nat]
      congr 1
      omega
    · intro j _ hj
      rw [if_neg (by omega)]
    · intro hn
      simp only [mem_range] at hn
      omega
  · rw [tap_out (by omega), sum_eq_zero]
    intro j hj
    simp only [mem_range] at hj
    rw [if_neg (by omega)]

theorem parityCoeff_tap (f g : List R) (p s : ℕ) :
    parityCoeff f g p s =
      ∑ t ∈ range f.length, if t % 2 = p then f.getD t 0 * tap g ((s : ℤ) - t) else 0 := by
  unfold parityCoeff
  apply sum_congr rfl
  intro t _
  by_cases ht : t % 2 = p
  · rw [if_pos ht, tap_sum, mul_sum]
    apply sum_congr rfl
    intro l _
    by_cases hl : t + l = s
    · rw [if_pos ⟨ht, hl⟩, if_pos (by omega)]
    · rw [if_neg (by tauto), if_neg (by omega), mul_zero]
  · rw [if_neg ht]
    apply sum_eq_zero
    intro l _
    rw [if_neg (by tauto)]

/-- The same, summed over the taps of the second filter. -/
theorem parityCoeff_tap' (f g : List R) (p s : ℕ) :
    parityCoeff f g p s =
      ∑ l ∈ range g.length, if ((s : ℤ) - l) % 2 = p then tap f ((s : ℤ) - l) * g.getD l 0 else 0 := by
  unfold parityCoeff
  rw [sum_comm]
  apply sum_congr rfl
  intro l _
  by_cases hp : ((s : ℤ) - l) % 2 = p
  · rw [if_pos hp, tap_sum, sum_mul]
    apply sum_congr rfl
    intro t _
    by_cases hl : t + l = s
    · rw [if_pos ⟨by omega, hl⟩, if_pos (by omega)]
    · rw [if_neg (by tauto), if_neg (by omega), zero_mul]
  · rw [if_neg hp]
    apply sum_eq_zero
    intro t _
    rw [if_neg (by omega)]

end ring

section comm
variable [CommRing R]

/-- The four filters belonging to a synthesis low-pass filter `b` and a (reversed) analysis low-pass filter
`c`, tap by tap. -/
structure FromPair (w : Wavelet R) (b c : List R) : Prop where
  pos : 0 < b.length
  even : b.length % 2 = 0
  len : c.length = b.length
  rl : w.rec_lo = b
  dl : w.dec_lo = c.reverse
  rhl : w.rec_hi.length = b.length
  dhl : w.dec_hi.length = b.length
  rh : ∀ i < b.length, w.rec_hi.getD i 0 = (-1) ^ i * c.getD (b.length - 1 - i) 0
  dh : ∀ i < b.length, w.dec_hi.getD i 0 = (-1) ^ (b.length - 1 - i) * b.getD i 0

variable {w : Wavelet R} {b c : List R}

theorem FromPair.parity (h : FromPair w b c) (p s : ℕ) (hp : p < 2) :
    parityCoeff w.rec_lo w.dec_lo p s + parityCoeff w.rec_hi w.dec_hi p s =
      if s % 2 = 1 then xcorr b c (b.length - 1 - s) else 0 := by
  have hev := h.even
  have e1 : parityCoeff w.rec_lo w.dec_lo p s =
      ∑ j ∈ range b.length, if j % 2 = p then b.getD j 0 * tap c (j + (b.length - 1 - s)) else 0 := by
    rw [parityCoeff_tap, h.rl]
    apply sum_congr rfl
    intro t _
    rw [h.dl, tap_reverse, h.len]
    congr 3
    omega
  have e2 : parityCoeff w.rec_hi w.dec_hi p s =
      ∑ j ∈ range b.length, if ((s : ℤ) - j) % 2 = p then
        (-1) ^ (s + 1) * (b.getD j 0 * tap c (j + (b.length - 1 - s))) else 0 := by
    rw [parityCoeff_tap', h.dhl]
    apply sum_congr rfl
    intro j hj
    simp only [mem_range] at hj
    by_cases hpj : ((s : ℤ) - j) % 2 = p
    · rw [if_pos hpj, if_pos hpj, h.dh j hj]
      by_cases hin : 0 ≤ (s : ℤ) - j ∧ (s : ℤ) - j < b.length
      · obtain ⟨t, ht⟩ : ∃ t : ℕ, (s : ℤ) - j = t := ⟨((s : ℤ) - j).toNat, by omega⟩
        rw [ht, tap_nat, h.rh t (by omega)]
        have : (j : ℤ) + (b.length - 1 - s) = ((b.length - 1 - t : ℕ) : ℤ) := by omega
        rw [this, tap_nat]
        have hs : ((-1 : R)) ^ t * (-1) ^ (b.length - 1 - j) = (-1) ^ (s + 1) := by
          rw [← pow_add]
          exact neg_one_pow_congr (by
            rw [Nat.even_iff, Nat.even_iff]
            omega)
        rw [← hs]
        ring
      · rw [tap_out (by rw [h.rhl]; omega), tap_out (by rw [h.len]; omega)]
        simp
    · rw [if_neg hpj, if_neg hpj]
  rw [e1, e2, ← sum_add_distrib]
  by_cases hs : s % 2 = 1
  · rw [if_pos hs]
    unfold xcorr
    apply sum_congr rfl
    intro j _
    have hsg : ((-1 : R)) ^ (s + 1) = 1 := Even.neg_one_pow (by rw [Nat.even_iff]; omega)
    rw [hsg, one_mul]
    by_cases hj : j % 2 = p
    · rw [if_pos hj, if_neg (by omega), add_zero]
    · rw [if_neg hj, if_pos (by omega), zero_add]
  · rw [if_neg hs]
    apply sum_eq_zero
    intro j _
    have hsg : ((-1 : R)) ^ (s + 1) = -1 := Odd.neg_one_pow (by rw [Nat.odd_iff]; omega)
    rw [hsg]
    by_cases hj : j % 2 = p
    · rw [if_pos hj, if_pos (by omega)]; ring
    · rw [if_neg hj, if_neg (by omega), add_zero]

theorem xcorr_out {b c : List R} {m : ℤ} (h : m ≤ -(b.length : ℤ) ∨ (c.length : ℤ) ≤ m) : xcorr b c m = 0 := by
  unfold xcorr
  apply sum_eq_zero
  intro j hj
  simp only [mem_range] at hj
  rw [tap_out (by omega), mul_zero]

theorem FromPair.PR_iff (h : FromPair w b c) :
    PR w.dec_lo w.dec_hi w.rec_lo w.rec_hi ↔ EvenBiorthogonal b c := by
  have hev := h.even
  have hl : w.dec_lo.length = b.length := by rw [h.dl, List.length_reverse, h.len]
  constructor
  · intro hpr k
    by_cases hk : -(b.length : ℤ) < 2 * k ∧ 2 * k < b.length
    · have := hpr 0 (by omega) (b.length - 1 - 2 * k).toNat
      rw [h.parity 0 _ (by omega), if_pos (by omega), hl] at this
      rw [show ((b.length : ℤ) - 1 - ((b.length : ℤ) - 1 - 2 * k).toNat) = 2 * k by omega] at this
      rw [this]
      by_cases h0 : k = 0
      · rw [if_pos h0, if_pos (by omega)]
      · rw [if_neg h0, if_neg (by omega)]
    · have := h.pos
      rw [xcorr_out (by have := h.len; omega), if_neg (by omega)]
  · intro ho p hp s
    rw [h.parity p s hp, hl]
    by_cases hs : s % 2 = 1
    · rw [if_pos hs]
      have := ho (((b.length : ℤ) - 1 - s) / 2)
      rw [show 2 * (((b.length : ℤ) - 1 - s) / 2) = (b.length : ℤ) - 1 - s by omega] at this
      rw [this]
      by_cases h0 : s + 1 = b.length
      · rw [if_pos h0, if_pos (by omega)]
      · rw [if_neg h0, if_neg (by omega)]
    · rw [if_neg hs, if_neg (by omega)]

theorem FromPair.ok (h : FromPair w b c) : w.Ok := by
  have h1 := h.pos
  have h2 := h.even
  have hl : w.dec_lo.length = b.length := by rw [h.dl, List.length_reverse, h.len]
  exact ⟨by omega, by omega, by rw [hl]; exact h.dhl, by rw [hl, h.rl], by rw [hl]; exact h.rhl⟩

/-! ### `orthogonal_filter_bank` -/

theorem qmf_length (f : List R) : (qmf f).length = f.length := by simp [qmf]

theorem qmf_getD (f : List R) {i : ℕ} (hi : i < f.length) :
    (qmf f).getD i 0 = (-1) ^ i * f.getD (f.length - 1 - i) 0 := by
  unfold qmf
  rw [List.getD_eq_getElem _ _ (by simpa using hi), List.getElem_mapIdx, List.getElem_reverse,
    List.getD_eq_getElem _ _ (by omega)]
  by_cases h : i % 2 = 1
  · rw [if_pos h, Odd.neg_one_pow (Nat.odd_iff.2 h)]; ring
  · rw [if_neg h, Even.neg_one_pow (Nat.even_iff.2 (by omega))]; ring

theorem fromPair_qmf {f : List R} (h0 : 0 < f.length) (h2 : f.length % 2 = 0) :
    FromPair ⟨f.reverse, (qmf f).reverse, f, qmf f⟩ f f where
  pos := h0
  even := h2
  len := rfl
  rl := rfl
  dl := rfl
  rhl := qmf_length f
  dhl := by simp [qmf_length]
  rh := fun i hi => qmf_getD f hi
  dh := by
    intro i hi
    have := tap_reverse (qmf f) i
    rw [tap_nat, qmf_length, show (f.length : ℤ) - 1 - i = ((f.length - 1 - i : ℕ) : ℤ) by omega,
      tap_nat, qmf_getD f (by omega)] at this
    simp only
    rw [this]
    congr 2
    omega

/-! ### The loops of the C code -/

theorem sgn_eq (n : ℕ) : (sgn n : R) = (-1) ^ n := by
  unfold sgn
  by_cases h : n % 2 = 1
  · rw [if_pos h, Odd.neg_one_pow (Nat.odd_iff.2 h)]
  · rw [if_neg h, Even.neg_one_pow (Nat.even_iff.2 (by omega))]

/-- The first `i` taps have been filled. -/
structure BankFilled (b c : List R) (n F i : ℕ) (w : Wavelet R) : Prop where
  l1 : w.rec_lo.length = F
  l2 : w.dec_lo.length = F
  l3 : w.rec_hi.length = F
  l4 : w.dec_hi.length = F
  v1 : ∀ j < i, w.rec_lo.getD j 0 = b.getD (j + n) 0
  v2 : ∀ j < i, w.dec_lo.getD j 0 = c.getD (F - 1 - j) 0
  v3 : ∀ j < i, w.rec_hi.getD j 0 = (-1) ^ j * c.getD (F - 1 - j) 0
  v4 : ∀ j < i, w.dec_hi.getD j 0 = (-1) ^ (F - 1 - j) * b.getD (j + n) 0

theorem rd_getD {l : List R} {i : ℕ} (h : i < l.length) : rd l i = .ok (l.getD i 0) := by
  unfold rd
  rw [List.getElem?_eq_getElem h, List.getD_eq_getElem _ _ h]

theorem set_getD (l : List R) (i j : ℕ) (v : R) (h : i < l.length) :
    (l.set i v).getD j 0 = if j = i then v else l.getD j 0 := by
  rw [List.getD_eq_getElem?_getD, List.getElem?_set, List.getD_eq_getElem?_getD]
  by_cases hj : i = j
  · subst hj; simp [h]
  · rw [if_neg hj, if_neg (Ne.symm hj)]

theorem fillLoop_ok {b c : List R} {n F : ℕ} (hb : n + F ≤ b.length) (hc : F ≤ c.length) :
    ∀ (k i : ℕ) (w : Wavelet R), i + k = F → BankFilled b c n F i w →
      ∃ w', fillLoop b c n F i k w = .ok w' ∧ BankFilled b c n F F w' := by
  intro k
  induction k with
  | zero => intro i w hi h; rw [show i = F by omega] at h; exact ⟨w, rfl, h⟩
  | succ k ih =>
    intro i w hi h
    unfold fillLoop
    have hw : ∀ (l : List R) (v : R), l.length = F → wr l i v = .ok (l.set i v) := by
      intro l v hl
      unfold wr
      rw [if_pos (by omega)]
    have hs : sub (F - 1) i = .ok (F - 1 - i) := by
      unfold sub
      rw [if_pos (by omega)]
    rw [rd_getD (by omega : i + n < b.length)]
    simp only [hs, C_bind_ok]
    rw [rd_getD (by omega : F - 1 - i < c.length)]
    simp only [C_bind_ok, hw _ _ h.l1, hw _ _ h.l2, hw _ _ h.l3, hw _ _ h.l4]
    apply ih (i + 1) _ (by omega)
    refine ⟨by simp [h.l1], by simp [h.l2], by simp [h.l3], by simp [h.l4], ?_, ?_, ?_, ?_⟩
    · intro j hj
      simp only
      rw [set_getD _ _ _ _ (by rw [h.l1]; omega)]
      split_ifs with e
      · rw [e]
      · exact h.v1 j (by omega)
    · intro j hj
      simp only
      rw [set_getD _ _ _ _ (by rw [h.l2]; omega)]
      split_ifs with e
      · rw [e]
      · exact h.v2 j (by omega)
    · intro j hj
      simp only
      rw [set_getD _ _ _ _ (by rw [h.l3]; omega), sgn_eq]
      split_ifs with e
      · rw [e]
      · exact h.v3 j (by omega)
    · intro j hj
      simp only
      rw [set_getD _ _ _ _ (by rw [h.l4]; omega), sgn_eq]
      split_ifs with e
      · rw [e]
      · exact h.v4 j (by omega)

theorem fillBank_ok {b c : List R} {n F : ℕ} (hF : 0 < F) (hev : F % 2 = 0) (hb : n + F ≤ b.length)
    (hc : c.length = F) :
    ∃ w, fillBank b c n F = .ok w ∧ FromPair w ((b.drop n).take F) c := by
  obtain ⟨w, hw, h⟩ := fillLoop_ok hb (by omega : F ≤ c.length) F 0
    ⟨List.replicate F 0, List.replicate F 0, List.replicate F 0, List.replicate F 0⟩ (by omega)
    ⟨by simp, by simp, by simp, by simp, by simp, by simp, by simp, by simp⟩
  refine ⟨w, hw, ?_⟩
  have hl : ((b.drop n).take F).length = F := by simp; omega
  have hg : ∀ j < F, ((b.drop n).take F).getD j 0 = b.getD (j + n) 0 := by
    intro j hj
    rw [List.getD_eq_getElem?_getD, List.getElem?_take, if_pos hj, List.getElem?_drop,
      List.getD_eq_getElem?_getD, Nat.add_comm]
  refine ⟨by omega, by omega, by omega, ?_, ?_, by rw [h.l3, hl], by rw [h.l4, hl], ?_, ?_⟩
  · apply List.ext_getElem (by rw [h.l1, hl])
    intro j h1 h2
    rw [← List.getD_eq_getElem _ 0, ← List.getD_eq_getElem _ 0, h.v1 j (by omega), hg j (by omega)]
  · apply List.ext_getElem (by rw [h.l2, List.length_reverse, hc])
    intro j h1 h2
    rw [h.l2] at h1
    rw [← List.getD_eq_getElem _ 0, h.v2 j (by omega), List.getElem_reverse, List.getD_eq_getElem _ _ (by omega)]
    congr 1
    omega
  · intro i hi
    rw [hl] at hi ⊢
    exact h.v3 i hi
  · intro i hi
    rw [hl] at hi ⊢
    rw [h.v4 i hi, hg i hi]

/-! ### The inverse bank -/

theorem parityCoeff_reverse (f g : List R) (hl : f.length = g.length) (p s : ℕ)
    (hs : s ≤ 2 * f.length - 2) (h0 : 0 < f.length) :
    parityCoeff f.reverse g.reverse p s =
      if p < 2 then parityCoeff g f ((f.length - 1 + s + p) % 2) (2 * f.length - 2 - s) else 0 := by
  rw [parityCoeff_tap', List.length_reverse]
  by_cases hp : p < 2
  · rw [if_pos hp, parityCoeff_tap, ← hl, ← sum_range_reflect]
    apply sum_congr rfl
    intro l hL
    simp only [mem_range] at hL
    have e1 : tap g.reverse ((f.length - 1 - l : ℕ) : ℤ) = g.getD l 0 := by
      rw [tap_reverse, ← tap_nat]
      congr 1
      omega
    rw [← tap_nat g.reverse, e1, tap_reverse]
    by_cases hq : ((s : ℤ) - ((f.length - 1 - l : ℕ) : ℤ)) % 2 = p
    · rw [if_pos hq, if_pos (by omega), mul_comm]
      congr 2
      omega
    · rw [if_neg hq, if_neg (by omega)]
  · rw [if_neg hp]
    apply sum_eq_zero
    intro l _
    rw [if_neg (by omega)]

theorem PR_inverse {w : Wavelet R} (hw : w.Ok) (h : PR w.dec_lo w.dec_hi w.rec_lo w.rec_hi) :
    PR w.rec_lo.reverse w.rec_hi.reverse w.dec_lo.reverse w.dec_hi.reverse := by
  obtain ⟨h1, h2, h3, h4, h5⟩ := hw
  intro p hp s
  rw [List.length_reverse]
  by_cases hs : s ≤ 2 * w.dec_lo.length - 2
  · rw [parityCoeff_reverse _ _ (by omega) p s (by omega) (by omega),
      parityCoeff_reverse _ _ (by omega) p s (by omega) (by omega), if_pos hp, if_pos hp, h3,
      h _ (by omega)]
    by_cases he : s + 1 = w.rec_lo.length
    · rw [if_pos he, if_pos (by omega)]
    · rw [if_neg he, if_neg (by omega)]
  · rw [parityCoeff_big (by simp; omega), parityCoeff_big (by simp; omega), if_neg (by omega), add_zero]

/-! ### The textbook form of perfect reconstruction -/

theorem prodCoeff_parity (f g : List R) (s : ℕ) :
    prodCoeff f g s = parityCoeff f g 0 s + parityCoeff f g 1 s := by
  unfold prodCoeff parityCoeff
  rw [← sum_add_distrib]
  apply sum_congr rfl
  intro t _
  rw [← sum_add_distrib]
  apply sum_congr rfl
  intro l _
  by_cases h : t + l = s
  · have : t % 2 = 0 ∨ t % 2 = 1 := by omega
    rcases this with ht | ht <;> simp [h, ht]
  · simp [h]

theorem aliasCoeff_parity (f g : List R) (s : ℕ) :
    aliasCoeff f g s = (-1) ^ s * (parityCoeff f g 0 s - parityCoeff f g 1 s) := by
  unfold aliasCoeff parityCoeff
  rw [← sum_sub_distrib, mul_sum]
  apply sum_congr rfl
  intro t _
  rw [← sum_sub_distrib, mul_sum]
  apply sum_congr rfl
  intro l _
  by_cases h : t + l = s
  · have : t % 2 = 0 ∨ t % 2 = 1 := by omega
    rcases this with ht | ht
    · have e : ((-1 : R)) ^ l = (-1) ^ s := neg_one_pow_congr (by rw [Nat.even_iff, Nat.even_iff]; omega)
      simp only [h, ht, and_true, if_true, e]
      simp
      ring
    · have e : ((-1 : R)) ^ l = -(-1) ^ s := by
        rw [← h, pow_add, Odd.neg_one_pow (Nat.odd_iff.2 ht)]; ring
      simp only [h, ht, and_true, if_true, e]
      simp
      ring
  · simp [h]

theorem PR_iff_textbook (h2 : ∀ a : R, 2 * a = 0 → a = 0) (dlo dhi rlo rhi : List R) :
    PR dlo dhi rlo rhi ↔ PRTextbook dlo dhi rlo rhi := by
  have sq : ∀ s : ℕ, ((-1 : R)) ^ s * (-1) ^ s = 1 := by
    intro s; rw [← pow_add]; exact Even.neg_one_pow (by simp)
  constructor
  · intro h
    refine ⟨fun s => ?_, fun s => ?_⟩
    · have a := h 0 (by omega) s
      have b := h 1 (by omega) s
      rw [prodCoeff_parity, prodCoeff_parity]
      have : parityCoeff rlo dlo 0 s + parityCoeff rlo dlo 1 s +
          (parityCoeff rhi dhi 0 s + parityCoeff rhi dhi 1 s) =
          (parityCoeff rlo dlo 0 s + parityCoeff rhi dhi 0 s) +
          (parityCoeff rlo dlo 1 s + parityCoeff rhi dhi 1 s) := by ring
      rw [this, a, b]
      split_ifs <;> norm_num
    · have a := h 0 (by omega) s
      have b := h 1 (by omega) s
      rw [aliasCoeff_parity, aliasCoeff_parity]
      have : (-1 : R) ^ s * (parityCoeff rlo dlo 0 s - parityCoeff rlo dlo 1 s) +
          (-1) ^ s * (parityCoeff rhi dhi 0 s - parityCoeff rhi dhi 1 s) =
          (-1) ^ s * ((parityCoeff rlo dlo 0 s + parityCoeff rhi dhi 0 s) -
          (parityCoeff rlo dlo 1 s + parityCoeff rhi dhi 1 s)) := by ring
      rw [this, a, b, sub_self, mul_zero]
  · rintro ⟨h, g⟩ p hp s
    have a := h s
    have b := g s
    rw [prodCoeff_parity, prodCoeff_parity] at a
    rw [aliasCoeff_parity, aliasCoeff_parity] at b
    have b' : (parityCoeff rlo dlo 0 s + parityCoeff rhi dhi 0 s) -
        (parityCoeff rlo dlo 1 s + parityCoeff rhi dhi 1 s) = 0 := by
      have : (-1 : R) ^ s * ((-1 : R) ^ s * ((parityCoeff rlo dlo 0 s + parityCoeff rhi dhi 0 s) -
        (parityCoeff rlo dlo 1 s + parityCoeff rhi dhi 1 s))) = 0 := by
        rw [show (-1 : R) ^ s * ((parityCoeff rlo dlo 0 s + parityCoeff rhi dhi 0 s) -
          (parityCoeff rlo dlo 1 s + parityCoeff rhi dhi 1 s)) =
          (-1 : R) ^ s * (parityCoeff rlo dlo 0 s - parityCoeff rlo dlo 1 s) +
          (-1) ^ s * (parityCoeff rhi dhi 0 s - parityCoeff rhi dhi 1 s) by ring, b, mul_zero]
      rw [← mul_assoc, sq, one_mul] at this
      exact this
    apply sub_eq_zero.1
    apply h2
    have hp' : p = 0 ∨ p = 1 := by omega
    rcases hp' with rfl | rfl
    · by_cases hs : s + 1 = dlo.length
      · rw [if_pos hs] at a ⊢
        linear_combination a + b'
      · rw [if_neg hs] at a ⊢
        linear_combination a + b'
    · by_cases hs : s + 1 = dlo.length
      · rw [if_pos hs] at a ⊢
        linear_combination a - b'
      · rw [if_neg hs] at a ⊢
        linear_combination a - b'

/-! ### Sums of correlations -/

theorem xcorr_double (b c : List R) (m : ℤ) :
    xcorr b c m = ∑ i ∈ range b.length, ∑ j ∈ range c.length,
      if (j : ℤ) - i = m then b.getD i 0 * c.getD j 0 else 0 := by
  unfold xcorr
  apply sum_congr rfl
  intro i _
  rw [tap_sum, mul_sum]
  apply sum_congr rfl
  intro j _
  by_cases h : (j : ℤ) - i = m
  · rw [if_pos h, if_pos (by omega)]
  · rw [if_neg h, if_neg (by omega), mul_zero]

/-- Sum of the taps of one parity. -/
theorem sum_xcorr_even (f : List R) :
    ∑ k ∈ Icc (-(f.length : ℤ)) f.length, xcorr f f (2 * k) =
      (∑ i ∈ range f.length, if i % 2 = 0 then f.getD i 0 else 0) ^ 2 +
      (∑ i ∈ range f.length, if i % 2 = 1 then f.getD i 0 else 0) ^ 2 := by
  simp only [xcorr_double]
  rw [sum_comm, sq, sq, sum_mul_sum, sum_mul_sum, ← sum_add_distrib]
  apply sum_congr rfl
  intro i hi
  rw [sum_comm, ← sum_add_distrib]
  apply sum_congr rfl
  intro j hj
  simp only [mem_range] at hi hj
  by_cases h : i % 2 = j % 2
  · rw [sum_eq_single (((j : ℤ) - i) / 2)]
    · rw [if_pos (by omega)]
      have : i % 2 = 0 ∨ i % 2 = 1 := by omega
      rcases this with h0 | h0
      · rw [if_pos h0, if_pos (by omega : j % 2 = 0), if_neg (by omega : ¬ i % 2 = 1), zero_mul, add_zero]
      · rw [if_pos h0, if_pos (by omega : j % 2 = 1), if_neg (by omega : ¬ i % 2 = 0), zero_mul, zero_add]
    · intro k _ hk
      rw [if_neg (by omega)]
    · intro hk
      simp only [mem_Icc] at hk
      omega
  · rw [sum_eq_zero fun k _ => if_neg (by omega)]
    have : i % 2 = 0 ∨ i % 2 = 1 := by omega
    rcases this with h0 | h0
    · rw [if_pos h0, if_neg (by omega : ¬ j % 2 = 0), if_neg (by omega : ¬ i % 2 = 1)]; ring
    · rw [if_pos h0, if_neg (by omega : ¬ j % 2 = 1), if_neg (by omega : ¬ i % 2 = 0)]; ring

theorem sum_parity (f : List R) :
    f.sum = (∑ i ∈ range f.length, if i % 2 = 0 then f.getD i 0 else 0) +
      ∑ i ∈ range f.length, if i % 2 = 1 then f.getD i 0 else 0 := by
  rw [← sum_add_distrib]
  have : f.sum = ∑ i ∈ range f.length, f.getD i 0 := by
    induction f with
    | nil => rfl
    | cons a f ih =>
      rw [List.sum_cons, List.length_cons, sum_range_succ', ih, add_comm]
      rfl
  rw [this]
  apply sum_congr rfl
  intro i _
  have : i % 2 = 0 ∨ i % 2 = 1 := by omega
  rcases this with h0 | h0
  · rw [if_pos h0, if_neg (by omega), add_zero]
  · rw [if_neg (by omega), if_pos h0, zero_add]

theorem getD_map_mul_left (f : List R) (a : R) (i : ℕ) : (f.map (a * ·)).getD i 0 = a * f.getD i 0 := by
  rw [List.getD_eq_getElem?_getD, List.getElem?_map, List.getD_eq_getElem?_getD]
  cases f[i]? <;> simp

theorem tap_map_mul (f : List R) (a : R) (i : ℤ) : tap (f.map (a * ·)) i = a * tap f i := by
  unfold tap
  rw [List.length_map]
  by_cases h : 0 ≤ i ∧ i < f.length
  · rw [if_pos h, if_pos h, getD_map_mul_left]
  · rw [if_neg h, if_neg h, mul_zero]

theorem xcorr_map_mul (f g : List R) (a b : R) (m : ℤ) :
    xcorr (f.map (a * ·)) (g.map (b * ·)) m = a * b * xcorr f g m := by
  unfold xcorr
  rw [List.length_map, mul_sum]
  apply sum_congr rfl
  intro j _
  rw [getD_map_mul_left, tap_map_mul]
  ring

end comm

end Pywt
