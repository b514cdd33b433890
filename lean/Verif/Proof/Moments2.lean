import Verif.Proof.Moments
import Verif.Proof.SwtTop

/-!
# Constant and linear signals, and polynomial signals in the stationary transform
-/

set_option linter.unusedSectionVars false

namespace Pywt
open Spec Finset

section Const
variable {R M : Type} [Ring R] [AddCommGroup M] [Module R M]

theorem sum_taps (f : List R) : ∑ j ∈ range f.length, f.getD j 0 = f.sum := by
  induction f with
  | nil => simp
  | cons a f ih =>
    rw [List.length_cons, sum_range_succ', List.sum_cons, ← ih, List.getD_cons_zero, add_comm]
    rfl

/-- The modes in which a constant signal is extended by the same constant. -/
theorem ext_replicate {mode : Mode} (h1 : mode ≠ .zero) (h2 : mode ≠ .antisymmetric) {N : ℕ}
    (hN : LenOk mode N) (c : M) (p : ℤ) : Spec.ext mode (List.replicate N c) p = c := by
  have hN1 : 1 ≤ N := hN.1
  have hat : ∀ q : ℤ, 0 ≤ q → q < N → at' (List.replicate N c) q = c := by
    intro q h0 hq
    unfold at'
    rw [List.getD_eq_getElem (hn := by simp; omega)]
    simp
  have hpos : (0 : ℤ) < N := by omega
  have hr0 := Int.emod_nonneg p (show (2 * (N : ℤ)) ≠ 0 by omega)
  have hr1 := Int.emod_lt_of_pos p (show (0 : ℤ) < 2 * (N : ℤ) by omega)
  cases mode
  case zero => exact absurd rfl h1
  case antisymmetric => exact absurd rfl h2
  case symmetric =>
    simp only [Spec.ext, List.length_replicate]
    split_ifs
    · exact hat _ (by omega) (by omega)
    · exact hat _ (by omega) (by omega)
  case constant =>
    simp only [Spec.ext, List.length_replicate]
    split_ifs <;> exact hat _ (by omega) (by omega)
  case smooth =>
    simp only [Spec.ext, List.length_replicate]
    split_ifs
    · exact hat _ (by omega) (by omega)
    · rw [hat 0 (by omega) (by omega), hat 1 (by omega) (by omega)]; simp
    · exact hat _ (by omega) (by omega)
    · rw [hat _ (by omega) (by omega), hat _ (by omega) (by omega)]; simp
  case periodic =>
    simp only [Spec.ext, List.length_replicate]
    exact hat _ (Int.emod_nonneg p (by omega)) (Int.emod_lt_of_pos p hpos)
  case periodization =>
    obtain ⟨L, hL, hL2⟩ : ∃ L, 1 ≤ L ∧ evenPad (List.replicate N c) = List.replicate L c := by
      unfold evenPad
      rw [List.length_replicate]
      split_ifs
      · refine ⟨N + 1, by omega, ?_⟩
        rw [hat _ (by omega) (by omega), List.replicate_succ']
      · exact ⟨N, by omega, rfl⟩
    simp only [Spec.ext, hL2, List.length_replicate]
    unfold at'
    have h3 := Int.emod_nonneg p (show (L : ℤ) ≠ 0 by omega)
    have h4 := Int.emod_lt_of_pos p (show (0 : ℤ) < L by omega)
    rw [List.getD_eq_getElem (hn := by simp; omega)]
    simp
  case reflect =>
    have hN2 : 2 ≤ N := by
      by_contra h
      have := hN.2
      simp at this
      omega
    have h3 := Int.emod_nonneg p (show (2 * ((N : ℤ) - 1)) ≠ 0 by omega)
    have h4 := Int.emod_lt_of_pos p (show (0 : ℤ) < 2 * ((N : ℤ) - 1) by omega)
    simp only [Spec.ext, List.length_replicate]
    split_ifs
    · exact hat _ (by omega) (by omega)
    · exact hat _ (by omega) (by omega)
  case antireflect =>
    have hN2 : 2 ≤ N := by
      by_contra h
      have := hN.2
      simp at this
      omega
    have h3 := Int.emod_nonneg p (show (2 * ((N : ℤ) - 1)) ≠ 0 by omega)
    have h4 := Int.emod_lt_of_pos p (show (0 : ℤ) < 2 * ((N : ℤ) - 1) by omega)
    simp only [Spec.ext, List.length_replicate]
    rw [hat ((N : ℤ) - 1) (by omega) (by omega), hat 0 (by omega) (by omega)]
    split_ifs
    · rw [hat _ (by omega) (by omega)]; simp
    · rw [hat _ (by omega) (by omega), two_smul]; simp

theorem analysis_replicate {mode : Mode} (h1 : mode ≠ .zero) (h2 : mode ≠ .antisymmetric) {N : ℕ}
    (hN : LenOk mode N) (f : List R) (c : M) :
    analysis mode f (List.replicate N c) = List.replicate (coeffLen mode N f.length) (f.sum • c) := by
  have hs : ∀ q, conv f (Spec.ext mode (List.replicate N c)) q = f.sum • c := by
    intro q
    unfold conv
    simp only [ext_replicate h1 h2 hN]
    rw [← Finset.sum_smul]
    rw [sum_taps]
  apply List.ext_getElem
  · rw [analysis_length]; simp
  · intro k hk hk'
    have := analysis_getD (mode := mode) (f := f) (x := List.replicate N c) (k := k)
      (by rw [analysis_length] at hk; exact hk)
    rw [List.getD_eq_getElem (hn := hk), hs] at this
    rw [this]; simp

theorem approx_replicate {mode : Mode} (h1 : mode ≠ .zero) (h2 : mode ≠ .antisymmetric) {N : ℕ}
    (f : List R) (c : M) (j : ℕ) (hN : LevelsOk mode f.length N j) :
    approx mode f j (List.replicate N c) = List.replicate (approxLen mode f.length N j) (f.sum ^ j • c) := by
  induction j with
  | zero => simp [approx, approxLen]
  | succ j ih =>
    have e1 : approx mode f (j + 1) (List.replicate N c) =
        analysis mode f (approx mode f j (List.replicate N c)) := by
      unfold approx; rw [Function.iterate_succ_apply']
    rw [e1, ih fun i hi => hN i (by omega), analysis_replicate h1 h2 (hN j (by omega)), smul_smul, pow_succ']
    congr 1
    unfold approxLen
    rw [Function.iterate_succ_apply']

end Const

section Linear
variable {R M : Type} [CommRing R] [AddCommGroup M] [Module R M]

/-- The samples of a straight line. -/
def line (N : ℕ) (c0 c1 : M) : List M := (List.range N).map fun n : ℕ => c0 + n • c1

theorem ext_line {mode : Mode} (hm : mode = .smooth ∨ mode = .antireflect) {N : ℕ} (hN : 2 ≤ N)
    (c0 c1 : M) (p : ℤ) : Spec.ext mode (line N c0 c1) p = c0 + p • c1 := by
  have hat : ∀ q : ℤ, 0 ≤ q → q < N → at' (line N c0 c1) q = c0 + q • c1 := by
    intro q h0 hq
    obtain ⟨n, rfl⟩ := Int.eq_ofNat_of_zero_le h0
    unfold at' line
    rw [List.getD_eq_getElem (hn := by simp; omega)]
    simp
  have hl : (line N c0 c1).length = N := by simp [line]
  rcases hm with rfl | rfl
  · simp only [Spec.ext, hl]
    rw [if_neg (by omega)]
    split_ifs
    · rw [hat 0 (by omega) (by omega), hat 1 (by omega) (by omega)]
      module
    · exact hat _ (by omega) (by omega)
    · rw [hat _ (by omega) (by omega), hat ((N : ℤ) - 2) (by omega) (by omega)]
      module
  · have h3 := Int.emod_nonneg p (show (2 * ((N : ℤ) - 1)) ≠ 0 by omega)
    have h4 := Int.emod_lt_of_pos p (show (0 : ℤ) < 2 * ((N : ℤ) - 1) by omega)
    have h5 := Int.emod_add_mul_ediv p (2 * ((N : ℤ) - 1))
    simp only [Spec.ext, hl]
    rw [hat ((N : ℤ) - 1) (by omega) (by omega), hat 0 (by omega) (by omega)]
    set r := p % (2 * ((N : ℤ) - 1))
    set q := p / (2 * ((N : ℤ) - 1))
    split_ifs
    · rw [hat _ (by omega) (by omega), ← h5]
      module
    · rw [hat _ (by omega) (by omega), ← h5]
      module

/-- A straight line stays one, in these modes, under any filter. -/
theorem analysis_line {mode : Mode} (hm : mode = .smooth ∨ mode = .antireflect) {N : ℕ}
    (hN : LenOk mode N) (f : List R) (c0 c1 : M) :
    (∃ d0 d1 : M, analysis mode f (line N c0 c1) = line (coeffLen mode N f.length) d0 d1) ∧
    (Vanishing 2 f → analysis mode f (line N c0 c1) = List.replicate (coeffLen mode N f.length) 0) := by
  have hl : (line N c0 c1).length = N := by simp [line]
  have hne : mode ≠ .periodization := by rcases hm with rfl | rfl <;> simp
  obtain ⟨e, he, hext⟩ : ∃ e : ℤ → M, (∃ b0 b1 : M, ∀ p, e p = b0 + p • b1) ∧
      ∀ p, Spec.ext mode (line N c0 c1) p = e p := by
    by_cases h2 : 2 ≤ N
    · exact ⟨fun p => c0 + p • c1, ⟨c0, c1, fun _ => rfl⟩, ext_line hm h2 c0 c1⟩
    · have h1 : N = 1 := by have := hN.1; omega
      rcases hm with rfl | rfl
      · refine ⟨fun _ => c0, ⟨c0, 0, by simp⟩, fun p => ?_⟩
        simp only [Spec.ext, hl]
        rw [if_pos (by omega), h1]
        simp [line, at']
      · have := hN.2
        simp at this
        omega
  have hfun : Spec.ext mode (line N c0 c1) = e := funext hext
  obtain ⟨b0, b1, hb⟩ := he
  constructor
  · refine ⟨∑ j ∈ range f.length, f.getD j 0 • (b0 + (1 - (j : ℤ)) • b1), (2 : ℤ) • f.sum • b1, ?_⟩
    apply List.ext_getElem
    · rw [analysis_length, hl]; simp [line]
    · intro k hk hk'
      have := analysis_getD (mode := mode) (f := f) (x := line N c0 c1) (k := k)
        (by rw [analysis_length] at hk; exact hk)
      rw [List.getD_eq_getElem (hn := hk), hfun] at this
      rw [this]
      simp only [conv, hb, line, List.getElem_map, List.getElem_range, lastIdx, if_neg hne]
      have hs : f.sum • b1 = ∑ j ∈ range f.length, f.getD j 0 • b1 := by
        rw [← Finset.sum_smul, sum_taps]
      rw [hs, Finset.smul_sum, Finset.smul_sum, ← sum_add_distrib]
      refine sum_congr rfl fun j _ => ?_
      push_cast
      module
  · intro hf
    have hp : IsPoly R 2 e := by
      refine ⟨fun i => if i = 0 then b0 else b1, fun n => ?_⟩
      rw [hb, sum_range_succ, sum_range_one]
      simp [Int.cast_smul_eq_zsmul]
    apply List.ext_getElem
    · rw [analysis_length, hl]; simp
    · intro k hk hk'
      have := analysis_getD (mode := mode) (f := f) (x := line N c0 c1) (k := k)
        (by rw [analysis_length] at hk; exact hk)
      rw [List.getD_eq_getElem (hn := hk), hfun, conv_vanish hp hf] at this
      rw [this]; simp

theorem approx_line {mode : Mode} (hm : mode = .smooth ∨ mode = .antireflect) {N : ℕ}
    (f : List R) (c0 c1 : M) (j : ℕ) (hN : LevelsOk mode f.length N j) :
    ∃ d0 d1 : M, approx mode f j (line N c0 c1) = line (approxLen mode f.length N j) d0 d1 := by
  induction j with
  | zero => exact ⟨c0, c1, by simp [approx, approxLen]⟩
  | succ j ih =>
    have e1 : approx mode f (j + 1) (line N c0 c1) = analysis mode f (approx mode f j (line N c0 c1)) := by
      unfold approx; rw [Function.iterate_succ_apply']
    obtain ⟨d0, d1, hd⟩ := ih fun i hi => hN i (by omega)
    rw [e1, hd]
    have e2 : approxLen mode f.length N (j + 1) = coeffLen mode (approxLen mode f.length N j) f.length := by
      unfold approxLen; rw [Function.iterate_succ_apply']
    rw [e2]
    exact (analysis_line hm (hN j (by omega)) f d0 d1).1

end Linear

/-! ### The stationary transform -/

section Swt
variable {R M : Type} [CommRing R] [AddCommGroup M] [Module R M]

theorem atrous_getD {f : List R} {s : ℕ} {x : List M} {n : ℕ} (h1 : s * (f.length - 1 - f.length / 2) ≤ n)
    (h2 : n + s * (f.length / 2) < x.length) :
    (atrous f s x).getD n 0 = ∑ l ∈ range f.length,
      f.getD l 0 • x.getD ((n : ℤ) + s * ((f.length / 2 : ℕ) - l)).toNat 0 := by
  rw [atrous, List.getD_eq_getElem (hn := by simp; nlinarith [Nat.zero_le (s * (f.length / 2))])]
  simp only [List.getElem_map, List.getElem_range, at']
  refine sum_congr rfl fun l hl => ?_
  rw [mem_range] at hl
  congr 2
  rw [Int.emod_eq_of_lt]
  · have : (s : ℤ) * ((f.length - 1 - f.length / 2 : ℕ) : ℤ) ≤ n := by exact_mod_cast h1
    have g : -(((f.length - 1 - f.length / 2 : ℕ) : ℤ)) ≤ ((f.length / 2 : ℕ) : ℤ) - l := by omega
    nlinarith [mul_le_mul_of_nonneg_left g (show (0 : ℤ) ≤ s by omega)]
  · have : (n : ℤ) + s * ((f.length / 2 : ℕ) : ℤ) < x.length := by exact_mod_cast h2
    nlinarith [mul_nonneg (show (0 : ℤ) ≤ s by omega) (show (0 : ℤ) ≤ l by omega)]

theorem swt_interior_step {F m N j n : ℕ} (h : SwtInterior F m N (j + 1) n) :
    2 ^ (m + j) * (F - 1 - F / 2) ≤ n ∧ n + 2 ^ (m + j) * (F / 2) < N ∧
    ∀ l < F, ∃ n' : ℕ, ((n : ℤ) + (2 ^ (m + j) : ℕ) * ((F / 2 : ℕ) - l)).toNat = n' ∧
      (n' : ℤ) = (n : ℤ) + (2 ^ (m + j) : ℕ) * ((F / 2 : ℕ) - l) ∧ SwtInterior F m N j n' := by
  obtain ⟨h1, h2⟩ := h
  have hp : 1 ≤ 2 ^ j := Nat.one_le_two_pow
  have hs : 2 ^ m * (2 ^ (j + 1) - 1) = 2 ^ m * (2 ^ j - 1) + 2 ^ (m + j) := by
    rw [pow_succ, pow_add, show 2 ^ j * 2 - 1 = (2 ^ j - 1) + 2 ^ j by omega]; ring
  rw [hs, add_mul] at h1 h2
  refine ⟨by omega, by omega, fun l hl => ?_⟩
  have a1 : ((2 ^ (m + j) : ℕ) : ℤ) * ((F - 1 - F / 2 : ℕ) : ℤ) + ((2 ^ m * (2 ^ j - 1) * (F - 1 - F / 2) : ℕ) : ℤ) ≤ n := by
    have : 2 ^ (m + j) * (F - 1 - F / 2) + 2 ^ m * (2 ^ j - 1) * (F - 1 - F / 2) ≤ n := by omega
    exact_mod_cast this
  have a2 : (n : ℤ) + ((2 ^ (m + j) : ℕ) : ℤ) * ((F / 2 : ℕ) : ℤ) + ((2 ^ m * (2 ^ j - 1) * (F / 2) : ℕ) : ℤ) < N := by
    have : n + 2 ^ (m + j) * (F / 2) + 2 ^ m * (2 ^ j - 1) * (F / 2) < N := by omega
    exact_mod_cast this
  have g : -(((F - 1 - F / 2 : ℕ) : ℤ)) ≤ ((F / 2 : ℕ) : ℤ) - l := by omega
  have g1 := mul_le_mul_of_nonneg_left g (show (0 : ℤ) ≤ ((2 ^ (m + j) : ℕ) : ℤ) by positivity)
  have g2 := mul_nonneg (show (0 : ℤ) ≤ ((2 ^ (m + j) : ℕ) : ℤ) by positivity) (show (0 : ℤ) ≤ l by omega)
  have g0 : (0 : ℤ) ≤ ((2 ^ m * (2 ^ j - 1) * (F - 1 - F / 2) : ℕ) : ℤ) := by positivity
  have nn : 0 ≤ (n : ℤ) + (2 ^ (m + j) : ℕ) * ((F / 2 : ℕ) - l) := by nlinarith
  have hc := Int.toNat_of_nonneg nn
  refine ⟨_, rfl, hc, ?_, ?_⟩
  · have : ((2 ^ m * (2 ^ j - 1) * (F - 1 - F / 2) : ℕ) : ℤ) ≤ ((n : ℤ) + (2 ^ (m + j) : ℕ) * ((F / 2 : ℕ) - l)).toNat := by
      rw [hc]; nlinarith
    exact_mod_cast this
  · have : ((((n : ℤ) + (2 ^ (m + j) : ℕ) * ((F / 2 : ℕ) - l)).toNat : ℕ) : ℤ) + ((2 ^ m * (2 ^ j - 1) * (F / 2) : ℕ) : ℤ) < N := by
      rw [hc]; nlinarith
    exact_mod_cast this

/-- Interior approximations of a polynomial signal are samples of a polynomial. -/
theorem swtApprox_poly {p : ℕ} {lo : List R} {x : List M} {e : ℤ → M} (he : IsPoly R p e)
    (hx : ∀ n < x.length, x.getD n 0 = e n) (m j : ℕ) :
    ∃ e' : ℤ → M, IsPoly R p e' ∧ ∀ n, SwtInterior lo.length m x.length j n →
      (swtApprox lo m x j).getD n 0 = e' n := by
  induction j with
  | zero => exact ⟨e, he, fun n hn => hx n (by simpa [SwtInterior] using hn.2)⟩
  | succ j ih =>
    obtain ⟨e', he', hj⟩ := ih
    refine ⟨_, he'.filter lo 1 ((2 ^ (m + j) : ℕ) * (lo.length / 2 : ℕ)) (2 ^ (m + j) : ℕ), fun n hn => ?_⟩
    obtain ⟨h1, h2, h3⟩ := swt_interior_step hn
    rw [swtApprox, atrous_getD h1 (by simpa using h2)]
    refine sum_congr rfl fun l hl => ?_
    obtain ⟨n', g1, g2, g3⟩ := h3 l (mem_range.mp hl)
    rw [g1, hj n' g3, g2]
    congr 2
    ring

theorem swtDetail_poly {p : ℕ} {lo hi : List R} (hh : hi.length = lo.length) {x : List M} {e : ℤ → M}
    (he : IsPoly R p e) (hv : Vanishing p hi)
    (hx : ∀ n < x.length, x.getD n 0 = e n) {m j n : ℕ} (hn : SwtInterior lo.length m x.length (j + 1) n) :
    (swtDetail lo hi m x j).getD n 0 = 0 := by
  obtain ⟨e', he', hj⟩ := swtApprox_poly (lo := lo) he hx m j
  obtain ⟨h1, h2, h3⟩ := swt_interior_step hn
  rw [swtDetail, atrous_getD (by rw [hh]; exact h1) (by rw [hh]; simpa using h2)]
  refine Eq.trans ?_ (he'.vanish hv ((n : ℤ) + (2 ^ (m + j) : ℕ) * (lo.length / 2 : ℕ)) (2 ^ (m + j) : ℕ))
  refine sum_congr rfl fun l hl => ?_
  obtain ⟨n', g1, g2, g3⟩ := h3 l (by rw [← hh]; exact mem_range.mp hl)
  rw [hh, g1, hj n' g3, g2]
  congr 2
  ring

end Swt

end Pywt
