import Verif.Model.Cwt
import Verif.Spec.Cwt
import Verif.Proof.Bank
import Verif.Proof.Objects
import Verif.Proof.AxisMulti
import Mathlib.RingTheory.RootsOfUnity.PrimitiveRoots

/-! The continuous wavelet transform. -/

namespace Pywt

open Finset Spec

set_option linter.unusedSectionVars false

variable {K E M : Type}

theorem list_sum_range' [AddCommMonoid M] (f : ℕ → M) (n : ℕ) :
    ((List.range n).map f).sum = ∑ i ∈ range n, f i := by
  induction n with
  | zero => simp
  | succ n ih => rw [List.range_succ, List.map_append, List.sum_append, ih, sum_range_succ]; simp

section conv
variable [Ring E] [AddCommGroup M] [Module E M]

/-- Linear convolution at position `k`. -/
def lconv (a : List M) (v : List E) (k : ℤ) : M := ∑ m ∈ range a.length, tap v (k - m) • a.getD m 0

theorem npConvolve_ok {a : List M} {v : List E} (ha : 1 ≤ a.length) (hv : 1 ≤ v.length) :
    npConvolve a v = .ok ((List.range (a.length + v.length - 1)).map fun k : ℕ => lconv a v k) := by
  unfold npConvolve
  rw [if_neg (by omega)]
  congr 1
  apply List.map_congr_left
  intro k hk
  rw [list_sum_range']
  unfold lconv
  have e1 : ∀ i ∈ range v.length, (if i ≤ k ∧ k - i < a.length then v.getD i 0 • a.getD (k - i) 0 else 0) =
      ∑ m ∈ range a.length, if i + m = k then v.getD i 0 • a.getD m 0 else 0 := by
    intro i _
    by_cases h : i ≤ k ∧ k - i < a.length
    · rw [if_pos h, sum_eq_single (k - i)]
      · rw [if_pos (by omega)]
      · intro m _ hm; rw [if_neg (by omega)]
      · intro hm; simp only [mem_range] at hm; omega
    · rw [if_neg h]
      symm
      apply sum_eq_zero
      intro m hm
      simp only [mem_range] at hm
      rw [if_neg (by omega)]
  rw [sum_congr rfl e1, sum_comm]
  apply sum_congr rfl
  intro m _
  by_cases h : m ≤ k ∧ k - m < v.length
  · rw [sum_eq_single (k - m)]
    · rw [if_pos (by omega), show ((k : ℤ) - m) = ((k - m : ℕ) : ℤ) by omega, tap_nat]
    · intro i _ hi; rw [if_neg (by omega)]
    · intro hi; simp only [mem_range] at hi; omega
  · rw [tap_out (by omega), zero_smul]
    apply sum_eq_zero
    intro i hi
    simp only [mem_range] at hi
    rw [if_neg (by omega)]

theorem npDiff_map (f : ℕ → M) (n : ℕ) :
    npDiff ((List.range n).map f) = (List.range (n - 1)).map fun k => f (k + 1) - f k := by
  unfold npDiff
  apply List.ext_getElem
  · simp
  · intro i h1 h2
    simp

theorem cwtCoeff_conv (rt : E) (x : List M) {g : List E} (hg : 2 ≤ g.length) (n : ℕ) :
    (-rt) • (lconv x g.reverse ((n + (g.length - 2) / 2 + 1 : ℕ) : ℤ) -
      lconv x g.reverse ((n + (g.length - 2) / 2 : ℕ) : ℤ)) = cwtCoeff rt g x n := by
  unfold lconv cwtCoeff
  rw [← sum_sub_distrib, neg_smul, ← smul_neg, ← sum_neg_distrib]
  congr 1
  apply sum_congr rfl
  intro m _
  rw [tap_reverse, tap_reverse, ← sub_smul, ← neg_smul, neg_sub]
  congr 3
  · omega
  · omega

/-- The convolutions of all rows. -/
def convRows (rows : List (List M)) (v : List E) (n : ℕ) : List (List M) :=
  rows.map fun r => (List.range (n + v.length - 1)).map fun k : ℕ => lconv r v k

theorem cwtCrop_ok {rt : E} {rows : List (List M)} {g : List E} {n : ℕ} (hg : 2 ≤ g.length) :
    cwtCrop rt n (n + g.length - 1) (convRows rows g.reverse n) =
      .ok (rows.map fun x => (List.range n).map fun i : ℕ => cwtCoeff rt g x i) := by
  unfold cwtCrop convRows
  simp only [List.map_map, List.length_reverse]
  by_cases h : n < n + g.length - 1 - 1
  · rw [if_pos h]
    congr 1
    apply List.map_congr_left
    intro x _
    simp only [Function.comp_apply, npDiff_map, List.map_map]
    apply List.ext_getElem
    · simp; omega
    · intro i h1 h2
      simp only [List.length_map, List.length_range] at h2
      simp only [List.getElem_drop, List.getElem_take, List.getElem_map, List.getElem_range,
        Function.comp_apply]
      rw [← cwtCoeff_conv rt x hg i]
      congr 3 <;> · congr 1; omega
  · rw [if_neg h, if_neg (by omega)]
    congr 1
    apply List.map_congr_left
    intro x _
    simp only [Function.comp_apply, npDiff_map, List.map_map]
    apply List.ext_getElem
    · simp; omega
    · intro i h1 h2
      simp only [List.getElem_map, List.getElem_range, Function.comp_apply]
      rw [← cwtCoeff_conv rt x hg i]
      congr 3 <;> · congr 1; omega

theorem cwtCrop_err {rt : E} {rows : List (List M)} {n len : ℕ} (hg : len ≤ n) (hn : 1 ≤ n) :
    cwtCrop rt n len rows = .error .value := by
  unfold cwtCrop
  simp only
  rw [if_neg (by omega), if_pos (by omega)]

end conv

/-! ### The Fourier method -/

section fft
variable [Field E] [AddCommGroup M] [Module E M]

theorem geom_root {ω : E} {n : ℕ} (hω : IsPrimitiveRoot ω n) {a b : ℕ} (ha : a < n) (hb : b < n) :
    ∑ q ∈ range n, (ω ^ a * ω⁻¹ ^ b) ^ q = if a = b then (n : E) else 0 := by
  have h0 : ω ≠ 0 := hω.ne_zero (by omega)
  split_ifs with h
  · subst h
    have : ω ^ a * ω⁻¹ ^ a = 1 := by rw [← mul_pow, mul_inv_cancel₀ h0, one_pow]
    simp only [this, one_pow, sum_const, card_range, nsmul_eq_mul, mul_one]
  · have hne : ω ^ a * ω⁻¹ ^ b ≠ 1 := by
      intro he
      apply h
      apply hω.pow_inj ha hb
      rw [inv_pow, mul_inv_eq_one₀ (pow_ne_zero _ h0)] at he
      exact he
    have hn : (ω ^ a * ω⁻¹ ^ b) ^ n = 1 := by
      rw [mul_pow, ← pow_mul, ← pow_mul, mul_comm a, mul_comm b, pow_mul, pow_mul, inv_pow, hω.pow_eq_one]
      simp
    have := geom_sum_mul (ω ^ a * ω⁻¹ ^ b) n
    rw [hn, sub_self] at this
    exact (mul_eq_zero.mp this).resolve_right (sub_ne_zero.mpr hne)

theorem fft_length (ω : E) (l : List M) (n : ℕ) : (fft ω l n).length = n := by simp [fft]

theorem fft_getD (ω : E) (l : List M) {n k : ℕ} (h : k < n) :
    (fft ω l n).getD k 0 = ∑ i ∈ range n, ω ^ (k * i) • l.getD i 0 := by
  unfold fft
  rw [List.getD_eq_getElem _ _ (by simpa using h)]
  simp [list_sum_range']

theorem lconv_pairs {x : List M} {v : List E} {n : ℕ} (hx : x.length ≤ n) (hv : v.length ≤ n) (k : ℕ) :
    lconv x v k = ∑ i ∈ range n, ∑ j ∈ range n, if i + j = k then v.getD i 0 • x.getD j 0 else 0 := by
  have e1 : lconv x v k = ∑ j ∈ range n, tap v ((k : ℤ) - j) • x.getD j 0 := by
    unfold lconv
    apply sum_subset (by simpa using hx)
    intro j _ hj
    simp only [mem_range] at hj
    rw [List.getD_eq_default _ _ (by omega), smul_zero]
  rw [e1, sum_comm]
  apply sum_congr rfl
  intro j _
  by_cases h : j ≤ k ∧ k - j < v.length
  · rw [sum_eq_single (k - j)]
    · rw [if_pos (by omega), show ((k : ℤ) - j) = ((k - j : ℕ) : ℤ) by omega, tap_nat]
    · intro i _ hi; rw [if_neg (by omega)]
    · intro hi; simp only [mem_range] at hi; omega
  · rw [tap_out (by omega), zero_smul]
    symm
    apply sum_eq_zero
    intro i _
    by_cases hi : i + j = k
    · rw [if_pos hi, List.getD_eq_default _ _ (by omega), zero_smul]
    · rw [if_neg hi]

theorem fft_conv {ω : E} {n : ℕ} (hω : IsPrimitiveRoot ω n) (hn : (n : E) ≠ 0) {x : List M} {v : List E}
    (hx : 1 ≤ x.length) (hv : 1 ≤ v.length) (hN : x.length + v.length - 1 ≤ n) {k : ℕ} (hk : k < n) :
    (ifft ω (List.zipWith (fun a b => a • b) (fft ω v n) (fft ω x n))).getD k 0 = lconv x v k := by
  have hlen : (List.zipWith (fun (a : E) (b : M) => a • b) (fft ω v n) (fft ω x n)).length = n := by
    simp [fft_length]
  unfold ifft
  rw [hlen]
  have hmap : ∀ (l : List M), (l.map fun v => (n : E)⁻¹ • v).getD k 0 = (n : E)⁻¹ • l.getD k 0 := by
    intro l
    have h0 : (0 : M) = (n : E)⁻¹ • (0 : M) := by rw [smul_zero]
    conv_lhs => rw [h0]
    exact List.getD_map (f := fun v : M => (n : E)⁻¹ • v) (d := (0 : M)) l
  rw [hmap, fft_getD _ _ hk]
  have h1 : ∀ q ∈ range n, ω⁻¹ ^ (k * q) •
      (List.zipWith (fun (a : E) (b : M) => a • b) (fft ω v n) (fft ω x n)).getD q 0 =
      ∑ i ∈ range n, ∑ j ∈ range n, if i < v.length ∧ j < x.length then
        ((ω ^ (i + j) * ω⁻¹ ^ k) ^ q * v.getD i 0) • x.getD j 0 else 0 := by
    intro q hq
    simp only [mem_range] at hq
    rw [List.getD_eq_getElem _ _ (by rw [hlen]; exact hq), List.getElem_zipWith,
      ← List.getD_eq_getElem _ 0, ← List.getD_eq_getElem _ 0, fft_getD _ _ hq, fft_getD _ _ hq, sum_smul, smul_sum]
    apply sum_congr rfl
    intro i _
    rw [smul_sum, smul_sum]
    apply sum_congr rfl
    intro j _
    by_cases h : i < v.length ∧ j < x.length
    · rw [if_pos h, smul_smul, smul_smul, smul_eq_mul]
      congr 1
      rw [mul_pow, ← pow_mul, ← pow_mul, mul_comm (i + j) q, mul_add, pow_add]
      ring
    · rw [if_neg h]
      by_cases hi : i < v.length
      · rw [List.getD_eq_default x _ (by omega)]; simp
      · rw [List.getD_eq_default v _ (by omega)]; simp
  rw [sum_congr rfl h1, sum_comm, smul_sum, lconv_pairs (n := n) (by omega) (by omega)]
  apply sum_congr rfl
  intro i _
  rw [sum_comm, smul_sum]
  apply sum_congr rfl
  intro j _
  by_cases h : i < v.length ∧ j < x.length
  · simp only [if_pos h]
    have hij : i + j < n := by have := h.1; have := h.2; omega
    rw [← sum_smul, ← sum_mul, geom_root hω hij hk]
    split_ifs with hik
    · rw [smul_smul, ← mul_assoc, inv_mul_cancel₀ hn, one_mul]
    · simp
  · simp only [if_neg h, sum_const_zero, smul_zero]
    split_ifs
    · by_cases hi : i < v.length
      · rw [List.getD_eq_default x _ (by omega)]; simp
      · rw [List.getD_eq_default v _ (by omega)]; simp
    · rfl

/-- What is kept between scales is what would be computed again. -/
def CacheOk (method : CwtMethod E) (rows : List (List M)) (cache : Option (ℕ × List (List M))) : Prop :=
  match method with
  | .fft root => ∀ size old, cache = some (size, old) → old = rows.map fun r => fft (root size) r size
  | _ => True

theorem cwtConv_ok {method : CwtMethod E} (hm : MethodOk method) {rows : List (List M)} {n : ℕ}
    (hr : ∀ r ∈ rows, r.length = n) (hn1 : 1 ≤ n) {v : List E} (hv : 1 ≤ v.length)
    {cache : Option (ℕ × List (List M))} (hc : CacheOk method rows cache) :
    ∃ cache', cwtConv method rows n cache v = .ok (convRows rows v n, cache') ∧ CacheOk method rows cache' := by
  cases method with
  | conv =>
    refine ⟨cache, ?_, trivial⟩
    unfold cwtConv convRows
    simp only
    rw [mapM_py_ok (r := rows.map fun r => (List.range (n + v.length - 1)).map fun k : ℕ => lconv r v k)]
    · rfl
    · rw [List.forall₂_map_right_iff, List.forall₂_same]
      intro r hmem
      rw [npConvolve_ok (by rw [hr r hmem]; exact hn1) hv, hr r hmem]
  | other => exact hm.elim
  | fft root =>
    obtain ⟨hω, hne⟩ := hm (Nat.clog 2 (n + v.length - 1))
    have hle : n + v.length - 1 ≤ nextFastLen (n + v.length - 1) :=
      Nat.le_pow_clog (by norm_num) _
    change IsPrimitiveRoot (root (nextFastLen (n + v.length - 1))) (nextFastLen (n + v.length - 1)) at hω
    change ((nextFastLen (n + v.length - 1) : ℕ) : E) ≠ 0 at hne
    have key : ∀ d : List (List M), d = rows.map (fun r => fft (root (nextFastLen (n + v.length - 1))) r
        (nextFastLen (n + v.length - 1))) →
        (d.map fun d => ifft (root (nextFastLen (n + v.length - 1))) (List.zipWith (fun a b => a • b)
          (fft (root (nextFastLen (n + v.length - 1))) v (nextFastLen (n + v.length - 1))) d)).map
          (fun c => c.take (n + v.length - 1)) = convRows rows v n := by
      intro d hd
      subst hd
      unfold convRows
      rw [List.map_map, List.map_map]
      apply List.map_congr_left
      intro r hmem
      have hrl := hr r hmem
      generalize nextFastLen (n + v.length - 1) = size at *
      have hlen : (ifft (root size) (List.zipWith (fun (a : E) (b : M) => a • b) (fft (root size) v size)
          (fft (root size) r size))).length = size := by simp [ifft, fft_length]
      simp only [Function.comp_apply]
      apply List.ext_getElem
      · rw [List.length_take, hlen]; simp; omega
      · intro k h1 h2
        simp only [List.length_map, List.length_range] at h2
        rw [List.getElem_take, ← List.getD_eq_getElem _ 0,
          fft_conv hω hne (by omega) hv (by omega) (by omega)]
        simp
    cases cache with
    | none =>
      refine ⟨_, by unfold cwtConv; simp only; rw [key _ rfl], ?_⟩
      intro size old he
      injection he with he
      injection he with h1 h2
      subst h1
      exact h2.symm
    | some c =>
      obtain ⟨size0, old⟩ := c
      have hold := hc size0 old rfl
      by_cases hs : nextFastLen (n + v.length - 1) = size0
      · subst hs
        refine ⟨_, by unfold cwtConv; simp only [ne_eq, not_true_eq_false, if_false]; rw [key _ hold], ?_⟩
        intro size o he
        injection he with he
        injection he with h1 h2
        subst h1
        rw [← h2]; exact hold
      · refine ⟨_, by unfold cwtConv; simp only [ne_eq, hs, not_false_eq_true, if_true]; rw [key _ rfl], ?_⟩
        intro size o he
        injection he with he
        injection he with h1 h2
        subst h1
        exact h2.symm

end fft

/-! ### The samples -/

section samples
variable [Field K] [LinearOrder K] [IsStrictOrderedRing K] [FloorRing K]

theorem floor_mono' {a : K} (ha : 0 < a) {i j : ℕ} (h : i ≤ j) : ⌊(i : K) / a⌋.toNat ≤ ⌊(j : K) / a⌋.toNat := by
  apply Int.toNat_le_toNat
  apply Int.floor_le_floor
  exact div_le_div_of_nonneg_right (by exact_mod_cast h) ha.le

/-- The prefix of the positions that lie inside the table. -/
theorem filter_prefix {f : ℕ → ℕ} (hf : ∀ i j, i ≤ j → f i ≤ f j) (size : ℕ) (n : ℕ) :
    ∃ L ≤ n, (((List.range n).map f).filter (· < size)) = (List.range L).map f ∧
      ∀ i, i < L ↔ i < n ∧ f i < size := by
  induction n with
  | zero => exact ⟨0, le_rfl, by simp, by simp⟩
  | succ n ih =>
    obtain ⟨L, hL, he, hi⟩ := ih
    rw [List.range_succ, List.map_append, List.filter_append, he]
    by_cases h : f n < size
    · have hLn : L = n := by
        by_contra hne
        have h1 : ¬ L < L := lt_irrefl _
        rw [hi L] at h1
        have : f L ≤ f n := hf _ _ hL
        exact h1 ⟨by omega, by omega⟩
      subst hLn
      refine ⟨L + 1, le_rfl, ?_, ?_⟩
      · rw [List.range_succ, List.map_append]
        simp [h]
      · intro i
        constructor
        · intro hi'
          exact ⟨hi', lt_of_le_of_lt (hf i L (by omega)) h⟩
        · intro hi'; exact hi'.1
    · refine ⟨L, by omega, by simp [h], ?_⟩
      intro i
      rw [hi i]
      constructor
      · rintro ⟨h1, h2⟩; exact ⟨by omega, h2⟩
      · rintro ⟨h1, h2⟩
        refine ⟨?_, h2⟩
        rcases Nat.lt_succ_iff_lt_or_eq.mp h1 with h3 | h3
        · exact h3
        · rw [h3] at h2; exact absurd h2 h

theorem cwtIndices_eq {x0 xl step s : K} (hs : 0 < s) (hstep : 0 < step) (size : ℕ) :
    ∃ L, cwtIndices x0 xl step s size = (List.range L).map (fun i : ℕ => ⌊(i : K) / (s * step)⌋.toNat) ∧
      ∀ i, i < L ↔ i < ⌈s * (xl - x0) + 1⌉.toNat ∧ ⌊(i : K) / (s * step)⌋.toNat < size := by
  set f : ℕ → ℕ := fun i => ⌊(i : K) / (s * step)⌋.toNat with hf
  have hmono : ∀ i j, i ≤ j → f i ≤ f j := fun i j h => floor_mono' (by positivity) h
  set n := ⌈s * (xl - x0) + 1⌉.toNat with hn
  unfold cwtIndices
  simp only
  rw [← hf, ← hn]
  cases hlast : ((List.range n).map f).getLast? with
  | none =>
    simp only
    refine ⟨n, rfl, ?_⟩
    have : n = 0 := by
      rw [List.getLast?_eq_none_iff] at hlast
      simpa using hlast
    intro i; omega
  | some last =>
    simp only
    have hnpos : 0 < n := by
      rcases Nat.eq_zero_or_pos n with h | h
      · rw [h] at hlast; simp at hlast
      · exact h
    have hl : last = f (n - 1) := by
      rw [List.getLast?_eq_getElem?] at hlast
      simp only [List.length_map, List.length_range] at hlast
      rw [List.getElem?_eq_getElem (by simp; omega)] at hlast
      simp only [List.getElem_map, List.getElem_range, Option.some.injEq] at hlast
      exact hlast.symm
    split_ifs with h
    · obtain ⟨L, -, h1, h2⟩ := filter_prefix hmono size n
      exact ⟨L, h1, h2⟩
    · refine ⟨n, rfl, fun i => ⟨fun hi => ⟨hi, ?_⟩, fun hi => hi.1⟩⟩
      have h3 := hmono i (n - 1) (by omega)
      rw [hl] at h
      exact lt_of_le_of_lt h3 (by omega)

theorem lt_ceil_toNat {a : K} {i : ℕ} : i < ⌈a⌉.toNat ↔ (i : K) < a := by
  rw [Int.lt_toNat, Int.lt_ceil]
  simp

theorem sampledAt_indices [Zero E] (psi : List E) {x0 xl step s : K} (hs : 0 < s) (hstep : 0 < step) :
    ∃ g, SampledAt psi x0 xl step s g ∧ psiScale psi (cwtIndices x0 xl step s psi.length) = g.reverse := by
  obtain ⟨L, h1, h2⟩ := cwtIndices_eq hs hstep psi.length (x0 := x0) (xl := xl)
  refine ⟨(List.range L).map fun i : ℕ => psi.getD ⌊(i : K) / (s * step)⌋.toNat 0, ⟨?_, ?_⟩, ?_⟩
  · intro i
    rw [List.length_map, List.length_range, h2 i, lt_ceil_toNat]
    have h0 : 0 ≤ ⌊(i : K) / (s * step)⌋ := Int.floor_nonneg.mpr (by positivity)
    constructor
    · rintro ⟨a, b⟩; exact ⟨a, by omega⟩
    · rintro ⟨a, b⟩; exact ⟨a, by omega⟩
  · intro i hi
    rw [List.getD_eq_getElem _ _ hi]
    simp
  · unfold psiScale
    rw [h1, List.map_map]
    rfl

theorem Spec.SampledAt.unique [Zero E] {psi : List E} {x0 xl step s : K} {g g' : List E}
    (h : SampledAt psi x0 xl step s g) (h' : SampledAt psi x0 xl step s g') : g = g' := by
  have hl : g.length = g'.length := by
    apply Nat.le_antisymm
    · by_contra hlt
      have : g'.length < g.length := by omega
      rw [h.1, ← h'.1] at this
      omega
    · by_contra hlt
      have : g.length < g'.length := by omega
      rw [h'.1, ← h.1] at this
      omega
  apply List.ext_getElem hl
  intro i h1 h2
  rw [← List.getD_eq_getElem _ 0, ← List.getD_eq_getElem _ 0, h.2 i h1, h'.2 i h2]

theorem Spec.SampledAt.psiScale [Zero E] {psi : List E} {x0 xl step s : K} {g : List E} (hs : 0 < s) (hstep : 0 < step)
    (h : SampledAt psi x0 xl step s g) :
    psiScale psi (cwtIndices x0 xl step s psi.length) = g.reverse := by
  obtain ⟨g', h1, h2⟩ := sampledAt_indices psi hs hstep (x0 := x0) (xl := xl)
  rw [h.unique h1, h2]

theorem Spec.SampledAt.pos [Zero E] {psi : List E} {x0 xl step s : K} {g : List E} (hs : 0 < s) (hp : 1 ≤ psi.length)
    (hx : x0 ≤ xl) (h : SampledAt psi x0 xl step s g) : 1 ≤ g.length := by
  have : 0 < g.length := by
    rw [h.1]
    constructor
    · have : 0 ≤ s * (xl - x0) := mul_nonneg hs.le (sub_nonneg.mpr hx)
      push_cast; linarith
    · simp; omega
  omega

theorem Spec.SampledAt.two [Zero E] {psi : List E} {x0 xl step s : K} {g : List E} (hs : 0 < s) (hstep : 0 < step)
    (hx : x0 < xl) (h : SampledAt psi x0 xl step s g) : 2 ≤ g.length ↔ 1 < s * step * psi.length := by
  have : 2 ≤ g.length ↔ 1 < g.length := by omega
  rw [this, h.1]
  have h1 : 0 < s * (xl - x0) := mul_pos hs (sub_pos.mpr hx)
  have h2 : 0 < s * step := mul_pos hs hstep
  rw [Int.floor_lt, div_lt_iff₀ h2]
  push_cast
  constructor
  · rintro ⟨_, b⟩; rwa [mul_comm] at b
  · intro b; exact ⟨by linarith, by rwa [mul_comm]⟩

variable [Field E] [AddCommGroup M] [Module E M]

theorem cwtLoop_ok {method : CwtMethod E} (hm : MethodOk method) {rows : List (List M)} {n : ℕ}
    (hr : ∀ r ∈ rows, r.length = n) (hn1 : 1 ≤ n) {psi : List E} {x0 xl step : K} (hstep : 0 < step) {sqrt : K → E}
    {g : K → List E} {scales : List K} (hs : ∀ s ∈ scales, 0 < s ∧ SampledAt psi x0 xl step s (g s) ∧ 2 ≤ (g s).length)
    {cache : Option (ℕ × List (List M))} (hc : CacheOk method rows cache) :
    cwtLoop method psi x0 xl step sqrt rows n scales cache = .ok (scales.map fun s =>
      rows.map fun r => (List.range n).map fun i : ℕ => cwtCoeff (sqrt s) (g s) r i) := by
  induction scales generalizing cache with
  | nil => rfl
  | cons s ss ih =>
    obtain ⟨h0, hg, h2⟩ := hs s (by simp)
    obtain ⟨c', hconv, hc'⟩ := cwtConv_ok hm hr hn1 (v := (g s).reverse) (by rw [List.length_reverse]; omega) hc
    unfold cwtLoop
    simp only [hg.psiScale h0 hstep, hconv, Py_bind_ok, List.length_reverse]
    rw [cwtCrop_ok h2, ih (fun s' h' => hs s' (by simp [h'])) hc']
    rfl

theorem cwtLoop_err {method : CwtMethod E} (hm : MethodOk method) {rows : List (List M)} {n : ℕ}
    (hr : ∀ r ∈ rows, r.length = n) (hn1 : 1 ≤ n) {psi : List E} {x0 xl step : K} (hstep : 0 < step) {sqrt : K → E}
    {g : K → List E} {scales : List K} (hs : ∀ s ∈ scales, 0 < s ∧ SampledAt psi x0 xl step s (g s) ∧ 1 ≤ (g s).length)
    (hbad : ∃ s ∈ scales, (g s).length < 2)
    {cache : Option (ℕ × List (List M))} (hc : CacheOk method rows cache) :
    cwtLoop method psi x0 xl step sqrt rows n scales cache = .error .value := by
  induction scales generalizing cache with
  | nil => simp at hbad
  | cons s ss ih =>
    obtain ⟨h0, hg, h1⟩ := hs s (by simp)
    obtain ⟨c', hconv, hc'⟩ := cwtConv_ok hm hr hn1 (v := (g s).reverse) (by rw [List.length_reverse]; omega) hc
    unfold cwtLoop
    simp only [hg.psiScale h0 hstep, hconv, Py_bind_ok, List.length_reverse]
    by_cases h2 : 2 ≤ (g s).length
    · rw [cwtCrop_ok h2, ih (fun s' h' => hs s' (by simp [h'])) ?_ hc']
      · rfl
      · obtain ⟨b, hb, hb2⟩ := hbad
        rcases List.mem_cons.mp hb with h | h
        · subst h; omega
        · exact ⟨b, h, hb2⟩
    · rw [cwtCrop_err (by omega) hn1]
      rfl

end samples

/-! ### n-D data -/

section nd
variable [AddCommGroup M]

theorem swap_lt {i j k n : ℕ} (hi : i < n) (hj : j < n) (hk : k < n) : Equiv.swap i j k < n := by
  rw [Equiv.swap_apply_def]
  split_ifs <;> assumption

theorem swapShape_getD (shape : List ℕ) {i j k : ℕ} (hk : k < shape.length) :
    ((List.range shape.length).map fun k => shape.getD (Equiv.swap i j k) 0).getD k 0 =
      shape.getD (Equiv.swap i j k) 0 := by
  rw [List.getD_eq_getElem _ _ (by simpa using hk)]
  simp

theorem Arr.swapaxes_inB {shape : List ℕ} {i j : ℕ} (hi : i < shape.length) (hj : j < shape.length)
    {idx : ℕ → ℕ} :
    InB ((List.range shape.length).map fun k => shape.getD (Equiv.swap i j k) 0) idx ↔
      InB shape fun k => idx (Equiv.swap i j k) := by
  unfold InB
  simp only [List.length_map, List.length_range]
  constructor
  · intro h k hk
    have := h (Equiv.swap i j k) (swap_lt hi hj hk)
    rwa [swapShape_getD _ (swap_lt hi hj hk), Equiv.swap_apply_self] at this
  · intro h k hk
    rw [swapShape_getD _ hk]
    have := h (Equiv.swap i j k) (swap_lt hi hj hk)
    simp only [Equiv.swap_apply_self] at this
    exact this

theorem Arr.swapaxes_shape (a : Arr M) (i j : ℕ) :
    (a.swapaxes i j).shape = (List.range a.shape.length).map fun k => a.shape.getD (Equiv.swap i j k) 0 := rfl

theorem Arr.get_swapaxes (a : Arr M) {i j : ℕ} (hi : i < a.shape.length) (hj : j < a.shape.length) {idx : ℕ → ℕ}
    (h : InB (a.swapaxes i j).shape idx) : (a.swapaxes i j).get idx = a.get fun k => idx (Equiv.swap i j k) := by
  unfold Arr.swapaxes
  refine Arr.get_ofFn ?_ h
  intro f g hfg
  apply a.get_congr
  intro k hk
  apply hfg
  simp only [List.length_map, List.length_range]
  exact swap_lt hi hj hk

theorem Arr.swapaxes_swapaxes_shape (a : Arr M) {i j : ℕ} (hi : i < a.shape.length) (hj : j < a.shape.length) :
    ((List.range (a.swapaxes i j).shape.length).map fun k => (a.swapaxes i j).shape.getD (Equiv.swap j i k) 0) =
      a.shape := by
  rw [Arr.swapaxes_shape]
  simp only [List.length_map, List.length_range]
  apply List.ext_getElem
  · simp
  intro k h1 h2
  simp only [List.getElem_map, List.getElem_range]
  rw [Equiv.swap_comm j i, swapShape_getD _ (swap_lt hi hj h2), Equiv.swap_apply_self, List.getD_eq_getElem _ _ h2]

theorem flatten_uniform_getD {n : ℕ} (hn : 1 ≤ n) : ∀ {ls : List (List M)}, (∀ l ∈ ls, l.length = n) → ∀ {b t : ℕ},
    b < ls.length → t < n → ls.flatten.getD (b * n + t) 0 = (ls.getD b []).getD t 0
  | [], _, _, _, hb, _ => by simp at hb
  | l :: ls, hl, b, t, hb, ht => by
    have h0 : l.length = n := hl l (by simp)
    rw [List.flatten_cons]
    cases b with
    | zero =>
      rw [List.getD_append _ _ _ _ (by omega)]
      simp
    | succ b =>
      rw [List.getD_append_right _ _ _ _ (by rw [Nat.succ_mul]; omega), h0,
        show (b + 1) * n + t - n = b * n + t by rw [Nat.succ_mul]; omega,
        flatten_uniform_getD hn (fun l hl' => hl l (by simp [hl'])) (by simpa using hb) ht]
      simp

theorem flatten_uniform_length {n : ℕ} {ls : List (List M)} (h : ∀ l ∈ ls, l.length = n) :
    ls.flatten.length = ls.length * n := by
  rw [List.length_flatten, List.map_congr_left h]
  simp

theorem Arr.rowsOf_ok (a : Arr M) {n : ℕ} (hn : 1 ≤ n) {B : ℕ} (hB : a.data.length = B * n) :
    a.rowsOf n = .ok ((List.range B).map fun b => (a.data.drop (b * n)).take n) := by
  unfold Arr.rowsOf
  rw [if_neg (by omega), hB, Nat.mul_div_cancel _ hn]

theorem Arr.line_swap (a : Arr M) {ax : ℕ} (h : ax < a.shape.length) {idx : ℕ → ℕ}
    (hidx : InB (a.swapaxes (a.shape.length - 1) ax).shape idx) {n : ℕ} (hn : a.shape.getD ax 0 = n) :
    ((a.swapaxes (a.shape.length - 1) ax).data.drop
      (ravelIx (a.swapaxes (a.shape.length - 1) ax).shape idx (a.shape.length - 1) * n)).take n =
      a.line ax fun k => idx (Equiv.swap (a.shape.length - 1) ax k) := by
  set d := a.shape.length - 1 with hd
  have hdl : d < a.shape.length := by omega
  set sw := a.swapaxes d ax with hsw
  have hsl : sw.shape.length = d + 1 := by
    rw [hsw, Arr.swapaxes_shape]; simp; omega
  have hlast : sw.shape.getD d 0 = n := by
    rw [hsw, Arr.swapaxes_shape, swapShape_getD _ hdl, Equiv.swap_apply_left, hn]
  have hpos : ∀ m < n, ravelIx sw.shape (Function.update idx d m) sw.shape.length =
      ravelIx sw.shape idx d * n + m := by
    intro m _
    rw [hsl, ravelIx, hlast, Function.update_self]
    congr 2
    apply ravelIx_congr
    intro k hk
    rw [Function.update_of_ne (by omega)]
  have hin : ∀ m < n, InB sw.shape (Function.update idx d m) := by
    intro m hm k hk
    by_cases hkd : k = d
    · subst hkd; rw [Function.update_self, hlast]; exact hm
    · rw [Function.update_of_ne hkd]; exact hidx k hk
  have hlt : ∀ m < n, ravelIx sw.shape idx d * n + m < sw.data.length := by
    intro m hm
    rw [← hpos m hm, sw.ok]
    exact (hin m hm).ravel_lt
  apply List.ext_getElem
  · rw [Arr.line_length, hn, List.length_take, List.length_drop]
    rcases Nat.eq_zero_or_pos n with h0 | h0
    · omega
    · have := hlt (n - 1) (by omega)
      omega
  intro m h1 h2
  rw [Arr.line_length, hn] at h2
  rw [List.getElem_take, List.getElem_drop, Arr.line_getElem, ← List.getD_eq_getElem _ 0, ← hpos m h2]
  change sw.get _ = _
  rw [hsw, Arr.get_swapaxes a hdl h (hin m h2)]
  apply a.get_congr
  intro k _
  by_cases hk : k = ax
  · subst hk; rw [Function.update_self, Equiv.swap_apply_right, Function.update_self]
  · rw [Function.update_of_ne hk, Function.update_of_ne]
    intro he
    apply hk
    rw [← Equiv.swap_apply_self d ax k, he, Equiv.swap_apply_left]

theorem cwtRestore_ok (a : Arr M) {ax : ℕ} (h : ax < a.shape.length) {n : ℕ} (hn : a.shape.getD ax 0 = n)
    (hn1 : 1 ≤ n) {F : List M → List M} (hF : ∀ r, r.length = n → (F r).length = n) :
    ∃ rows, (a.swapaxes (a.shape.length - 1) ax).rowsOf n = .ok rows ∧ (∀ r ∈ rows, r.length = n) ∧
      cwtRestore (a.swapaxes (a.shape.length - 1) ax).shape ax (a.shape.length - 1) (rows.map F) =
        .ok (a.along ax n F) := by
  set d := a.shape.length - 1 with hd
  have hdl : d < a.shape.length := by omega
  set sw := a.swapaxes d ax with hsw
  have hsl : sw.shape.length = d + 1 := by
    rw [hsw, Arr.swapaxes_shape]; simp; omega
  have hlast : sw.shape.getD d 0 = n := by
    rw [hsw, Arr.swapaxes_shape, swapShape_getD _ hdl, Equiv.swap_apply_left, hn]
  have hprod : sw.shape.prod = prodTo sw.shape d * n := by
    rw [← prodTo_length, hsl, prodTo, hlast]
  have hB : sw.data.length = prodTo sw.shape d * n := by rw [sw.ok, hprod]
  set B := prodTo sw.shape d with hBd
  set rows := (List.range B).map fun b => (sw.data.drop (b * n)).take n with hrows
  have hrl : ∀ r ∈ rows, r.length = n := by
    intro r hr
    rw [hrows, List.mem_map] at hr
    obtain ⟨b, hb, rfl⟩ := hr
    rw [List.mem_range] at hb
    rw [List.length_take, List.length_drop, hB]
    have : (b + 1) * n ≤ B * n := Nat.mul_le_mul_right _ hb
    rw [Nat.succ_mul] at this
    omega
  have hFl : ∀ l ∈ rows.map F, l.length = n := by
    intro l hl
    obtain ⟨r, hr, rfl⟩ := List.mem_map.mp hl
    exact hF r (hrl r hr)
  refine ⟨rows, Arr.rowsOf_ok sw hn1 hB, hrl, ?_⟩
  unfold cwtRestore
  have hloc : Arr.Local sw.shape.length fun idx =>
      (F (a.line ax fun k => idx (Equiv.swap d ax k))).getD (idx d) 0 := by
    intro f g hfg
    simp only
    rw [hfg d (by omega), a.line_congr (g := fun k => g (Equiv.swap d ax k))]
    intro k hk _
    exact hfg _ (by rw [hsl]; have := swap_lt hdl h hk; omega)
  rw [toArr_eq (f := fun idx => (F (a.line ax fun k => idx (Equiv.swap d ax k))).getD (idx d) 0) ?_ hloc ?_]
  · simp only [Py_bind_ok]
    congr 1
    have hsl' : (Arr.ofFn sw.shape fun idx => (F (a.line ax fun k => idx (Equiv.swap d ax k))).getD (idx d) 0).shape
        = sw.shape := rfl
    have hset : a.shape.set ax n = a.shape := by
      rw [← hn, List.getD_eq_getElem _ _ h, List.set_getElem_self]
    have hshape : ((Arr.ofFn sw.shape fun idx => (F (a.line ax fun k => idx (Equiv.swap d ax k))).getD (idx d) 0).swapaxes
        ax d).shape = a.shape := by
      rw [Arr.swapaxes_shape, hsl']
      exact a.swapaxes_swapaxes_shape hdl h
    apply Arr.ext_get
    · rw [hshape]
      exact hset.symm
    intro idx hidx
    have hidx' : InB a.shape idx := by rwa [hshape] at hidx
    rw [Arr.get_swapaxes _ (by rw [hsl', hsl]; omega) (by rw [hsl', hsl]; omega) hidx]
    unfold Arr.along
    rw [Arr.get_ofFn hloc]
    · rw [Arr.get_ofFn]
      · simp only [Equiv.swap_comm ax d, Equiv.swap_apply_self, Equiv.swap_apply_left]
      · exact Local_line a ax F (by simp) (by simpa using h)
      · rw [hset]; exact hidx'
    · rw [hsw, Arr.swapaxes_shape, Arr.swapaxes_inB hdl h]
      simp only [Equiv.swap_comm ax d, Equiv.swap_apply_self]
      exact hidx'
  · rw [flatten_uniform_length hFl, hprod, hrows]; simp
  · intro idx hidx
    have hb : ravelIx sw.shape idx d < B := ravelIx_lt (fun k hk => hidx k (by omega))
    have ht : idx d < n := by rw [← hlast]; exact hidx d (by omega)
    rw [hsl, ravelIx, hlast, flatten_uniform_getD hn1 hFl (by rw [hrows]; simpa using hb) ht]
    congr 1
    rw [List.getD_eq_getElem _ _ (by rw [hrows]; simpa using hb), List.getElem_map]
    congr 1
    rw [← a.line_swap h hidx hn]
    simp only [hrows, List.getElem_map, List.getElem_range]
    rfl

end nd

/-! ### The whole function -/

section top
variable [Field K] [LinearOrder K] [IsStrictOrderedRing K] [FloorRing K] [Field E] [AddCommGroup M] [Module E M]

theorem cwt_eq_run {method : CwtMethod E} (hm : MethodOk method) {psi : List E} {x0 xl step : K} {sqrt : K → E}
    {data : Arr M} {axis : ℤ} {scales : List K} (hs : ∀ s ∈ scales, 0 < s) :
    cwt method psi x0 xl step sqrt data axis scales = cwtRun method psi x0 xl step sqrt data axis scales := by
  unfold cwt
  have : (scales.any fun s => decide (s ≤ 0)) = false := by
    rw [List.any_eq_false]
    intro s h
    simpa using hs s h
  rw [this]
  cases method with
  | conv => rfl
  | fft root => rfl
  | other => exact hm.elim

theorem cacheOk_none (method : CwtMethod E) (rows : List (List M)) : CacheOk method rows Option.none := by
  cases method <;> simp [CacheOk]

theorem toArr_line {a : Arr M} (h : a.shape.length = 1) {F : List M → List M}
    (hF : (F a.data).length = a.data.length) :
    toArr a.shape (F a.data) = .ok (a.along 0 a.data.length F) := by
  obtain ⟨n, hn⟩ := List.length_eq_one_iff.mp h
  have hlen : a.data.length = n := by rw [a.ok, hn]; simp
  have hset : a.shape.set 0 a.data.length = a.shape := by rw [hn, hlen]; rfl
  unfold Arr.along
  rw [hset]
  apply toArr_eq
  · rw [hF, a.ok]
  · exact Local_line a 0 F rfl (by omega)
  · intro idx hidx
    have hline : a.line 0 idx = a.data := by
      apply List.ext_getElem
      · rw [Arr.line_length, hn, hlen]; rfl
      intro k h1 h2
      rw [Arr.line_getElem, Arr.get, hn]
      simp [ravelIx, h2]
    rw [hline, hn]
    simp [ravelIx]

theorem mapM_map_ok {α β : Type} {l : List α} {f : α → Py β} {g : α → β} (h : ∀ a ∈ l, f a = .ok (g a)) :
    l.mapM f = .ok (l.map g) := by
  apply mapM_py_ok
  rw [List.forall₂_map_right_iff, List.forall₂_same]
  exact h

theorem cwt_ok {method : CwtMethod E} (hm : MethodOk method) {psi : List E} {x0 xl step : K} (hstep : 0 < step)
    {sqrt : K → E} {data : Arr M} {axis : ℤ} {ax : ℕ}
    (hax : AxisIs data.ndim axis ax ∨ data.ndim = 1 ∧ ax = 0) {n : ℕ} (hn : data.shape.getD ax 0 = n) (hn1 : 1 ≤ n)
    {g : K → List E} {scales : List K}
    (hs : ∀ s ∈ scales, 0 < s ∧ SampledAt psi x0 xl step s (g s) ∧ 2 ≤ (g s).length) :
    cwt method psi x0 xl step sqrt data axis scales =
      .ok (scales.map fun s => data.along ax n (cwtLine (sqrt s) (g s))) := by
  rw [cwt_eq_run hm fun s h => (hs s h).1]
  unfold cwtRun
  have hF : ∀ s, ∀ r : List M, r.length = n → (cwtLine (sqrt s) (g s) r).length = n := by
    intro s r hr
    unfold cwtLine
    simpa using hr
  by_cases h1 : 1 < data.ndim
  · rw [if_pos h1]
    have hA : AxisIs data.ndim axis ax := by
      rcases hax with h | h
      · exact h
      · omega
    have hlt : ax < data.shape.length := hA.2
    have hlast : (data.swapaxes (data.ndim - 1) ax).shape.getD (data.ndim - 1) 0 = n := by
      rw [Arr.swapaxes_shape, swapShape_getD _ (by unfold Arr.ndim at *; omega), Equiv.swap_apply_left, hn]
    obtain ⟨rows, hr1, hr2, -⟩ := cwtRestore_ok data hlt hn hn1 (F := id) (fun r h => h)
    have hr1' : (data.swapaxes (data.ndim - 1) ax).rowsOf n = .ok rows := hr1
    simp only [hA.normAxis, Py_bind_ok, hlast, hr1']
    rw [cwtLoop_ok hm hr2 hn1 hstep hs (cacheOk_none _ _)]
    simp only [Py_bind_ok]
    rw [List.mapM_map]
    apply mapM_map_ok
    intro s _
    obtain ⟨rows', hr1'', -, hres⟩ := cwtRestore_ok data hlt hn hn1 (hF s)
    have : rows' = rows := by rw [hr1] at hr1''; injection hr1'' with h; exact h.symm
    subst this
    rw [← hres]
    have : (rows'.map fun r => (List.range n).map fun i : ℕ => cwtCoeff (sqrt s) (g s) r i) =
        rows'.map (cwtLine (sqrt s) (g s)) := by
      apply List.map_congr_left
      intro r hr
      unfold cwtLine
      rw [hr2 r hr]
    simp only [Function.comp_apply, this]
    rfl
  · rw [if_neg h1]
    have hd : data.ndim = 1 := by
      rcases hax with h | h
      · have := h.2; omega
      · exact h.1
    have hax0 : ax = 0 := by
      rcases hax with h | h
      · have := h.2; omega
      · exact h.2
    subst hax0
    rw [if_pos hd]
    have hsh : data.shape.length = 1 := hd
    have hlen : data.data.length = n := by
      obtain ⟨m, hm'⟩ := List.length_eq_one_iff.mp hsh
      rw [data.ok, ← hn, hm']; simp
    rw [cwtLoop_ok hm (rows := [data.data]) (n := data.data.length) (by simp) (by omega) hstep hs (cacheOk_none _ _)]
    simp only [Py_bind_ok]
    rw [List.mapM_map]
    apply mapM_map_ok
    intro s _
    have := toArr_line hsh (F := cwtLine (sqrt s) (g s)) (by rw [hF s _ hlen, hlen])
    rw [hlen] at this
    rw [← this]
    simp [cwtLine]

theorem cwt_small {method : CwtMethod E} (hm : MethodOk method) {psi : List E} {x0 xl step : K} (hstep : 0 < step)
    {sqrt : K → E} {data : Arr M} {axis : ℤ} {ax : ℕ}
    (hax : AxisIs data.ndim axis ax ∨ data.ndim = 1 ∧ ax = 0) {n : ℕ} (hn : data.shape.getD ax 0 = n) (hn1 : 1 ≤ n)
    {g : K → List E} {scales : List K}
    (hs : ∀ s ∈ scales, 0 < s ∧ SampledAt psi x0 xl step s (g s) ∧ 1 ≤ (g s).length)
    (hbad : ∃ s ∈ scales, (g s).length < 2) :
    cwt method psi x0 xl step sqrt data axis scales = .error .value := by
  rw [cwt_eq_run hm fun s h => (hs s h).1]
  unfold cwtRun
  by_cases h1 : 1 < data.ndim
  · rw [if_pos h1]
    have hA : AxisIs data.ndim axis ax := by
      rcases hax with h | h
      · exact h
      · omega
    have hlt : ax < data.shape.length := hA.2
    have hlast : (data.swapaxes (data.ndim - 1) ax).shape.getD (data.ndim - 1) 0 = n := by
      rw [Arr.swapaxes_shape, swapShape_getD _ (by unfold Arr.ndim at *; omega), Equiv.swap_apply_left, hn]
    obtain ⟨rows, hr1, hr2, -⟩ := cwtRestore_ok data hlt hn hn1 (F := id) (fun r h => h)
    have hr1' : (data.swapaxes (data.ndim - 1) ax).rowsOf n = .ok rows := hr1
    simp only [hA.normAxis, Py_bind_ok, hlast, hr1']
    rw [cwtLoop_err hm hr2 hn1 hstep hs hbad (cacheOk_none _ _)]
    rfl
  · rw [if_neg h1]
    have hd : data.ndim = 1 := by
      rcases hax with h | h
      · have := h.2; omega
      · exact h.1
    have hax0 : ax = 0 := by
      rcases hax with h | h
      · have := h.2; omega
      · exact h.2
    subst hax0
    rw [if_pos hd]
    have hsh : data.shape.length = 1 := hd
    have hlen : data.data.length = n := by
      obtain ⟨m, hm'⟩ := List.length_eq_one_iff.mp hsh
      rw [data.ok, ← hn, hm']; simp
    rw [cwtLoop_err hm (rows := [data.data]) (n := data.data.length) (by simp) (by omega) hstep hs hbad
      (cacheOk_none _ _)]
    rfl

theorem cwtCoeff_add (rt : E) (g : List E) {x y : List M} (h : x.length = y.length) (n : ℕ) :
    cwtCoeff rt g (List.zipWith (· + ·) x y) n = cwtCoeff rt g x n + cwtCoeff rt g y n := by
  unfold cwtCoeff
  have hl : (List.zipWith (· + ·) x y).length = x.length := by simp [h]
  rw [hl, ← h, ← smul_add, ← sum_add_distrib]
  congr 1
  apply sum_congr rfl
  intro m hm
  simp only [mem_range] at hm
  rw [List.getD_eq_getElem _ _ (by omega), List.getElem_zipWith, smul_add,
    List.getD_eq_getElem x _ hm, List.getD_eq_getElem y _ (by omega)]

theorem cwtCoeff_smul (rt : E) (g : List E) (c : E) (x : List M) (n : ℕ) :
    cwtCoeff rt g (x.map fun v => c • v) n = c • cwtCoeff rt g x n := by
  unfold cwtCoeff
  rw [List.length_map, smul_comm c rt]
  congr 1
  rw [smul_sum]
  apply sum_congr rfl
  intro m hm
  simp only [mem_range] at hm
  rw [List.getD_eq_getElem _ _ (by simpa using hm), List.getElem_map, smul_comm, List.getD_eq_getElem x _ hm]

theorem SameShape.line_lin {a b c : Arr M} {α β : E} (hab : b.shape = a.shape) (hca : c.shape = a.shape)
    (h : ∀ idx, InB a.shape idx → c.get idx = α • a.get idx + β • b.get idx) {ax : ℕ} {idx : ℕ → ℕ}
    (hidx : InB a.shape idx) :
    c.line ax idx = List.zipWith (· + ·) ((a.line ax idx).map fun v => α • v) ((b.line ax idx).map fun v => β • v) := by
  apply List.ext_getElem
  · simp [hab, hca]
  intro m h1 h2
  rw [Arr.line_length, hca] at h1
  simp only [Arr.line_getElem, List.getElem_zipWith, List.getElem_map]
  apply h
  intro k hk
  by_cases hka : k = ax
  · subst hka; rw [Function.update_self]; exact h1
  · rw [Function.update_of_ne hka]; exact hidx k hk

theorem cwtLine_along_lin {a b c : Arr M} {α β : E} (hab : b.shape = a.shape) (hca : c.shape = a.shape)
    (h : ∀ idx, InB a.shape idx → c.get idx = α • a.get idx + β • b.get idx) {ax n : ℕ} (hax : ax < a.shape.length)
    (hn : a.shape.getD ax 0 = n) (rt : E) (g : List E) {idx : ℕ → ℕ} (hidx : InB a.shape idx) :
    (c.along ax n (cwtLine rt g)).get idx =
      α • (a.along ax n (cwtLine rt g)).get idx + β • (b.along ax n (cwtLine rt g)).get idx := by
  have hset : ∀ d : Arr M, d.shape = a.shape → d.shape.set ax n = a.shape := by
    intro d hd
    rw [hd, ← hn, List.getD_eq_getElem _ _ hax, List.set_getElem_self]
  have hget : ∀ d : Arr M, d.shape = a.shape →
      (d.along ax n (cwtLine rt g)).get idx = cwtCoeff rt g (d.line ax idx) (idx ax) := by
    intro d hd
    unfold Arr.along
    rw [Arr.get_ofFn (Local_line d ax _ (by simp) (by simpa [hd] using hax)) (by rw [hset d hd]; exact hidx)]
    have hlt : idx ax < (d.line ax idx).length := by
      rw [Arr.line_length, hd]; exact hidx ax hax
    unfold cwtLine
    rw [List.getD_eq_getElem _ _ (by simpa using hlt)]
    simp
  rw [hget a rfl, hget b hab, hget c hca, SameShape.line_lin hab hca h hidx, cwtCoeff_add _ _ (by simp [hab]),
    cwtCoeff_smul, cwtCoeff_smul]

end top

end Pywt
