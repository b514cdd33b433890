import Verif.Proof.SwtAdjoint
import Verif.Proof.SwtRoundTrip
import Verif.Proof.NearOrth
import Verif.Props.NearOrth
import Verif.Spec.NormWarn

/-!
# Proofs for C75
-/

namespace Pywt

open Finset Spec

set_option autoImplicit false
set_option linter.unusedSectionVars false

/-- The circular autocorrelation of a signal at the lags `s·q`. -/
noncomputable def autocorr (x : List ℝ) (s : ℕ) (q : ℤ) : ℝ := ∑ n ∈ range x.length, per x n * per x (n + s * q)

theorem energy_per (x : List ℝ) : energy x = ∑ n ∈ range x.length, per x n * per x n := by
  rw [energy_sum]
  exact sum_congr rfl fun n hn => by rw [per_nat (mem_range.1 hn)]

theorem autocorr_zero (x : List ℝ) (s : ℕ) : autocorr x s 0 = energy x := by
  rw [energy_per]
  exact sum_congr rfl fun n _ => by rw [mul_zero, add_zero]

theorem autocorr_le (x : List ℝ) (s : ℕ) (q : ℤ) : |autocorr x s q| ≤ energy x := by
  have hc := cauchy x.length (fun n => per x n) fun n => per x (n + s * q)
  have h2 : ∑ n ∈ range x.length, per x ((n : ℤ) + s * q) * per x ((n : ℤ) + s * q) = energy x := by
    rw [energy_per]
    exact sum_period_shift (g := fun p : ℤ => per x p * per x p) (fun p => by simp only [per_add]) _
  rw [h2, ← energy_per] at hc
  exact abs_le_of_sq_le_sq (hc.trans (le_of_eq (by ring))) (energy_nonneg x)

/-- The energy of a filtered signal from its autocorrelation. -/
theorem atrous_energy_corr {f x : List ℝ} (s : ℕ) (hx : 1 ≤ x.length) :
    energy (atrous f s x) = ∑ l ∈ range f.length, f.getD l 0 * conv f (autocorr x s) l := by
  rw [energy_per, atrous_length]
  have h1 : ∀ n ∈ range x.length, per (atrous f s x) n * per (atrous f s x) n =
      ∑ l ∈ range f.length, ∑ j ∈ range f.length, f.getD l 0 * (f.getD j 0 *
        (per x (n + s * ((f.length / 2 : ℕ) - l)) * per x (n + s * ((f.length / 2 : ℕ) - j)))) := by
    intro n _
    rw [per_atrous hx, sum_mul_sum]
    refine sum_congr rfl fun l _ => sum_congr rfl fun j _ => ?_
    simp only [smul_eq_mul]
    ring
  rw [sum_congr rfl h1, sum_comm]
  refine sum_congr rfl fun l _ => ?_
  rw [sum_comm]
  unfold conv
  rw [mul_sum]
  refine sum_congr rfl fun j _ => ?_
  rw [← mul_sum, ← mul_sum, smul_eq_mul]
  congr 2
  unfold autocorr
  have := sum_period_shift (g := fun p : ℤ => per x p * per x (p + s * (l - j))) (N := x.length) (by
    intro p
    rw [per_add, show p + (x.length : ℤ) + s * (l - j) = p + s * (l - j) + x.length by ring, per_add])
    (s * ((f.length / 2 : ℕ) - l))
  rw [← this]
  refine sum_congr rfl fun n _ => ?_
  congr 2
  ring

theorem atrous_energy_near {ε : ℝ} {w : Wavelet ℝ} (h : NearOrthogonal ε w) (s : ℕ) {x : List ℝ} (hx : 1 ≤ x.length) :
    |energy (atrous w.dec_lo s x) + energy (atrous w.dec_hi s x) - 2 * energy x| ≤ 2 * (ε * energy x) := by
  obtain ⟨⟨g1, g2, g3, g4, g5⟩, m1, m2, hpr⟩ := h
  have key := pr_both hpr g3 g4 g5 (by omega) (autocorr x s) (autocorr_le x s)
  have hrefl : ∀ f r : List ℝ, f = r.reverse → r.length = w.dec_lo.length →
      ∑ l ∈ range r.length, r.getD l 0 * conv f (autocorr x s) ((w.dec_lo.length : ℤ) - 1 - l) = energy (atrous f s x) := by
    intro f r hf hr
    rw [atrous_energy_corr s hx, ← sum_range_reflect]
    have hfl : f.length = r.length := by rw [hf, List.length_reverse]
    rw [hfl]
    refine sum_congr rfl fun l hl => ?_
    have hl := mem_range.mp hl
    congr 1
    · rw [hf, List.getD_eq_getElem _ _ (by omega), List.getD_eq_getElem _ _ (by rw [List.length_reverse]; omega),
        List.getElem_reverse]
    · congr 1
      omega
  rw [hrefl _ _ m1 g4, hrefl _ _ m2 g5, autocorr_zero] at key
  exact key

theorem energy_map_mul (x : List ℝ) (t : ℝ) : energy (x.map (· * t)) = t * t * energy x := energy_scale x t

/-- All levels. -/
theorem swt_energy_near {ε : ℝ} {w : Wavelet ℝ} (h : NearOrthogonal ε w) {t : ℝ} (ht : 2 * (t * t) = 1) (hε : ε ≤ 1) (m : ℕ)
    {x : List ℝ} (hx : 1 ≤ x.length) : ∀ n : ℕ,
    (1 - ε) ^ n * energy x ≤ energy (swtApprox (w.dec_lo.map (· * t)) m x n) + ((List.range n).map fun j =>
      energy (swtDetail (w.dec_lo.map (· * t)) (w.dec_hi.map (· * t)) m x j)).sum ∧
    energy (swtApprox (w.dec_lo.map (· * t)) m x n) + ((List.range n).map fun j =>
      energy (swtDetail (w.dec_lo.map (· * t)) (w.dec_hi.map (· * t)) m x j)).sum ≤ (1 + ε) ^ n * energy x
  | 0 => by simp [swtApprox]
  | n + 1 => by
      obtain ⟨i1, i2⟩ := swt_energy_near h ht hε m hx n
      have h0 := near_nonneg h
      rw [List.range_succ, List.map_append, List.sum_append]
      simp only [List.map_cons, List.map_nil, List.sum_cons, List.sum_nil, add_zero]
      set A := swtApprox (w.dec_lo.map (· * t)) m x n with hA
      have hAl : A.length = x.length := by rw [hA, swtApprox_length]
      set S := ((List.range n).map fun j => energy (swtDetail (w.dec_lo.map (· * t)) (w.dec_hi.map (· * t)) m x j)).sum with hS
      have hS0 : 0 ≤ S := List.sum_nonneg fun v hv => by
        obtain ⟨j, -, rfl⟩ := List.mem_map.mp hv
        exact energy_nonneg _
      have key := abs_le.1 (atrous_energy_near h (2 ^ (m + n)) (x := A) (by omega))
      have e1 : energy (swtApprox (w.dec_lo.map (· * t)) m x (n + 1)) = t * t * energy (atrous w.dec_lo (2 ^ (m + n)) A) := by
        rw [swtApprox, atrous_scale, energy_map_mul]
      have e2 : energy (swtDetail (w.dec_lo.map (· * t)) (w.dec_hi.map (· * t)) m x n) =
          t * t * energy (atrous w.dec_hi (2 ^ (m + n)) A) := by
        rw [swtDetail, atrous_scale, energy_map_mul]
      have ht2 : t * t = 1 / 2 := by linarith
      rw [e1, e2, ht2]
      have hA0 := energy_nonneg A
      have k1 : (1 - ε) * (energy A + S) ≤ energy A + S - ε * energy A := by nlinarith [mul_nonneg h0 hS0]
      have k2 : energy A + S + ε * energy A ≤ (1 + ε) * (energy A + S) := by nlinarith [mul_nonneg h0 hS0]
      have k3 := mul_le_mul_of_nonneg_left i1 (show 0 ≤ 1 - ε by linarith)
      have k4 := mul_le_mul_of_nonneg_left i2 (show 0 ≤ 1 + ε by linarith)
      constructor
      · calc (1 - ε) ^ (n + 1) * energy x = (1 - ε) * ((1 - ε) ^ n * energy x) := by ring
          _ ≤ _ := by linarith [key.1]
      · calc _ ≤ (1 + ε) * ((1 + ε) ^ n * energy x) := by linarith [key.2]
          _ = (1 + ε) ^ (n + 1) * energy x := by ring

theorem impulse_length (N : ℕ) : (impulse N).length = N := by simp [impulse]

theorem per_impulse {N : ℕ} (hN : 1 ≤ N) (q : ℤ) : per (impulse N) q = if (N : ℤ) ∣ q then 1 else 0 := by
  have h0 := Int.emod_nonneg q (show (N : ℤ) ≠ 0 by omega)
  have h1 := Int.emod_lt_of_pos q (show 0 < (N : ℤ) by omega)
  unfold per
  rw [impulse_length]
  unfold at'
  rw [List.getD_eq_getElem _ _ (by rw [impulse_length]; omega)]
  simp only [impulse, List.getElem_map, List.getElem_range]
  by_cases h : (N : ℤ) ∣ q
  · rw [if_pos h, if_pos (by rw [Int.emod_eq_zero_of_dvd h]; rfl)]
  · have : q % N ≠ 0 := fun hh => h (Int.dvd_of_emod_eq_zero hh)
    rw [if_neg h, if_neg (by omega)]

theorem autocorr_impulse {N : ℕ} (hN : 1 ≤ N) (q : ℤ) : autocorr (impulse N) 1 q = if (N : ℤ) ∣ q then 1 else 0 := by
  unfold autocorr
  rw [impulse_length, sum_eq_single_of_mem 0 (mem_range.mpr hN)]
  · rw [per_impulse hN, per_impulse hN]
    simp
  · intro n hn hn0
    have hn := mem_range.mp hn
    rw [per_impulse hN, if_neg, zero_mul]
    intro hd
    have := Int.le_of_dvd (by omega) hd
    omega

theorem energy_impulse {N : ℕ} (hN : 1 ≤ N) : energy (impulse N) = 1 := by
  rw [← autocorr_zero _ 1, autocorr_impulse hN, if_pos (dvd_zero _)]

/-- The filtered impulse holds the filter. -/
theorem atrous_impulse_energy {f : List ℝ} {N : ℕ} (hN : 1 ≤ N) (hf : f.length ≤ N) :
    energy (atrous f 1 (impulse N)) = energy f := by
  rw [atrous_energy_corr 1 (by rw [impulse_length]; exact hN), energy_sum]
  refine sum_congr rfl fun l hl => ?_
  have hl := mem_range.mp hl
  congr 1
  unfold conv
  rw [sum_eq_single_of_mem l (mem_range.mpr hl)]
  · rw [autocorr_impulse hN, if_pos (by rw [sub_self]; exact dvd_zero _), smul_eq_mul, mul_one]
  · intro j hj hjl
    have hj := mem_range.mp hj
    rw [autocorr_impulse hN, if_neg, smul_zero]
    intro hd
    rcases lt_or_gt_of_ne hjl with h | h
    · have := Int.le_of_dvd (by omega) hd
      omega
    · have hd' : (N : ℤ) ∣ (j : ℤ) - l := (dvd_sub_comm).mp hd
      have := Int.le_of_dvd (by omega) hd'
      omega

/-- The squares of the numbers of both analysis filters, in units of `2⁻³²⁰`. -/
def squares (w : Wavelet ℤ) : ℤ := (w.dec_lo.map fun v => v * v).sum + (w.dec_hi.map fun v => v * v).sum

theorem energy_fx (f : List ℤ) :
    energy (f.map fun z => (fxVal z : ℝ)) = (((f.map fun v => v * v).sum : ℤ) : ℝ) / (2 ^ 160 * 2 ^ 160) := by
  induction f with
  | nil => simp [energy]
  | cons a f ih =>
      have : energy ((a :: f).map fun z => (fxVal z : ℝ)) = (fxVal a : ℝ) * fxVal a + energy (f.map fun z => (fxVal z : ℝ)) := by
        simp [energy]
      have h2 : (fxVal a : ℝ) = a / 2 ^ 160 := by
        simp only [fxVal, fxBits]
        push_cast
        rfl
      rw [this, ih, h2, List.map_cons, List.sum_cons, Int.cast_add, Int.cast_mul, add_div, div_mul_div_comm]

theorem impulse_energy {w : Wavelet ℤ} (hw : w.Ok) {N : ℕ} (hN : w.dec_len ≤ N) :
    energy (atrous (realBank w).dec_lo 1 (impulse N)) + energy (atrous (realBank w).dec_hi 1 (impulse N)) =
      (squares w : ℝ) / (2 ^ 160 * 2 ^ 160) := by
  have h2 : 2 ≤ w.dec_lo.length := hw.1
  have h3 : w.dec_hi.length = w.dec_lo.length := hw.2.2.1
  have hN : w.dec_lo.length ≤ N := hN
  rw [atrous_impulse_energy (by omega) (by simpa [realBank] using hN), atrous_impulse_energy (by omega) (by simp [realBank]; omega)]
  simp only [realBank, energy_fx, squares]
  rw [Int.cast_add, add_div]

/-- The same from the tables the filters are filled from. -/
def fillSq : Option FillFrom → ℤ
  | none => 0
  | some f => (((f.b.drop f.n).take f.F).map fun v => v * v).sum + (f.c.map fun v => v * v).sum

theorem sq_sum_congr {f g : List ℤ} (hl : g.length = f.length) (h : ∀ i < f.length, g.getD i 0 * g.getD i 0 = f.getD i 0 * f.getD i 0) :
    (g.map fun v => v * v).sum = (f.map fun v => v * v).sum := by
  congr 1
  refine List.ext_getElem (by simp [hl]) fun i h1 h2 => ?_
  simp only [List.length_map] at h1 h2
  have := h i h2
  rw [List.getD_eq_getElem _ _ h1, List.getD_eq_getElem _ _ h2] at this
  simpa using this

theorem sign_sq (i : ℕ) (v : ℤ) : (-1) ^ i * v * ((-1) ^ i * v) = v * v := by
  rw [mul_mul_mul_comm, ← mul_pow]
  simp

theorem squares_fromPair {w : Wavelet ℤ} {b c : List ℤ} (h : FromPair w b c) :
    squares w = (b.map fun v => v * v).sum + (c.map fun v => v * v).sum := by
  unfold squares
  rw [h.dl, List.map_reverse, List.sum_reverse, add_comm]
  congr 1
  refine sq_sum_congr h.dhl fun i hi => ?_
  rw [h.dh i hi, sign_sq]

theorem fill_pair {swap : Bool} {tol : ℕ × ℕ} {f : Option FillFrom} {w : Wavelet ℤ} (h : fillCheck swap tol f = true)
    (hw : fillWith f = .ok (some w)) :
    ∃ g, f = some g ∧ FromPair w ((g.b.drop g.n).take g.F) g.c := by
  cases f with
  | none => simp [fillCheck] at h
  | some f =>
    simp only [fillCheck, Bool.and_eq_true, decide_eq_true_eq] at h
    obtain ⟨⟨⟨⟨h1, h2⟩, h3⟩, h4⟩, h6⟩ := h
    obtain ⟨w', hw', hf⟩ := fillBank_ok h1 h2 h3 h4
    have : w' = w := by
      simp only [fillWith, hw'] at hw
      have : (Except.ok (some w') : C (Option (Wavelet ℤ))) = .ok (some w) := hw
      simpa using this
    subst this
    exact ⟨f, rfl, hf⟩

/-- The two biorthogonal families: the tables a wavelet is filled from. -/
theorem bior_pair {single : Bool} {fam : Family} {order : ℕ} (hf : fam = .bior ∨ fam = .rbio) {w : Wavelet ℤ}
    (hw : discreteWavelet single fam order = .ok (some w)) :
    order ∈ biorOrders ∧ ∃ g, fillFrom single .bior order = some g ∧
      (FromPair w ((g.b.drop g.n).take g.F) g.c ∨ FromPair w g.c ((g.b.drop g.n).take g.F)) := by
  have hok : orderOk fam order = true := by
    by_contra hn
    rw [discreteWavelet_none (by simpa using hn)] at hw
    simp at hw
  have hc := entryCheck_of_orderOk (single := single) hok
  rcases hf with rfl | rfl
  · refine ⟨by simpa [orderOk] using hok, ?_⟩
    have hw : fillWith (fillFrom single .bior order) = .ok (some w) := hw
    have hc : fillCheck false (tolerance single .bior) (fillFrom single .bior order) = true := hc
    obtain ⟨g, g1, g2⟩ := fill_pair hc hw
    exact ⟨g, g1, .inl g2⟩
  · refine ⟨by simpa [orderOk] using hok, ?_⟩
    have hc : fillCheck true (tolerance single .rbio) (fillFrom single .bior order) = true := hc
    obtain ⟨w', b, c, e1, -⟩ := fillCheck_ok hc
    obtain ⟨g, g1, g2⟩ := fill_pair hc e1
    have e2 : discreteWavelet single .rbio order = .ok (some (Pywt.swapReverse w')) := by
      simp only [discreteWavelet, e1]; rfl
    rw [e2] at hw
    have : Pywt.swapReverse w' = w := by simpa using hw
    subst this
    exact ⟨g, g1, .inr g2.swapReverse⟩

theorem bior_squares {single : Bool} {fam : Family} {order : ℕ} (hf : fam = .bior ∨ fam = .rbio) {w : Wavelet ℤ}
    (hw : discreteWavelet single fam order = .ok (some w)) :
    order ∈ biorOrders ∧ squares w = fillSq (fillFrom single .bior order) := by
  obtain ⟨h1, g, g1, g2⟩ := bior_pair hf hw
  refine ⟨h1, ?_⟩
  rw [g1]
  rcases g2 with g2 | g2
  · exact squares_fromPair g2
  · rw [squares_fromPair g2, add_comm]
    rfl

theorem bior_gain_double : (biorOrders.all fun k => k == 11 ||
    decide (2010 * 2 ^ 320 ≤ 1000 * fillSq (fillFrom false .bior k))) = true := by decide +kernel

theorem bior_gain_single : (biorOrders.all fun k => k == 11 ||
    decide (2010 * 2 ^ 320 ≤ 1000 * fillSq (fillFrom true .bior k))) = true := by decide +kernel

theorem bior_gain {single : Bool} {k : ℕ} (hk : k ∈ biorOrders) (h : k ≠ 11) :
    2010 * 2 ^ 320 ≤ 1000 * fillSq (fillFrom single .bior k) := by
  cases single
  · have := List.all_eq_true.mp bior_gain_double k hk
    simpa only [Bool.or_eq_true, beq_iff_eq, h, false_or, decide_eq_true_eq] using this
  · have := List.all_eq_true.mp bior_gain_single k hk
    simpa only [Bool.or_eq_true, beq_iff_eq, h, false_or, decide_eq_true_eq] using this

theorem dmey_gain : ∀ single : Bool, 2004 * 2 ^ 320 ≤ 1000 * fillSq (fillFrom single .dmey 0) := by decide +kernel

theorem dmey_squares {single : Bool} {w : Wavelet ℤ} (hw : discreteWavelet single .dmey 0 = .ok (some w)) :
    squares w = fillSq (fillFrom single .dmey 0) := by
  have hc : fillCheck false (tolerance single .dmey) (fillFrom single .dmey 0) = true :=
    entryCheck_of_orderOk (single := single) (fam := .dmey) (order := 0) rfl
  have hw : fillWith (fillFrom single .dmey 0) = .ok (some w) := hw
  obtain ⟨g, g1, g2⟩ := fill_pair hc hw
  rw [g1]
  exact squares_fromPair g2

/-- The two biorthogonal wavelets that are copies of the Haar wavelet. -/
def copyCheck (single : Bool) : Bool :=
  match fillFrom single .bior 11 with
  | some g => decide ((g.b.drop g.n).take g.F = g.c)
  | none => false

theorem copyCheck_all : ∀ single : Bool, copyCheck single = true := by decide +kernel

theorem copy_mirror {single : Bool} {fam : Family} (hf : fam = .bior ∨ fam = .rbio) {w : Wavelet ℤ}
    (hw : discreteWavelet single fam 11 = .ok (some w)) : w.dec_lo = w.rec_lo.reverse ∧ w.dec_hi = w.rec_hi.reverse := by
  obtain ⟨-, g, g1, g2⟩ := bior_pair hf hw
  have hc := copyCheck_all single
  unfold copyCheck at hc
  rw [g1] at hc
  simp only [decide_eq_true_eq] at hc
  rw [hc, or_self] at g2
  exact g2.mirror

theorem eleven_names : ∀ e ∈ wnameToCode, (e.2.1 = .bior ∨ e.2.1 = .rbio) → e.2.2 = 11 → e.1 = "bior1.1" ∨ e.1 = "rbio1.1" := by
  decide +kernel

theorem not_orthogonal_family {fam : Family} (hd : fam.isDiscrete = true) (order : ℕ) (h : (discreteInfo fam order).1 = false) :
    fam = .bior ∨ fam = .rbio := by
  cases fam <;> simp_all [discreteInfo, Family.isDiscrete]

end Pywt
