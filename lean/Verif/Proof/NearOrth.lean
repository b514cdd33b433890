import Verif.Proof.Spin
import Verif.Spec.NearOrth
import Mathlib.Algebra.Order.Chebyshev
import Mathlib.Analysis.InnerProductSpace.PiL2

/-!
# Proofs for C65
-/

namespace Pywt

open Finset Spec

set_option autoImplicit false
set_option linter.unusedSectionVars false

theorem parityCoeff_rev {r : List ℝ} (hr : 1 ≤ r.length) (p s : ℕ) : parityCoeff r r.reverse p s =
    ∑ t ∈ range r.length, ∑ u ∈ range r.length,
      if t % 2 = p ∧ t + (r.length - 1) = s + u then r.getD t 0 * r.getD u 0 else 0 := by
  unfold parityCoeff
  refine sum_congr rfl fun t _ => ?_
  rw [List.length_reverse, ← sum_range_reflect]
  refine sum_congr rfl fun u hu => ?_
  rw [mem_range] at hu
  have e : r.reverse.getD (r.length - 1 - u) 0 = r.getD u 0 := by
    rw [List.getD_eq_getElem _ _ (by simp; omega), List.getElem_reverse, List.getD_eq_getElem _ _ hu]
    congr 1
    omega
  rw [e]
  congr 1
  apply propext
  constructor <;> rintro ⟨h1, h2⟩ <;> exact ⟨h1, by omega⟩

theorem parityCoeff_symm {r : List ℝ} (hr : 1 ≤ r.length) {p p' s : ℕ} (hs : s ≤ 2 * r.length - 2)
    (hp : p < 2) (hp' : p' = (p + s + (r.length - 1)) % 2) :
    parityCoeff r r.reverse p s = parityCoeff r r.reverse p' (2 * r.length - 2 - s) := by
  rw [parityCoeff_rev hr, parityCoeff_rev hr, sum_comm]
  refine sum_congr rfl fun u _ => sum_congr rfl fun t _ => ?_
  rw [mul_comm]
  congr 1
  apply propext
  constructor <;> rintro ⟨h1, h2⟩ <;> exact ⟨by omega, by omega⟩

/-- The deviation of a bank from perfect reconstruction. -/
noncomputable def dev (w : Wavelet ℝ) (p s : ℕ) : ℝ :=
  parityCoeff w.rec_lo w.dec_lo p s + parityCoeff w.rec_hi w.dec_hi p s -
    (if s + 1 = w.dec_lo.length then 1 else 0)

theorem dev_symm {ε : ℝ} {w : Wavelet ℝ} (h : NearOrthogonal ε w) {p p' s : ℕ} (hs : s ≤ 2 * w.dec_lo.length - 2)
    (hp : p < 2) (hp' : p' = (p + s + (w.dec_lo.length - 1)) % 2) :
    dev w p s = dev w p' (2 * w.dec_lo.length - 2 - s) := by
  obtain ⟨⟨h1, h2, h3, h4, h5⟩, hr1, hr2, -⟩ := h
  unfold dev
  have e1 := parityCoeff_symm (r := w.rec_lo) (p := p) (p' := p') (s := s) (by omega) (by omega) hp (by rw [hp', h4])
  have e2 := parityCoeff_symm (r := w.rec_hi) (p := p) (p' := p') (s := s) (by omega) (by omega) hp (by rw [hp', h5])
  rw [← hr1, h4] at e1
  rw [← hr2, h5] at e2
  rw [e1, e2]
  congr 2
  apply propext
  omega

theorem parityCoeff_top {f g : List ℝ} {p s : ℕ} (hs : f.length + g.length ≤ s + 1) : parityCoeff f g p s = 0 := by
  unfold parityCoeff
  refine sum_eq_zero fun t ht => sum_eq_zero fun l hl => if_neg ?_
  rw [mem_range] at ht hl
  omega

theorem dev_top {w : Wavelet ℝ} (hw : w.Ok) (p : ℕ) : dev w p (2 * w.dec_lo.length - 1) = 0 := by
  obtain ⟨h1, h2, h3, h4, h5⟩ := hw
  unfold dev
  have : 2 ≤ w.dec_lo.length := h1
  rw [parityCoeff_top (by omega), parityCoeff_top (by omega), if_neg (by omega)]
  simp

theorem dev_row {ε : ℝ} {w : Wavelet ℝ} (h : NearOrthogonal ε w) {p : ℕ} (hp : p < 2) :
    ∑ s ∈ range (2 * w.dec_lo.length), |dev w p s| ≤ ε := h.2.2.2 p hp

/-- The deviations met on a column: the parity changes along with the tap. -/
theorem dev_col {ε : ℝ} {w : Wavelet ℝ} (h : NearOrthogonal ε w) (m : ℤ) :
    ∑ s ∈ range (2 * w.dec_lo.length), |dev w ((m + (s - (w.dec_lo.length - 1))) % 2).toNat s| ≤ ε := by
  have h1 : 2 ≤ w.dec_lo.length := h.1.1
  have hF : 2 * w.dec_lo.length = (2 * w.dec_lo.length - 1) + 1 := by omega
  refine le_trans (le_of_eq ?_) (dev_row h (p := (m % 2).toNat) (by omega))
  rw [hF, sum_range_succ, sum_range_succ, dev_top h.1, dev_top h.1, ← sum_range_reflect]
  congr 1
  refine sum_congr rfl fun s hs => ?_
  rw [mem_range] at hs
  congr 1
  rw [dev_symm h (s := 2 * w.dec_lo.length - 1 - 1 - s) (p' := (m % 2).toNat) (by omega) (by omega) (by
    push_cast [Nat.sub_sub]
    omega)]
  congr 1
  omega

theorem near_nonneg {ε : ℝ} {w : Wavelet ℝ} (h : NearOrthogonal ε w) : 0 ≤ ε :=
  le_trans (sum_nonneg fun _ _ => abs_nonneg _) (dev_row h (p := 0) (by omega))

theorem ext_per_even {x : List ℝ} (h : x.length % 2 = 0) : Spec.ext .periodization x = per x := by
  funext k
  have hev' : evenPad x = x := by unfold evenPad; rw [if_neg (by omega)]
  simp only [Spec.ext, hev', per]

/-- One level of analysis and synthesis in periodization mode. -/
noncomputable def trip (w : Wavelet ℝ) (x : List ℝ) : List ℝ :=
  synthesis .periodization w.rec_lo w.rec_hi (analysis .periodization w.dec_lo x) (analysis .periodization w.dec_hi x)

theorem trip_dev {w : Wavelet ℝ} (hw : w.Ok) {x : List ℝ} {L : ℕ} (hx : x.length = 2 * L) (hL : 1 ≤ L) :
    ∃ o : ℤ, (trip w x).length = x.length ∧ ∀ n < x.length, (trip w x).getD n 0 - x.getD n 0 =
      ∑ s ∈ range (2 * w.dec_lo.length), dev w (((n : ℤ) + o) % 2).toNat s *
        per x (n + (w.dec_lo.length - 1) - s) := by
  obtain ⟨h1, h2, h3, h4, h5⟩ := hw
  have h1 : 2 ≤ w.dec_lo.length := h1
  obtain ⟨o1, o2, ho, h⟩ := synthesis_analysis_gen h3 h4 h5 h1 h2 (mode := .periodization) (x := x) (by omega)
  refine ⟨o2, by unfold trip; rw [h]; simp; omega, fun n hn => ?_⟩
  unfold trip
  rw [h, List.getD_eq_getElem _ _ (by simp; omega)]
  simp only [List.getElem_map, List.getElem_range]
  rw [channel_eq, channel_eq, h3, h4, h5, ← sum_add_distrib, ← two_mul, ext_per_even (by omega)]
  have he : x.getD n 0 = ∑ s ∈ range (2 * w.dec_lo.length),
      (if s + 1 = w.dec_lo.length then (1 : ℝ) else 0) • per x (n + o2 + o1 - s) := by
    rw [sum_eq_single (w.dec_lo.length - 1)]
    · rw [if_pos (by omega), one_smul, ← per_nat hn]
      congr 1; omega
    · intro s _ hs
      rw [if_neg (by omega), zero_smul]
    · intro h
      simp only [mem_range] at h
      omega
  rw [he, ← sum_sub_distrib]
  refine sum_congr rfl fun s _ => ?_
  rw [← add_smul, ← sub_smul, smul_eq_mul, dev]
  congr 2
  omega

theorem energy_sum (x : List ℝ) : energy x = ∑ n ∈ range x.length, x.getD n 0 * x.getD n 0 := by
  rw [energy, list_sum_sq]

theorem energy_nonneg (x : List ℝ) : 0 ≤ energy x := by
  rw [energy_sum]
  exact sum_nonneg fun _ _ => mul_self_nonneg _

theorem dist2_sum {x y : List ℝ} (h : y.length = x.length) :
    dist2 x y = ∑ n ∈ range x.length, (x.getD n 0 - y.getD n 0) * (x.getD n 0 - y.getD n 0) := by
  rw [dist2_eq_energy, energy_sum, List.length_zipWith, h, min_self]
  refine sum_congr rfl fun n hn => ?_
  rw [mem_range] at hn
  rw [List.getD_eq_getElem _ _ (by simp; omega), List.getElem_zipWith, List.getD_eq_getElem _ _ hn,
    List.getD_eq_getElem _ _ (by omega)]

/-- The round trip of one level, in the Euclidean norm. -/
theorem trip_dist {ε : ℝ} {w : Wavelet ℝ} (h : NearOrthogonal ε w) {x : List ℝ} {L : ℕ} (hx : x.length = 2 * L)
    (hL : 1 ≤ L) : (trip w x).length = x.length ∧ dist2 (trip w x) x ≤ ε ^ 2 * energy x := by
  have hε := near_nonneg h
  obtain ⟨o, hl, ht⟩ := trip_dev h.1 hx hL
  refine ⟨hl, ?_⟩
  set F := w.dec_lo.length with hF
  have hper : ∀ n t : ℤ, per x (n + (x.length : ℤ) + t) = per x (n + t) := fun n t => per_congr ⟨1, by ring⟩
  calc dist2 (trip w x) x
      = ∑ n ∈ range x.length, ((trip w x).getD n 0 - x.getD n 0) ^ 2 := by
        rw [dist2_sum hl.symm, hl]; exact sum_congr rfl fun n _ => by ring
    _ ≤ ∑ n ∈ range x.length, ε * ∑ s ∈ range (2 * F), |dev w (((n : ℤ) + o) % 2).toNat s| *
          per x (n + (F - 1) - s) ^ 2 := by
        refine sum_le_sum fun n hn => ?_
        rw [ht n (mem_range.1 hn)]
        calc (∑ s ∈ range (2 * F), dev w (((n : ℤ) + o) % 2).toNat s * per x (n + (F - 1) - s)) ^ 2
            ≤ (∑ s ∈ range (2 * F), |dev w (((n : ℤ) + o) % 2).toNat s|) *
                ∑ s ∈ range (2 * F), |dev w (((n : ℤ) + o) % 2).toNat s| * per x (n + (F - 1) - s) ^ 2 :=
              sum_sq_le_sum_mul_sum_of_sq_le_mul _ (fun _ _ => abs_nonneg _)
                (fun _ _ => mul_nonneg (abs_nonneg _) (sq_nonneg _)) fun s _ => by
                  rw [mul_pow, ← mul_assoc, abs_mul_abs_self]; exact le_of_eq (by ring)
          _ ≤ _ := mul_le_mul_of_nonneg_right (dev_row h (by omega))
              (sum_nonneg fun _ _ => mul_nonneg (abs_nonneg _) (sq_nonneg _))
    _ = ε * ∑ s ∈ range (2 * F), ∑ n ∈ range x.length,
          (fun q : ℤ => |dev w ((q + o) % 2).toNat s| * per x (q + (F - 1) - s) ^ 2) n := by
        rw [← mul_sum, sum_comm]
    _ = ε * ∑ s ∈ range (2 * F), ∑ n ∈ range x.length,
          (fun q : ℤ => |dev w ((q + o) % 2).toNat s| * per x (q + (F - 1) - s) ^ 2) (n + (s - (F - 1))) := by
        congr 1
        refine sum_congr rfl fun s _ => ?_
        refine (sum_period_shift (g := fun q : ℤ => |dev w ((q + o) % 2).toNat s| * per x (q + (F - 1) - s) ^ 2)
          (fun q => ?_) _).symm
        have e1 : (q + (x.length : ℤ) + o) % 2 = (q + o) % 2 := by omega
        have e2 : q + (x.length : ℤ) + (F - 1) - s = q + (x.length : ℤ) + (F - 1 - s) := by ring
        have e3 : q + ((F : ℤ) - 1) - s = q + (F - 1 - s) := by ring
        simp only [e1]
        rw [e2, e3, hper]
    _ = ε * ∑ n ∈ range x.length, (∑ s ∈ range (2 * F), |dev w ((((n : ℤ) + o) + (s - (F - 1))) % 2).toNat s|) *
          x.getD n 0 ^ 2 := by
        congr 1
        rw [sum_comm]
        refine sum_congr rfl fun n hn => ?_
        rw [sum_mul]
        refine sum_congr rfl fun s _ => ?_
        simp only
        rw [← per_nat (mem_range.1 hn)]
        congr 3
        · congr 2; ring
        · ring
    _ ≤ ε * ∑ n ∈ range x.length, ε * x.getD n 0 ^ 2 :=
        mul_le_mul_of_nonneg_left (sum_le_sum fun n _ =>
          mul_le_mul_of_nonneg_right (dev_col h _) (sq_nonneg _)) hε
    _ = ε ^ 2 * energy x := by
        rw [← mul_sum, energy_sum, ← mul_assoc, ← sq]
        congr 1
        exact sum_congr rfl fun n _ => by ring

/-- Analysis and synthesis are adjoint to each other. -/
theorem bank_adjoint {ε : ℝ} {w : Wavelet ℝ} (h : NearOrthogonal ε w) {x a d : List ℝ} {L : ℕ}
    (hx : x.length = 2 * L) (hL : 1 ≤ L) (ha : a.length = L) (hd : d.length = L) :
    ∑ o ∈ range L, a.getD o 0 * (analysis .periodization w.dec_lo x).getD o 0 +
        ∑ o ∈ range L, d.getD o 0 * (analysis .periodization w.dec_hi x).getD o 0 =
      ∑ n ∈ range (2 * L), x.getD n 0 * (synthesis .periodization w.rec_lo w.rec_hi a d).getD n 0 := by
  obtain ⟨⟨h1, h2, h3, h4, h5⟩, hr1, hr2, -⟩ := h
  have key : ∀ f : List ℝ, f.length = w.dec_lo.length → ∀ u : List ℝ, u.length = L →
      ∑ o ∈ range L, u.getD o 0 * (analysis .periodization f x).getD o 0 =
      ∑ n ∈ range (2 * L), x.getD n 0 * conv f.reverse (upsample (Spec.ext .periodic u))
        ((n : ℤ) + ((f.length / 2 : ℕ) - 1)) := by
    intro f hf u hu
    have hlen : (analysis .periodization f x).length = L := by
      rw [analysis_length]; simp [coeffLen]; omega
    rw [← analysis_adjoint (by omega) hx hu]
    refine sum_congr rfl fun o ho => ?_
    rw [mem_range] at ho
    congr 1
    rw [List.getD_eq_getElem (hn := by omega)]
    simp only [analysis, List.getElem_map, List.getElem_range]
    rw [ext_per_even (by omega)]
    rfl
  rw [key _ rfl a ha, key _ h3 d hd, ← sum_add_distrib]
  refine sum_congr rfl fun n hn => ?_
  rw [mem_range] at hn
  rw [← mul_add, List.getD_eq_getElem (l := synthesis _ _ _ _ _) (hn := by simp [synthesis]; omega)]
  simp only [synthesis, List.getElem_map, List.getElem_range]
  rw [hr1, hr2, List.reverse_reverse, List.reverse_reverse, List.length_reverse, List.length_reverse,
    show w.rec_hi.length = w.rec_lo.length by omega]

theorem analysis_lens {w : Wavelet ℝ} {x : List ℝ} {L : ℕ} (hx : x.length = 2 * L) :
    (analysis .periodization w.dec_lo x).length = L ∧ (analysis .periodization w.dec_hi x).length = L := by
  constructor <;> (rw [analysis_length]; simp [coeffLen]; omega)

/-- Cauchy–Schwarz for sums over the samples. -/
theorem cauchy (N : ℕ) (u v : ℕ → ℝ) :
    (∑ n ∈ range N, u n * v n) ^ 2 ≤ (∑ n ∈ range N, u n * u n) * ∑ n ∈ range N, v n * v n :=
  sum_sq_le_sum_mul_sum_of_sq_le_mul _ (fun _ _ => mul_self_nonneg _) (fun _ _ => mul_self_nonneg _)
    fun n _ => le_of_eq (by ring)

/-- The energy of the coefficients of one level is nearly that of the signal. -/
theorem analysis_energy {ε : ℝ} {w : Wavelet ℝ} (h : NearOrthogonal ε w) {x : List ℝ} {L : ℕ}
    (hx : x.length = 2 * L) (hL : 1 ≤ L) :
    |energy (analysis .periodization w.dec_lo x) + energy (analysis .periodization w.dec_hi x) - energy x| ≤
      ε * energy x := by
  obtain ⟨l1, l2⟩ := analysis_lens (w := w) hx
  have hadj := bank_adjoint h hx hL l1 l2
  obtain ⟨hl, hd⟩ := trip_dist h hx hL
  have e : energy (analysis .periodization w.dec_lo x) + energy (analysis .periodization w.dec_hi x) - energy x =
      ∑ n ∈ range x.length, x.getD n 0 * ((trip w x).getD n 0 - x.getD n 0) := by
    rw [energy_sum (analysis _ _ _), energy_sum (analysis _ _ _), l1, l2, hadj, energy_sum, hx, ← sum_sub_distrib]
    refine sum_congr rfl fun n _ => ?_
    unfold trip
    ring
  have hc := cauchy x.length (fun n => x.getD n 0) fun n => (trip w x).getD n 0 - x.getD n 0
  rw [← e, ← energy_sum, ← hl, ← dist2_sum hl.symm] at hc
  have he := energy_nonneg x
  apply abs_le_of_sq_le_sq _ (mul_nonneg (near_nonneg h) he)
  calc _ ≤ energy x * dist2 (trip w x) x := hc
    _ ≤ energy x * (ε ^ 2 * energy x) := mul_le_mul_of_nonneg_left hd he
    _ = _ := by ring

/-- The energy of one level of synthesis. -/
theorem synthesis_energy {ε : ℝ} {w : Wavelet ℝ} (h : NearOrthogonal ε w) {a d : List ℝ} (ha : 1 ≤ a.length)
    (hd : d.length = a.length) :
    energy (synthesis .periodization w.rec_lo w.rec_hi a d) ≤ (1 + ε) * (energy a + energy d) := by
  set y := synthesis .periodization w.rec_lo w.rec_hi a d with hy
  have hyl : y.length = 2 * a.length := by simp [hy, synthesis]
  obtain ⟨l1, l2⟩ := analysis_lens (w := w) hyl
  have hadj := bank_adjoint h hyl ha rfl hd
  rw [← hy, ← hyl, ← energy_sum] at hadj
  have hA := abs_le.1 (analysis_energy h hyl ha)
  have hy0 := energy_nonneg y
  have ha0 := energy_nonneg a
  have hd0 := energy_nonneg d
  set A := analysis .periodization w.dec_lo y
  set D := analysis .periodization w.dec_hi y
  have hA0 := energy_nonneg A
  have hD0 := energy_nonneg D
  have c1 := cauchy a.length (fun n => a.getD n 0) fun n => A.getD n 0
  have c2 := cauchy a.length (fun n => d.getD n 0) fun n => D.getD n 0
  have eA : ∑ n ∈ range a.length, A.getD n 0 * A.getD n 0 = energy A := by rw [energy_sum, l1]
  have eD : ∑ n ∈ range a.length, D.getD n 0 * D.getD n 0 = energy D := by rw [energy_sum, l2]
  have ed : ∑ n ∈ range a.length, d.getD n 0 * d.getD n 0 = energy d := by rw [energy_sum, hd]
  rw [← energy_sum, eA] at c1
  rw [ed, eD] at c2
  set p := ∑ n ∈ range a.length, a.getD n 0 * A.getD n 0
  set q := ∑ n ∈ range a.length, d.getD n 0 * D.getD n 0
  -- (p + q)² ≤ (a + d)(A + D)
  have hpq : (p + q) ^ 2 ≤ (energy a + energy d) * (energy A + energy D) := by
    have := sum_sq_le_sum_mul_sum_of_sq_le_mul (univ : Finset Bool) (r := fun b => if b then p else q)
      (f := fun b => if b then energy a else energy d) (g := fun b => if b then energy A else energy D)
      (by intro b _; cases b <;> simpa) (by intro b _; cases b <;> simpa) (by intro b _; cases b <;> simpa)
    simpa using this
  rw [hadj] at hpq
  rcases eq_or_lt_of_le hy0 with h0 | h0
  · rw [← h0]
    exact mul_nonneg (by have := near_nonneg h; linarith) (by linarith)
  · have : energy y * energy y ≤ ((1 + ε) * (energy a + energy d)) * energy y := by
      calc _ = energy y ^ 2 := by ring
        _ ≤ _ := hpq
        _ ≤ (energy a + energy d) * ((1 + ε) * energy y) :=
            mul_le_mul_of_nonneg_left (by linarith [hA.2]) (by linarith)
        _ = _ := by ring
    exact le_of_mul_le_mul_right this h0

/-! ## Several levels -/

theorem cascade_snoc (mode : Mode) (lo hi : List ℝ) (n : ℕ) (x : List ℝ) :
    cascade mode lo hi (n + 1) x = cascade mode lo hi n (analysis mode lo x) ++ [analysis mode hi x] := by
  unfold cascade
  have e1 : approx mode lo (n + 1) x = approx mode lo n (analysis mode lo x) := by
    simp [approx, Function.iterate_succ_apply]
  rw [e1, List.range_succ_eq_map, List.map_cons, List.reverse_cons, List.map_map, List.cons_append]
  rfl

theorem cascade_energy {ε : ℝ} {w : Wavelet ℝ} (h : NearOrthogonal ε w) (hε : ε ≤ 1) : ∀ (l : ℕ) (x : List ℝ),
    1 ≤ x.length → 2 ^ l ∣ x.length →
    (1 - ε) ^ l * energy x ≤ ((cascade .periodization w.dec_lo w.dec_hi l x).map energy).sum ∧
      ((cascade .periodization w.dec_lo w.dec_hi l x).map energy).sum ≤ (1 + ε) ^ l * energy x
  | 0, x, _, _ => by simp [cascade, approx]
  | l + 1, x, hx, hd => by
      obtain ⟨m, hm⟩ := hd
      have hm' : x.length = 2 * (2 ^ l * m) := by rw [hm, pow_succ]; ring
      obtain ⟨l1, l2⟩ := analysis_lens (w := w) hm'
      have hm1 : 1 ≤ 2 ^ l * m := by omega
      obtain ⟨i1, i2⟩ := cascade_energy h hε l (analysis .periodization w.dec_lo x) (by omega)
        (by rw [l1]; exact Dvd.intro _ rfl)
      have hA := abs_le.1 (analysis_energy h hm' hm1)
      rw [cascade_snoc, List.map_append, List.sum_append]
      simp only [List.map_cons, List.map_nil, List.sum_cons, List.sum_nil, add_zero]
      have hε0 := near_nonneg h
      have a0 := energy_nonneg (analysis .periodization w.dec_lo x)
      have d0 := energy_nonneg (analysis .periodization w.dec_hi x)
      set A := energy (analysis .periodization w.dec_lo x)
      set D := energy (analysis .periodization w.dec_hi x)
      have p1 : (1 - ε) ^ l ≤ 1 := pow_le_one₀ (by linarith) (by linarith)
      have p2 : 1 ≤ (1 + ε) ^ l := one_le_pow₀ (by linarith)
      have p3 : 0 ≤ (1 - ε) ^ l := pow_nonneg (by linarith) _
      constructor
      · calc (1 - ε) ^ (l + 1) * energy x = (1 - ε) ^ l * ((1 - ε) * energy x) := by ring
          _ ≤ (1 - ε) ^ l * (A + D) := mul_le_mul_of_nonneg_left (by linarith [hA.1]) p3
          _ = (1 - ε) ^ l * A + (1 - ε) ^ l * D := by ring
          _ ≤ _ := add_le_add i1 (by nlinarith)
      · calc _ ≤ (1 + ε) ^ l * A + (1 + ε) ^ l * D := add_le_add i2 (by nlinarith)
          _ = (1 + ε) ^ l * (A + D) := by ring
          _ ≤ (1 + ε) ^ l * ((1 + ε) * energy x) := mul_le_mul_of_nonneg_left (by linarith [hA.2]) (by linarith)
          _ = _ := by ring

theorem recPer_energy {ε : ℝ} {w : Wavelet ℝ} (h : NearOrthogonal ε w) : ∀ (ds : List (List ℝ)) (a : List ℝ),
    1 ≤ a.length → DoublingLengths a.length ds →
    energy (recPer w.rec_lo w.rec_hi ds a) ≤ (1 + ε) ^ ds.length * (energy a + (ds.map energy).sum)
  | [], a, _, _ => by simp [recPer]
  | d :: ds, a, ha, hd => by
      have hε0 := near_nonneg h
      have hl : (synthesis .periodization w.rec_lo w.rec_hi a d).length = 2 * a.length := by simp [synthesis]
      have ih := recPer_energy h ds (synthesis .periodization w.rec_lo w.rec_hi a d) (by omega)
        (by rw [hl]; exact hd.2)
      have hs := synthesis_energy h ha hd.1
      have p2 : 0 ≤ (1 + ε) ^ ds.length := pow_nonneg (by linarith) _
      have s0 : 0 ≤ (ds.map energy).sum := List.sum_nonneg fun v hv => by
        obtain ⟨u, -, rfl⟩ := List.mem_map.1 hv
        exact energy_nonneg u
      rw [recPer, List.map_cons, List.sum_cons, List.length_cons]
      refine ih.trans ?_
      calc _ ≤ (1 + ε) ^ ds.length * ((1 + ε) * (energy a + energy d) + (1 + ε) * (ds.map energy).sum) :=
            mul_le_mul_of_nonneg_left (by nlinarith) p2
        _ = _ := by ring

theorem recPer_map {R M M' : Type} [CommRing R] [AddCommGroup M] [Module R M] [AddCommGroup M'] [Module R M']
    (φ : M →ₗ[R] M') (lo hi : List R) : ∀ (ds : List (List M)) (a : List M),
    recPer lo hi (ds.map fun d => d.map φ) (a.map φ) = (recPer lo hi ds a).map φ
  | [], _ => rfl
  | d :: ds, a => by
      simp only [List.map_cons, recPer]
      rw [synthesis_map, recPer_map φ lo hi ds]

theorem zip_lists : ∀ {ds es : List (List ℝ)}, ds.map List.length = es.map List.length →
    (List.zipWith List.zip ds es).map (fun d => d.map (LinearMap.fst ℝ ℝ ℝ)) = ds ∧
    (List.zipWith List.zip ds es).map (fun d => d.map (LinearMap.snd ℝ ℝ ℝ)) = es ∧
    (List.zipWith List.zip ds es).map List.length = ds.map List.length ∧
    (((List.zipWith List.zip ds es).map fun d => d.map (LinearMap.fst ℝ ℝ ℝ - LinearMap.snd ℝ ℝ ℝ)).map energy).sum =
      dist2s ds es
  | [], [], _ => by simp [dist2s]
  | d :: ds, e :: es, h => by
      simp only [List.map_cons, List.cons.injEq] at h
      obtain ⟨i1, i2, i3, i4⟩ := zip_lists h.2
      refine ⟨by rw [List.zipWith_cons_cons, List.map_cons, i1, zip_map_fst' h.1],
        by rw [List.zipWith_cons_cons, List.map_cons, i2, zip_map_snd' h.1],
        by rw [List.zipWith_cons_cons, List.map_cons, i3, List.map_cons, List.length_zip, h.1, min_self], ?_⟩
      simp only [List.zipWith_cons_cons, List.map_cons, List.sum_cons, dist2s] at i4 ⊢
      rw [i4, ← dist2_pairs, zip_map_fst' h.1, zip_map_snd' h.1]
  | [], _ :: _, h => by simp at h
  | _ :: _, [], h => by simp at h

/-- Two reconstructions are nearly no farther apart than their coefficients. -/
theorem recPer_dist {ε : ℝ} {w : Wavelet ℝ} (h : NearOrthogonal ε w) {ds es : List (List ℝ)} {a b : List ℝ}
    (ha : 1 ≤ a.length) (hab : a.length = b.length) (hl : ds.map List.length = es.map List.length)
    (hd : DoublingLengths a.length ds) :
    dist2 (recPer w.rec_lo w.rec_hi ds a) (recPer w.rec_lo w.rec_hi es b) ≤
      (1 + ε) ^ ds.length * dist2s (a :: ds) (b :: es) := by
  obtain ⟨i1, i2, i3, i4⟩ := zip_lists hl
  set zs := List.zipWith List.zip ds es with hzs
  have hzl : zs.length = ds.length := by have := congrArg List.length i3; simpa using this
  have e1 : recPer w.rec_lo w.rec_hi ds a = (recPer w.rec_lo w.rec_hi zs (a.zip b)).map (LinearMap.fst ℝ ℝ ℝ) := by
    rw [← recPer_map, i1, zip_map_fst' hab]
  have e2 : recPer w.rec_lo w.rec_hi es b = (recPer w.rec_lo w.rec_hi zs (a.zip b)).map (LinearMap.snd ℝ ℝ ℝ) := by
    rw [← recPer_map, i2, zip_map_snd' hab]
  rw [e1, e2, dist2_pairs, ← recPer_map]
  have hal : ((a.zip b).map (LinearMap.fst ℝ ℝ ℝ - LinearMap.snd ℝ ℝ ℝ)).length = a.length := by simp [hab]
  have := recPer_energy h (zs.map fun d => d.map (LinearMap.fst ℝ ℝ ℝ - LinearMap.snd ℝ ℝ ℝ))
    ((a.zip b).map (LinearMap.fst ℝ ℝ ℝ - LinearMap.snd ℝ ℝ ℝ)) (by rw [hal]; exact ha)
    (by rw [hal]; exact doubling_of_lens (by rw [← i3, List.map_map]; simp [Function.comp_def]) hd)
  rw [i4, List.length_map, hzl, ← dist2_pairs, zip_map_fst' hab, zip_map_snd' hab] at this
  simpa [dist2s] using this

/-! ## The round trip of several levels -/

theorem dist2_triangle {x y z : List ℝ} (h1 : y.length = x.length) (h2 : z.length = x.length) :
    √(dist2 x z) ≤ √(dist2 x y) + √(dist2 y z) := by
  have e : ∀ {u v : List ℝ}, v.length = x.length → u.length = x.length → √(dist2 u v) =
      ‖(WithLp.toLp 2 (fun i : Fin x.length => u.getD i 0 - v.getD i 0) : EuclideanSpace ℝ (Fin x.length))‖ := by
    intro u v hv hu
    rw [EuclideanSpace.norm_eq, dist2_sum (hv.trans hu.symm), hu, sum_range]
    congr 1
    refine sum_congr rfl fun i _ => ?_
    rw [Real.norm_eq_abs, sq_abs]
    ring
  rw [e h2 rfl, e h1 rfl, e h2 h1]
  refine le_trans (le_of_eq ?_) (norm_add_le _ _)
  congr 1
  ext i
  simp

theorem recPer_snoc {R M : Type} [CommRing R] [AddCommGroup M] [Module R M] (lo hi : List R) (d : List M) :
    ∀ (ds : List (List M)) (a : List M), recPer lo hi (ds ++ [d]) a = synthesis .periodization lo hi (recPer lo hi ds a) d
  | [], _ => rfl
  | _ :: ds, _ => by rw [List.cons_append, recPer, recPer, recPer_snoc lo hi d ds]

/-- Analysis and synthesis over `l` levels in periodization mode. -/
noncomputable def tripL (w : Wavelet ℝ) : ℕ → List ℝ → List ℝ
  | 0, x => x
  | l + 1, x => synthesis .periodization w.rec_lo w.rec_hi (tripL w l (analysis .periodization w.dec_lo x))
      (analysis .periodization w.dec_hi x)

theorem tripL_eq (w : Wavelet ℝ) : ∀ (l : ℕ) (x a : List ℝ) (ds : List (List ℝ)),
    cascade .periodization w.dec_lo w.dec_hi l x = a :: ds → recPer w.rec_lo w.rec_hi ds a = tripL w l x
  | 0, x, a, ds, h => by
      simp only [cascade, approx, Function.iterate_zero, id, List.range_zero, List.map_nil, List.reverse_nil,
        List.cons.injEq] at h
      rw [← h.1, ← h.2]
      rfl
  | l + 1, x, a, ds, h => by
      rw [cascade_snoc] at h
      cases hc : cascade .periodization w.dec_lo w.dec_hi l (analysis .periodization w.dec_lo x) with
      | nil => simp [cascade] at hc
      | cons b es =>
        rw [hc, List.cons_append, List.cons.injEq] at h
        rw [← h.1, ← h.2, recPer_snoc, tripL_eq w l _ _ _ hc, tripL]

theorem dist2_self (x : List ℝ) : dist2 x x = 0 := by
  rw [dist2_sum rfl]; simp

theorem dist2_zeros (x : List ℝ) : dist2 x (List.replicate x.length 0) = energy x := by
  rw [dist2_sum (by simp), energy_sum]
  refine sum_congr rfl fun n hn => ?_
  rw [mem_range] at hn
  rw [List.getD_eq_getElem (l := List.replicate _ _) (hn := by simpa using hn)]
  simp

/-- The round trip over `l` levels, in the Euclidean norm. -/
theorem tripL_dist {ε : ℝ} {w : Wavelet ℝ} (h : NearOrthogonal ε w) : ∀ (l : ℕ) (x : List ℝ), 1 ≤ x.length →
    2 ^ l ∣ x.length → (tripL w l x).length = x.length ∧
      √(dist2 (tripL w l x) x) ≤ ((1 + ε) ^ l - 1) * √(energy x)
  | 0, x, _, _ => by simp [tripL, dist2_self]
  | l + 1, x, hx, hd => by
      obtain ⟨m, hm⟩ := hd
      have hε0 := near_nonneg h
      have hm' : x.length = 2 * (2 ^ l * m) := by rw [hm, pow_succ]; ring
      obtain ⟨l1, l2⟩ := analysis_lens (w := w) hm'
      have hm1 : 1 ≤ 2 ^ l * m := by omega
      obtain ⟨i1, i2⟩ := tripL_dist h l (analysis .periodization w.dec_lo x) (by omega)
        (by rw [l1]; exact Dvd.intro _ rfl)
      obtain ⟨t1, t2⟩ := trip_dist h hm' hm1
      have hA := (abs_le.1 (analysis_energy h hm' hm1)).2
      have hlen : (tripL w (l + 1) x).length = x.length := by simp [tripL, synthesis, i1, l1, hm']
      refine ⟨hlen, ?_⟩
      refine (dist2_triangle (y := trip w x) (by rw [t1, hlen]) (by rw [hlen])).trans ?_
      set A := analysis .periodization w.dec_lo x
      set D := analysis .periodization w.dec_hi x
      have hs : dist2 (tripL w (l + 1) x) (trip w x) ≤ (1 + ε) * dist2 (tripL w l A) A := by
        have := recPer_dist (ds := [D]) (es := [D]) (a := tripL w l A) (b := A) h (by omega) i1 rfl
          ⟨by omega, trivial⟩
        simpa [recPer, dist2s, dist2_self, tripL, trip] using this
      have p1 : 1 ≤ (1 + ε) ^ l := one_le_pow₀ (by linarith)
      have hx0 := energy_nonneg x
      have hs1 : √(1 + ε) * √(1 + ε) = 1 + ε := Real.mul_self_sqrt (by linarith)
      have hsA : √(energy A) ≤ √(1 + ε) * √(energy x) := by
        rw [← Real.sqrt_mul (by linarith)]
        exact Real.sqrt_le_sqrt (by linarith [energy_nonneg D])
      have b1 : √(dist2 (tripL w (l + 1) x) (trip w x)) ≤ (1 + ε) * (((1 + ε) ^ l - 1) * √(energy x)) := by
        calc _ ≤ √((1 + ε) * dist2 (tripL w l A) A) := Real.sqrt_le_sqrt hs
          _ = √(1 + ε) * √(dist2 (tripL w l A) A) := Real.sqrt_mul (by linarith) _
          _ ≤ √(1 + ε) * (((1 + ε) ^ l - 1) * (√(1 + ε) * √(energy x))) :=
              mul_le_mul_of_nonneg_left (i2.trans (mul_le_mul_of_nonneg_left hsA (by linarith))) (Real.sqrt_nonneg _)
          _ = (√(1 + ε) * √(1 + ε)) * (((1 + ε) ^ l - 1) * √(energy x)) := by ring
          _ = _ := by rw [hs1]
      have b2 : √(dist2 (trip w x) x) ≤ ε * √(energy x) := by
        calc _ ≤ √(ε ^ 2 * energy x) := Real.sqrt_le_sqrt t2
          _ = _ := by rw [Real.sqrt_mul (sq_nonneg _), Real.sqrt_sq hε0]
      calc _ ≤ (1 + ε) * (((1 + ε) ^ l - 1) * √(energy x)) + ε * √(energy x) := add_le_add b1 b2
        _ = _ := by ring

end Pywt
