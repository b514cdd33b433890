import Verif.Spec.Adjoint
import Verif.Proof.Energy
import Verif.Proof.SynthN
import Verif.Proof.AxisMulti
import Verif.Model.Objects

/-!
# The adjoint of the decimated transform
-/

namespace Pywt

open Finset Spec

set_option linter.unusedSectionVars false

variable {R : Type} [CommRing R]

theorem sprod_eq (x y : List R) : sprod x y = ∑ i ∈ range x.length, x.getD i 0 * y.getD i 0 := by
  unfold sprod
  induction x generalizing y with
  | nil => simp
  | cons a x ih =>
    cases y with
    | nil => simp
    | cons b y =>
      rw [List.zipWith_cons_cons, List.sum_cons, ih, List.length_cons, sum_range_succ']
      simp [add_comm]

theorem sprod_take (x y : List R) : sprod x (y.take x.length) = sprod x y := by
  rw [sprod_eq, sprod_eq]
  refine sum_congr rfl fun i hi => ?_
  rw [mem_range] at hi
  simp only [List.getD_eq_getElem?_getD]
  rw [List.getElem?_take_of_lt hi]

theorem sprod_comm (x y : List R) : sprod x y = sprod y x := by
  unfold sprod
  rw [List.zipWith_comm]
  simp only [mul_comm]

/-- The zero-padded analysis step and its adjoint. -/
theorem analysis_adjoint_zero {f : List R} {x a : List R} :
    ∑ o ∈ range a.length, a.getD o 0 * conv f (Spec.ext .zero x) (2 * o + 1) =
      ∑ n ∈ range x.length, x.getD n 0 *
        conv f.reverse (upsample (Spec.ext .zero a)) ((n : ℤ) + (f.length - 2)) := by
  have hl : ∑ o ∈ range a.length, a.getD o 0 * conv f (Spec.ext .zero x) (2 * o + 1) =
      ∑ j ∈ range f.length, f.getD j 0 * ∑ o ∈ range a.length,
        a.getD o 0 * Spec.ext .zero x (2 * o + 1 - j) := by
    simp only [conv, mul_sum, smul_eq_mul]
    rw [sum_comm]
    apply sum_congr rfl; intro j _
    apply sum_congr rfl; intro o _
    ring
  have hr : ∑ n ∈ range x.length, x.getD n 0 *
        conv f.reverse (upsample (Spec.ext .zero a)) ((n : ℤ) + (f.length - 2)) =
      ∑ j ∈ range f.length, f.getD j 0 * ∑ n ∈ range x.length,
        x.getD n 0 * upsample (Spec.ext .zero a) ((n : ℤ) - 1 + j) := by
    simp only [conv, mul_sum, smul_eq_mul, List.length_reverse]
    rw [sum_comm, ← sum_range_reflect]
    apply sum_congr rfl; intro j hj
    rw [mem_range] at hj
    apply sum_congr rfl; intro n _
    have e1 : f.reverse.getD (f.length - 1 - j) 0 = f.getD j 0 := by
      rw [List.getD_eq_getElem (hn := by simp; omega), List.getD_eq_getElem (hn := hj),
        List.getElem_reverse]
      congr 1
      omega
    have e2 : (n : ℤ) + (f.length - 2) - ((f.length - 1 - j : ℕ) : ℤ) = n - 1 + j := by omega
    rw [e1, e2]
    ring
  rw [hl, hr]
  apply sum_congr rfl
  intro j _
  congr 1
  have hx : ∀ p : ℤ, Spec.ext .zero x p = ∑ n ∈ range x.length, if (n : ℤ) = p then x.getD n 0 else 0 := by
    intro p
    by_cases hp : 0 ≤ p ∧ p < x.length
    · obtain ⟨k, rfl⟩ : ∃ k : ℕ, p = k := ⟨p.toNat, by omega⟩
      rw [ext_zero_in _ (by omega), sum_eq_single k]
      · simp
      · intro b _ hb
        rw [if_neg (by omega)]
      · intro h; exact absurd (mem_range.2 (by omega)) h
    · rw [ext_zero_out _ (by omega), sum_eq_zero]
      intro n hn
      rw [mem_range] at hn
      rw [if_neg (by omega)]
  have ha : ∀ p : ℤ, upsample (Spec.ext .zero a) p =
      ∑ o ∈ range a.length, if (2 * o : ℤ) = p then a.getD o 0 else 0 := by
    intro p
    unfold upsample
    by_cases hp : p % 2 = 0 ∧ 0 ≤ p ∧ p / 2 < a.length
    · obtain ⟨k, rfl⟩ : ∃ k : ℕ, p = 2 * k := ⟨(p / 2).toNat, by omega⟩
      rw [if_pos hp.1, show (2 * (k : ℤ)) / 2 = k by omega, ext_zero_in _ (by omega), sum_eq_single k]
      · simp
      · intro b _ hb
        rw [if_neg (by omega)]
      · intro h; exact absurd (mem_range.2 (by omega)) h
    · rw [sum_eq_zero]
      · split_ifs with h
        · exact ext_zero_out _ (by omega)
        · rfl
      · intro o ho
        rw [mem_range] at ho
        rw [if_neg (by omega)]
  simp only [hx, ha, mul_sum]
  rw [sum_comm]
  refine sum_congr rfl fun n _ => sum_congr rfl fun o _ => ?_
  by_cases h : (n : ℤ) = 2 * o + 1 - j
  · rw [if_pos h, if_pos (by omega), mul_comm]
  · rw [if_neg h, if_neg (by omega), mul_zero, mul_zero]

/-- One line: the analysis step and its adjoint, in the modes that copy no samples. -/
theorem analysis_sprod {mode : Mode} {f x c : List R} (hm : NoCopies mode x.length) (hF : f.length % 2 = 0)
    (hF2 : 2 ≤ f.length) (hc : c.length = coeffLen mode x.length f.length) :
    sprod (analysis mode f x) c = sprod x (synthesis1 mode f.reverse c) := by
  rw [sprod_eq, sprod_eq, analysis_length]
  rcases hm with rfl | ⟨rfl, hN⟩
  · have h1 : ∀ i ∈ range (coeffLen .zero x.length f.length), (analysis .zero f x).getD i 0 * c.getD i 0 =
        c.getD i 0 * conv f (Spec.ext .zero x) (2 * i + 1) := by
      intro i hi
      rw [mem_range] at hi
      have hi' : i < (analysis .zero f x).length := by rw [analysis_length]; exact hi
      rw [List.getD_eq_getElem _ _ hi', mul_comm]
      simp [analysis]
    rw [sum_congr rfl h1, ← hc, analysis_adjoint_zero]
    refine sum_congr rfl fun n hn => ?_
    rw [mem_range] at hn
    congr 1
    have hn' : n < (synthesis1 .zero f.reverse c).length := by
      rw [synthesis1_length, hc, List.length_reverse, synthLen_coeffLen hF hF2]
      omega
    rw [List.getD_eq_getElem _ _ hn']
    simp [synthesis1]
  · obtain ⟨L, hL⟩ : ∃ L, x.length = 2 * L := ⟨x.length / 2, by omega⟩
    have hcL : c.length = L := by rw [hc, coeffLen, if_pos rfl]; omega
    have h1 : ∀ i ∈ range (coeffLen .periodization x.length f.length),
        (analysis .periodization f x).getD i 0 * c.getD i 0 =
        c.getD i 0 * conv f (Spec.ext .periodic x) ((f.length / 2 : ℕ) + 2 * i) := by
      intro i hi
      rw [mem_range] at hi
      have hi' : i < (analysis .periodization f x).length := by rw [analysis_length]; exact hi
      have he : Spec.ext .periodization x = Spec.ext .periodic x := by
        funext p
        simp [Spec.ext, evenPad, hN]
      rw [List.getD_eq_getElem _ _ hi', mul_comm]
      simp [analysis, he]
    rw [sum_congr rfl h1, ← hc, hcL, analysis_adjoint hF hL hcL, hL]
    refine sum_congr rfl fun n hn => ?_
    rw [mem_range] at hn
    congr 1
    have hn' : n < (synthesis1 .periodization f.reverse c).length := by
      rw [synthesis1_length, hcL]
      simp [synthLen, hn]
    rw [List.getD_eq_getElem _ _ hn']
    simp [synthesis1]

theorem sprod_synthesis {mode : Mode} {lo hi x a d : List R} (hl : hi.length = lo.length) (had : a.length = d.length) :
    sprod x (synthesis mode lo hi a d) = sprod x (synthesis1 mode lo a) + sprod x (synthesis1 mode hi d) := by
  rw [sprod_eq, sprod_eq, sprod_eq, ← sum_add_distrib]
  refine sum_congr rfl fun i _ => ?_
  rw [← mul_add]
  congr 1
  by_cases hi' : i < synthLen mode a.length lo.length
  · have h1 : i < (synthesis mode lo hi a d).length := by rw [synthesis_length]; exact hi'
    have h2 : i < (synthesis1 mode lo a).length := by rw [synthesis1_length]; exact hi'
    have h3 : i < (synthesis1 mode hi d).length := by rw [synthesis1_length, hl, ← had]; exact hi'
    rw [List.getD_eq_getElem _ _ h1, List.getD_eq_getElem _ _ h2, List.getD_eq_getElem _ _ h3]
    cases mode <;> simp [synthesis, synthesis1, hl]
  · rw [List.getD_eq_default, List.getD_eq_default, List.getD_eq_default, add_zero]
    · rw [synthesis1_length, hl, ← had]; omega
    · rw [synthesis1_length]; omega
    · rw [synthesis_length]; omega

theorem inverse_ok {w : Wavelet R} (hw : w.Ok) : w.inverse.Ok := by
  obtain ⟨h1, h2, h3, h4, h5⟩ := hw
  refine ⟨?_, ?_, ?_, ?_, ?_⟩ <;> simp only [Wavelet.inverse, List.length_reverse] <;> omega

theorem inverse_rec_len {w : Wavelet R} : w.inverse.rec_len = w.dec_len := by
  simp [Wavelet.inverse, Wavelet.rec_len, Wavelet.dec_len]

/-- One level. -/
theorem dwt_step_adjoint {w : Wavelet R} (hw : w.Ok) {mode : Mode} {x a d : List R} (hm : NoCopies mode x.length)
    (ha : a.length = coeffLen mode x.length w.dec_len) (hd : d.length = coeffLen mode x.length w.dec_len) :
    sprod (analysis mode w.dec_lo x) a + sprod (analysis mode w.dec_hi x) d =
      sprod x (synthesis mode w.inverse.rec_lo w.inverse.rec_hi a d) := by
  obtain ⟨h1, h2, h3, h4, h5⟩ := hw
  rw [sprod_synthesis (by simp only [Wavelet.inverse, List.length_reverse]; omega) (by rw [ha, hd]),
    analysis_sprod hm h2 h1 ha, analysis_sprod hm (by rw [h3]; exact h2) (by rw [h3]; exact h1)
      (by rw [h3]; exact hd)]
  rfl

/-- The loop of `waverec` with the adjoint filters. -/
theorem waverecLoop_adjoint {w : Wavelet R} (hw : w.Ok) {mode : Mode} {x : List R} (hx : 1 ≤ x.length) (n : ℕ) :
    ∀ (r : List R) (ds : List (List R)), (∀ j < n, NoCopies mode (approxLen mode w.dec_len x.length j)) →
      (r.length = approxLen mode w.dec_len x.length n ∨ r.length = approxLen mode w.dec_len x.length n + 1) →
      ds.map List.length = ((List.range n).map fun j => approxLen mode w.dec_len x.length (j + 1)).reverse →
      ∃ r', waverecLoop w.inverse mode (some r) (ds.map some) = .ok (some r') ∧
        (r'.length = x.length ∨ r'.length = x.length + 1) ∧
        sprod x r' = sprod (approx mode w.dec_lo n x) r +
          (List.zipWith sprod ((List.range n).map fun j => detail mode w.dec_lo w.dec_hi j x).reverse ds).sum := by
  induction n with
  | zero =>
    intro r ds _ hr hds
    simp at hds
    subst hds
    exact ⟨r, rfl, hr, by simp [approx]⟩
  | succ n ih =>
    intro r ds hm hr hds
    cases ds with
    | nil => simp [List.range_succ] at hds
    | cons d ds =>
      simp only [List.range_succ, List.map_append, List.map_cons, List.map_nil, List.reverse_append,
        List.reverse_cons, List.reverse_nil, List.nil_append, List.cons_append, List.cons.injEq] at hds
      obtain ⟨hd, hds⟩ := hds
      have hF := hw.2.1
      have hF2 := hw.1
      have hpos : ∀ j, 1 ≤ approxLen mode w.dec_len x.length j := by
        intro j
        induction j with
        | zero => exact hx
        | succ j ihj =>
          rw [approxLen_succ'']
          exact coeffLen_pos ihj hF2 mode
      have hal : (approx mode w.dec_lo n x).length = approxLen mode w.dec_len x.length n := approx_length _ _ _ _
      have htr : (r.take d.length).length = d.length := by
        rw [List.length_take]
        omega
      have hdl : d.length = coeffLen mode (approx mode w.dec_lo n x).length w.dec_len := by
        rw [hd, approxLen_succ'', hal]
      have hsl : synthLen mode d.length w.dec_len =
          approxLen mode w.dec_len x.length n + approxLen mode w.dec_len x.length n % 2 := by
        rw [hdl, hal]
        exact synthLen_coeffLen hF hF2
      have htrim : waverecTrim (some r) (some d) = .ok (some (r.take d.length)) := by
        unfold waverecTrim
        simp only
        rcases hr with hr | hr
        · rw [if_neg (by omega), if_neg (by omega), List.take_of_length_le (by omega)]
        · rw [if_pos (by omega)]
      have hidwt := idwt_ok (inverse_ok hw) (mode := mode) (a := r.take d.length) (d := d) htr (by
        rw [htr, inverse_rec_len, hsl]
        have := hpos n
        omega)
      obtain ⟨r', r1, r2, r3⟩ := ih (synthesis mode w.inverse.rec_lo w.inverse.rec_hi (r.take d.length) d) ds
        (fun j hj => hm j (by omega)) (by
          rw [synthesis_length, htr, show w.inverse.rec_lo.length = w.dec_len from inverse_rec_len, hsl]
          omega) hds
      refine ⟨r', ?_, r2, ?_⟩
      · simp only [List.map_cons, waverecLoop]
        rw [htrim, Py_bind_ok, hidwt, Py_bind_ok, r1]
      · rw [r3, ← dwt_step_adjoint hw (by rw [hal]; exact hm n (by omega)) (htr.trans hdl) hdl]
        simp only [List.range_succ, List.map_append, List.map_cons, List.map_nil, List.reverse_append,
          List.reverse_cons, List.reverse_nil, List.nil_append, List.cons_append, List.zipWith_cons_cons,
          List.sum_cons]
        rw [add_assoc, approx_succ]
        congr 1
        have : (analysis mode w.dec_lo (approx mode w.dec_lo n x)).length = d.length := by
          rw [analysis_length, hdl]; rfl
        rw [← this, sprod_take]

end Pywt
