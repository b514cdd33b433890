import Verif.Spec.Mirror
import Verif.Proof.Mirror
import Verif.Props.Moments
import Verif.Props.Spin
import Verif.Props.Builtin

/-!
# C85: signals played backwards, and what `symmetry == 'symmetric'` promises
-/

namespace Pywt

open Finset Spec

set_option autoImplicit false
set_option linter.unusedSectionVars false

variable {R M : Type} [CommRing R] [AddCommGroup M] [Module R M]

/-- **C85 (the flag).** Every built-in wavelet whose `symmetry` is `'symmetric'`, in both precisions, has filters that are exactly
symmetric or antisymmetric: all coefficients of the tables agree to the last bit. -/
theorem C85_symmetric_flag {single : Bool} {name : String} {o : WaveletObj ℤ} (h : waveletNamed single name = .ok o)
    (hs : o.symmetry = .symmetric) : HalfSample (realBank o.w) ∨ WholeSample (realBank o.w) := by
  obtain ⟨e, he, -, hw, hi⟩ := waveletNamed_entry h
  have ht := table_phase e he (by rw [← hi]; exact hs)
  refine phase_real ?_
  have hc : phaseCheck single e.2.1 e.2.2 = true := by cases single; exacts [ht.1, ht.2]
  rw [phaseCheck, hw] at hc
  simpa using hc

/-- The hypotheses are met by a wavelet of each kind. -/
example : (waveletNamed false "bior3.5").map (fun o => o.symmetry) = .ok .symmetric ∧
    (waveletNamed false "bior3.5").map (fun o => decide (HalfSample o.w)) = .ok true ∧
    (waveletNamed true "rbio2.4").map (fun o => o.symmetry) = .ok .symmetric ∧
    (waveletNamed true "rbio2.4").map (fun o => decide (WholeSample o.w)) = .ok true ∧
    (waveletNamed true "db2").map (fun o => decide (HalfSample o.w ∨ WholeSample o.w)) = .ok false := by
  decide +kernel

/-- **C85 (single coefficients).** With a low-pass filter symmetric about `s/2` up to the factor `σ`, in every mode except
periodization: coefficient `o` of the reversed signal is `σ` times coefficient `o'` of the signal, for `2(o+o')+3 = N+s`. -/
theorem C85_dwt_reverse_approx {w : Wavelet R} (hw : w.Ok) {mode : Mode} (hm : mode ≠ .periodization) {x : List M}
    (hx : SignalOk mode x) {s : ℕ} {σ : R} (h : SymAbout w.dec_lo s σ) {a d b e : List M} (h1 : dwt w mode x = .ok (a, d))
    (h2 : dwt w mode x.reverse = .ok (b, e)) {o o' : ℕ} (ho : o < b.length) (ho' : o' < a.length)
    (hs : 2 * (o + o') + 3 = x.length + s) : b.getD o 0 = σ • a.getD o' 0 := by
  rw [dwt_ok hw hx, Except.ok.injEq, Prod.mk.injEq] at h1
  rw [dwt_ok hw (by unfold SignalOk; rw [List.length_reverse]; exact hx), Except.ok.injEq, Prod.mk.injEq] at h2
  rw [← h2.1, analysis_length, List.length_reverse] at ho
  rw [← h1.1, analysis_length] at ho'
  rw [← h1.1, ← h2.1]
  exact analysis_mirror hm hx h ho ho' hs

/-- **C85 (single coefficients).** The same for the details and the high-pass filter. -/
theorem C85_dwt_reverse_detail {w : Wavelet R} (hw : w.Ok) {mode : Mode} (hm : mode ≠ .periodization) {x : List M}
    (hx : SignalOk mode x) {s : ℕ} {σ : R} (h : SymAbout w.dec_hi s σ) {a d b e : List M} (h1 : dwt w mode x = .ok (a, d))
    (h2 : dwt w mode x.reverse = .ok (b, e)) {o o' : ℕ} (ho : o < e.length) (ho' : o' < d.length)
    (hs : 2 * (o + o') + 3 = x.length + s) : e.getD o 0 = σ • d.getD o' 0 := by
  rw [dwt_ok hw hx, Except.ok.injEq, Prod.mk.injEq] at h1
  rw [dwt_ok hw (by unfold SignalOk; rw [List.length_reverse]; exact hx), Except.ok.injEq, Prod.mk.injEq] at h2
  rw [← h2.2, analysis_length, List.length_reverse] at ho
  rw [← h1.2, analysis_length] at ho'
  rw [← h1.2, ← h2.2]
  exact analysis_mirror hm hx h ho ho' hs

/-- **C85 (first kind).** All modes, signals of even length: the approximation of the reversed signal is the reversed
approximation, the details are the reversed details with the sign changed. -/
theorem C85_dwt_reverse_half {w : Wavelet R} (hw : w.Ok) (h : HalfSample w) {mode : Mode} {x : List M} (hx : SignalOk mode x)
    (h2 : x.length % 2 = 0) {a d : List M} (h1 : dwt w mode x = .ok (a, d)) :
    dwt w mode x.reverse = .ok (a.reverse, d.reverse.map (-·)) := by
  have hF : 2 ≤ w.dec_lo.length := hw.1
  have hF2 : w.dec_lo.length % 2 = 0 := hw.2.1
  have hH : w.dec_hi.length = w.dec_lo.length := hw.2.2.1
  rw [dwt_ok hw hx, Except.ok.injEq, Prod.mk.injEq] at h1
  have hh := h.2
  unfold Wavelet.dec_len at hh
  rw [← hH] at hh
  rw [dwt_ok hw (by unfold SignalOk; rw [List.length_reverse]; exact hx), ← h1.1, ← h1.2,
    analysis_mirror_half hx h2 hF hF2 h.1, analysis_mirror_half hx h2 (by omega) (by omega) hh]
  simp

/-- **C85 (second kind).** All modes except periodization, signals of odd length: the approximation of the reversed signal is the
reversed approximation, and the details without the last one are reversed. -/
theorem C85_dwt_reverse_whole {w : Wavelet R} (hw : w.Ok) (h : WholeSample w) {mode : Mode} (hm : mode ≠ .periodization)
    {x : List M} (hx : SignalOk mode x) (h2 : x.length % 2 = 1) {a d : List M} (h1 : dwt w mode x = .ok (a, d)) :
    ∃ e, dwt w mode x.reverse = .ok (a.reverse, e) ∧ e.length = d.length ∧
      e.take (d.length - 1) = (d.take (d.length - 1)).reverse := by
  have hF : 2 ≤ w.dec_lo.length := hw.1
  have hF2 : w.dec_lo.length % 2 = 0 := hw.2.1
  have hH : w.dec_hi.length = w.dec_lo.length := hw.2.2.1
  have hc : coeffLen mode x.length w.dec_lo.length = (x.length + w.dec_lo.length - 1) / 2 := by
    unfold coeffLen; rw [if_neg hm]
  have hx' : SignalOk mode x.reverse := by unfold SignalOk; rw [List.length_reverse]; exact hx
  have hd := dwt_ok hw hx'
  rw [dwt_ok hw hx, Except.ok.injEq, Prod.mk.injEq] at h1
  have la : a.length = coeffLen mode x.length w.dec_lo.length := by rw [← h1.1, analysis_length]
  have ld : d.length = coeffLen mode x.length w.dec_lo.length := by rw [← h1.2, analysis_length, hH]
  refine ⟨analysis mode w.dec_hi x.reverse, ?_, by rw [analysis_length, List.length_reverse, hH, ld], ?_⟩
  · rw [hd, Except.ok.injEq, Prod.mk.injEq]
    refine ⟨List.ext_getElem (by rw [analysis_length, List.length_reverse, List.length_reverse, la]) fun i g1 g2 => ?_, rfl⟩
    have g1' := g1
    rw [analysis_length, List.length_reverse] at g1'
    rw [List.getElem_reverse, ← List.getD_eq_getElem _ 0, ← List.getD_eq_getElem _ 0, ← h1.1, analysis_length]
    have := analysis_mirror (o' := coeffLen mode x.length w.dec_lo.length - 1 - i) hm hx h.1 g1' (by omega)
      (by unfold Wavelet.dec_len; omega)
    rw [this, one_smul]
  · refine List.ext_getElem (by
      rw [List.length_take, List.length_reverse, List.length_take, analysis_length, List.length_reverse, hH, ld]) fun i g1 g2 => ?_
    have g2' := g2
    rw [List.length_reverse, List.length_take] at g2'
    rw [List.getElem_reverse, List.getElem_take, List.getElem_take, ← List.getD_eq_getElem _ 0, ← List.getD_eq_getElem _ 0,
      List.length_take, Nat.min_eq_left (by omega), ← h1.2, analysis_length, hH]
    rw [ld] at g2'
    have := analysis_mirror (f := w.dec_hi) (o := i) (o' := coeffLen mode x.length w.dec_lo.length - 1 - 1 - i) hm hx h.2
      (by rw [hH]; omega) (by rw [hH]; omega) (by unfold Wavelet.dec_len; omega)
    rw [this, one_smul]

/-- **C85 (several levels).** `wavedec` with `mode='periodization'`, a bank of the first kind and a length divisible by `2^l`:
the coefficients of the reversed signal are reversed, the details with the sign changed. -/
theorem C85_wavedec_reverse {w : Wavelet R} (hw : w.Ok) (h : HalfSample w) {x : List M} (h0 : 1 ≤ x.length) {l : ℕ}
    (hl : 2 ^ l ∣ x.length) {a : List M} {ds : List (List M)}
    (h1 : wavedec w .periodization (some (l : ℤ)) x = .ok (a :: ds)) :
    wavedec w .periodization (some (l : ℤ)) x.reverse = .ok (a.reverse :: ds.map fun d => d.reverse.map (-·)) := by
  have hF : 2 ≤ w.dec_lo.length := hw.1
  have hF2 : w.dec_lo.length % 2 = 0 := hw.2.1
  have hH : w.dec_hi.length = w.dec_lo.length := hw.2.2.1
  have hh := h.2
  unfold Wavelet.dec_len at hh
  rw [← hH] at hh
  have hap : ∀ j ≤ l, approx .periodization w.dec_lo j x.reverse = (approx .periodization w.dec_lo j x).reverse := by
    intro j
    induction j with
    | zero => intro _; rfl
    | succ j ih =>
      intro hj
      have he : ∀ y : List M, approx .periodization w.dec_lo (j + 1) y =
          analysis .periodization w.dec_lo (approx .periodization w.dec_lo j y) := by
        intro y
        simp only [approx, Function.iterate_succ_apply']
      have hdv : 2 ^ (j + 1) ∣ x.length := dvd_trans (pow_dvd_pow 2 hj) hl
      have hpos : 1 ≤ x.length / 2 ^ (j + 1) := Nat.div_pos (Nat.le_of_dvd (by omega) hdv) (by positivity)
      have hlen : (approx .periodization w.dec_lo j x).length = 2 * (x.length / 2 ^ (j + 1)) := by
        rw [approx_length, approxLen_per_div (dvd_trans (pow_dvd_pow 2 (by omega)) hdv), half_len hdv]
      rw [he, he, ih (by omega), analysis_mirror_per (by omega) (by omega) hF hF2 h.1]
      simp
  have hde : ∀ j < l, detail .periodization w.dec_lo w.dec_hi j x.reverse =
      (detail .periodization w.dec_lo w.dec_hi j x).reverse.map (-·) := by
    intro j hj
    have hdv : 2 ^ (j + 1) ∣ x.length := dvd_trans (pow_dvd_pow 2 hj) hl
    have hpos : 1 ≤ x.length / 2 ^ (j + 1) := Nat.div_pos (Nat.le_of_dvd (by omega) hdv) (by positivity)
    have hlen : (approx .periodization w.dec_lo j x).length = 2 * (x.length / 2 ^ (j + 1)) := by
      rw [approx_length, approxLen_per_div (dvd_trans (pow_dvd_pow 2 (by omega)) hdv), half_len hdv]
    unfold detail
    rw [hap j (by omega), analysis_mirror_per (by omega) (by omega) (by omega) (by omega) hh]
    simp
  have hc := (wavedec_cascade hw h1).2
  unfold cascade at hc
  rw [List.cons.injEq] at hc
  rw [C09_wavedec_explicit_level hw, if_neg (by omega), if_pos, Int.toNat_natCast, Except.ok.injEq, hc.1, hc.2]
  · unfold cascade
    rw [hap l le_rfl, List.map_reverse, List.map_map]
    congr 2
    exact List.map_congr_left fun j hj => hde j (List.mem_range.mp hj)
  · rw [Int.toNat_natCast, List.length_reverse]
    exact levelsOk_per_div h0 hl

/-- The hypotheses are met by Haar, by the 5/3 bank and by signals of eight and seven samples. -/
example : HalfSample haarQ ∧ WholeSample legallQ ∧
    SignalOk .antireflect ([3, 1, 4, 1, 5, 9, 2] : List ℚ) ∧
    dwt haarQ .smooth ([6, 2, 9, 5, 1, 4, 1, 3] : List ℚ) =
      (dwt haarQ .smooth ([3, 1, 4, 1, 5, 9, 2, 6] : List ℚ)).map (fun p => (p.1.reverse, p.2.reverse.map (-·))) ∧
    ∃ a ds, wavedec haarQ .periodization (some ((3 : ℕ) : ℤ)) ([3, 1, 4, 1, 5, 9, 2, 6] : List ℚ) = .ok (a :: ds) := by
  refine ⟨by decide +kernel, by decide +kernel, by decide, ?_, ?_⟩
  · have hx : SignalOk .smooth ([3, 1, 4, 1, 5, 9, 2, 6] : List ℚ) := by decide
    have := C85_dwt_reverse_half haarQ_ok (by decide +kernel) hx (by decide) (dwt_ok haarQ_ok hx)
    rw [show ([3, 1, 4, 1, 5, 9, 2, 6] : List ℚ).reverse = [6, 2, 9, 5, 1, 4, 1, 3] from rfl] at this
    rw [this, dwt_ok haarQ_ok hx]
    rfl
  · exact ⟨_, _, by rw [C09_wavedec_explicit_level haarQ_ok, if_neg (by decide),
      if_pos (levelsOk_per_div (by decide) (by decide))]; rfl⟩

/-- **C85 (built-in wavelets).** `dwt` with a built-in wavelet flagged symmetric, in every mode except periodization: for signals
of even length (first kind) or odd length (second kind) the approximation of the reversed signal is the reversed approximation. -/
theorem C85_builtin {single : Bool} {name : String} {o : WaveletObj ℤ} (h : waveletNamed single name = .ok o)
    (hs : o.symmetry = .symmetric) {mode : Mode} (hm : mode ≠ .periodization) : ∃ parity < 2, ∀ x : List ℝ, SignalOk mode x →
      x.length % 2 = parity → ∀ a d, dwt (realBank o.w) mode x = .ok (a, d) →
        ∃ e, dwt (realBank o.w) mode x.reverse = .ok (a.reverse, e) ∧ e.length = d.length ∧
          (e = d.reverse.map (-·) ∨ e.take (d.length - 1) = (d.take (d.length - 1)).reverse) := by
  obtain ⟨c, hc, hd, hw, -⟩ := waveletNamed_entry h
  obtain ⟨o', -, hw', hok, -⟩ := builtin_ok (single := single) (name := c.1) (fam := c.2.1) (order := c.2.2) hc hd
  rw [hw, Except.ok.injEq, Option.some.injEq] at hw'
  rw [← hw'] at hok
  have hk := realBank_ok hok
  rcases C85_symmetric_flag h hs with hh | hh
  · refine ⟨0, by omega, fun x hx h2 a d h1 => ?_⟩
    exact ⟨_, C85_dwt_reverse_half hk hh hx h2 h1, by simp, Or.inl rfl⟩
  · refine ⟨1, by omega, fun x hx h2 a d h1 => ?_⟩
    obtain ⟨e, e1, e2, e3⟩ := C85_dwt_reverse_whole hk hh hm hx h2 h1
    exact ⟨e, e1, e2, Or.inr e3⟩

end Pywt
