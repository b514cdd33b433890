import Verif.Proof.PR
import Verif.Model.Dwt

/-! The 1-D Python API computes the specified analysis and synthesis. -/

namespace Pywt

open Finset Spec

set_option linter.unusedSectionVars false

variable {R M : Type} [Ring R] [AddCommGroup M] [Module R M]

@[simp] theorem Py_bind_ok {α β : Type} (a : α) (g : α → Py β) :
    ((Except.ok a : Py α) >>= g) = g a := rfl

@[simp] theorem Py_bind_error {α β : Type} (e : PyErr) (g : α → Py β) :
    ((Except.error e : Py α) >>= g) = .error e := rfl

@[simp] theorem Py_pure {α : Type} (a : α) : (pure a : Py α) = .ok a := rfl

@[simp] theorem Py_throw {α : Type} (e : PyErr) : (throw e : Py α) = .error e := rfl

@[simp] theorem zeros_length (n : ℕ) : (zeros n : List M).length = n := by simp [zeros]

theorem zipWith_zeros (l : List M) (n : ℕ) (h : n = l.length) :
    List.zipWith (· + ·) (zeros n) l = l := by
  subst h
  induction l with
  | nil => rfl
  | cons a l ih => simpa [zeros, List.replicate_succ] using ih

theorem analysis_length (mode : Mode) (f : List R) (x : List M) :
    (analysis mode f x).length = coeffLen mode x.length f.length := by
  cases mode <;> simp [analysis, coeffLen]

theorem dwtBufferLength_eq {N F : ℕ} (hN : 1 ≤ N) (hF : 1 ≤ F) (mode : Mode) :
    dwtBufferLength N F mode = coeffLen mode N F := by
  unfold dwtBufferLength coeffLen
  rw [if_neg (by omega)]
  cases mode <;> simp
  split <;> omega

theorem coeffLen_pos {N F : ℕ} (hN : 1 ≤ N) (hF : 2 ≤ F) (mode : Mode) :
    1 ≤ coeffLen mode N F := by
  unfold coeffLen; split <;> omega

theorem decStep_eq {f : List R} {x out : List M} {mode : Mode} (hx : SignalOk mode x)
    (hF : 1 ≤ f.length) (hn : out.length = coeffLen mode x.length f.length) :
    decStep f f.length x out mode = .ok (some (analysis mode f x)) := by
  unfold decStep
  rw [if_neg (by rw [dwtBufferLength_eq hx.1 hF, hn]; simp)]
  rw [dsConv_two_eq hx.1 hx.2 hF (by rw [analysis_length, hn]) (by unfold kfuel; omega)]
  rfl

theorem tooShort_iff {n : ℕ} {mode : Mode} :
    tooShort n mode = true ↔ n = 1 ∧ (mode = .reflect ∨ mode = .antireflect) := by
  simp [tooShort]

theorem signalOk_iff {mode : Mode} {x : List M} :
    SignalOk mode x ↔ x ≠ [] ∧ tooShort x.length mode = false := by
  rw [← Bool.not_eq_true, tooShort_iff, ← List.length_pos_iff]
  unfold SignalOk LenOk
  constructor
  · rintro ⟨h1, h2⟩
    refine ⟨h1, ?_⟩
    rintro ⟨h3, h4⟩
    have := h2 h4
    omega
  · rintro ⟨h1, h2⟩
    refine ⟨h1, ?_⟩
    intro h3
    by_contra h4
    exact h2 ⟨by omega, h3⟩

theorem dec_a_eq {w : Wavelet R} (hw : w.Ok) {x : List M} {mode : Mode} {n : ℕ}
    (hx : SignalOk mode x) (hn : n = coeffLen mode x.length w.dec_len) :
    callC (dec_a w x (zeros n) mode) = .ok (analysis mode w.dec_lo x) := by
  unfold dec_a
  rw [show w.dec_len = w.dec_lo.length from rfl, decStep_eq hx (by have := hw.1; omega) (by rw [zeros_length, hn]; rfl)]
  rfl

theorem dec_d_eq {w : Wavelet R} (hw : w.Ok) {x : List M} {mode : Mode} {n : ℕ}
    (hx : SignalOk mode x) (hn : n = coeffLen mode x.length w.dec_len) :
    callC (dec_d w x (zeros n) mode) = .ok (analysis mode w.dec_hi x) := by
  obtain ⟨h1, h2, h3, -⟩ := hw
  unfold dec_d
  rw [show w.dec_len = w.dec_hi.length from h3.symm,
    decStep_eq hx (by omega) (by rw [zeros_length, hn, h3]; rfl)]
  rfl

theorem dwt_ok {w : Wavelet R} (hw : w.Ok) {x : List M} {mode : Mode} (hx : SignalOk mode x) :
    dwt w mode x = .ok (analysis mode w.dec_lo x, analysis mode w.dec_hi x) := by
  have hF : 2 ≤ w.dec_len := hw.1
  have hx1 := hx.1
  have hs := (signalOk_iff.mp hx).2
  have hpos := coeffLen_pos hx1 hF mode
  unfold dwt dwtSingle dwtCoeffLen
  rw [if_neg (by omega), if_neg (by omega), dwtBufferLength_eq hx1 (by omega)]
  simp only [Py_bind_ok, hs, Py_pure, Py_throw]
  rw [if_neg (by omega)]
  simp only [Bool.false_eq_true, if_false]
  rw [dec_a_eq hw hx rfl, Py_bind_ok, dec_d_eq hw hx rfl]
  rfl

theorem dwt_err {w : Wavelet R} (hw : w.Ok) {x : List M} {mode : Mode} (hx : ¬ SignalOk mode x) :
    dwt w mode x = .error .value := by
  have hF : 2 ≤ w.dec_len := hw.1
  unfold dwt dwtSingle dwtCoeffLen
  by_cases h0 : x.length < 1
  · rw [if_pos h0]; rfl
  · have hpos := coeffLen_pos (show 1 ≤ x.length by omega) hF mode
    have hs : tooShort x.length mode = true := by
      by_contra h
      rw [Bool.not_eq_true] at h
      exact hx (signalOk_iff.mpr ⟨by rw [← List.length_pos_iff]; omega, h⟩)
    rw [if_neg h0, if_neg (by omega), dwtBufferLength_eq (by omega) (by omega)]
    simp only [Py_bind_ok, hs, Py_pure, Py_throw]
    rw [if_neg (by omega)]
    rfl

theorem synthesis_length (mode : Mode) (lo hi : List R) (a d : List M) :
    (synthesis mode lo hi a d).length = synthLen mode a.length lo.length := by
  cases mode <;> simp [synthesis, synthLen]

theorem usConv_eq {f : List R} {c : List M} {mode : Mode} {out : List M}
    (hF : 2 ≤ f.length) (hF2 : f.length % 2 = 0)
    (hlen : 1 ≤ synthLen mode c.length f.length)
    (hout : out.length = synthLen mode c.length f.length) :
    usConv (kfuel c.length f.length) c f out mode =
      .ok (some (List.zipWith (· + ·) out
        (if mode = .periodization then
          (List.range out.length).map fun n : ℕ =>
            conv f (upsample (ext .periodic c)) ((n : ℤ) + ((f.length / 2 : ℕ) - 1))
         else (List.range out.length).map fun n : ℕ =>
            conv f (upsample (ext .zero c)) ((n : ℤ) + (f.length - 2))))) := by
  unfold usConv
  by_cases hm : mode = .periodization
  · simp only [synthLen, hm, if_true] at hlen hout ⊢
    rw [usPer_eq (by omega) hF hF2 hout (by unfold kfuel; omega)]
  · simp only [synthLen, hm, if_false] at hlen hout ⊢
    rw [usValid_eq hF hF2 (by omega) hout (by unfold kfuel; omega)]

theorem idwtBufferLength_eq {L F : ℕ} {mode : Mode} (h : 1 ≤ synthLen mode L F) :
    idwtBufferLength L F mode = some (synthLen mode L F) := by
  cases mode <;> simp only [synthLen, idwtBufferLength, if_true, reduceCtorEq, if_false] at h ⊢ <;>
    rw [if_pos (by omega)]

/-- The C-level `idwt` with both coefficient arrays present. -/
theorem idwtC_eq {w : Wavelet R} (hw : w.Ok) {a d : List M} {mode : Mode} {n : ℕ}
    (hl : a.length = d.length) (hlen : 1 ≤ synthLen mode a.length w.rec_len)
    (hn : n = synthLen mode a.length w.rec_len) :
    callC (idwtC w (some a) (some d) (zeros n) mode) =
      .ok (synthesis mode w.rec_lo w.rec_hi a d) := by
  obtain ⟨h1, h2, h3, h4, h5⟩ := hw
  have h6 : w.rec_hi.length = w.rec_lo.length := by omega
  unfold Wavelet.rec_len at hlen hn
  unfold idwtC Wavelet.rec_len
  simp only [hl, ne_eq, not_true, if_false]
  rw [← hl, idwtBufferLength_eq hlen, if_neg (by simp [hn])]
  simp only [idwtPart]
  rw [usConv_eq (by omega) (by omega) hlen (by simp [hn])]
  simp only [C_bind_ok]
  have hlz : ∀ l : List M, l.length = n → List.zipWith (· + ·) (zeros n) l = l :=
    fun l h => zipWith_zeros l n h.symm
  rw [hlz _ (by split <;> simp)]
  rw [usConv_eq (by omega) (by omega) (by rw [← hl, h6]; exact hlen) (by
    rw [← hl, h6, ← hn]; split <;> simp)]
  simp only [callC]
  congr 1
  subst hn
  cases mode <;> simp only [synthesis, synthLen, if_true, reduceCtorEq, if_false, List.length_map,
    List.length_range, zeros_length, h6] <;>
  · apply List.ext_getElem (by simp)
    intro k hk1 hk2
    simp

theorem idwt_ok {w : Wavelet R} (hw : w.Ok) {a d : List M} {mode : Mode}
    (hl : a.length = d.length) (hlen : 1 ≤ synthLen mode a.length w.rec_len) :
    idwt w mode (some a) (some d) = .ok (synthesis mode w.rec_lo w.rec_hi a d) := by
  unfold idwt idwtSingle
  simp only [hl, ne_eq, not_true, if_false]
  rw [← hl, idwtBufferLength_eq hlen]
  simp only
  rw [if_neg (by omega)]
  exact idwtC_eq hw hl hlen rfl

theorem synthLen_coeffLen {mode : Mode} {N F : ℕ} (hF : F % 2 = 0) (hF2 : 2 ≤ F) :
    synthLen mode (coeffLen mode N F) F = N + N % 2 := by
  unfold synthLen coeffLen
  split <;> omega

theorem ext_zero_map {h : ℤ → M} {L : ℕ} {k : ℤ} (h0 : 0 ≤ k) (h1 : k < L) :
    ext .zero ((List.range L).map fun o : ℕ => h o) k = h k := by
  obtain ⟨j, rfl⟩ : ∃ j : ℕ, k = j := ⟨k.toNat, by omega⟩
  rw [ext_zero_in _ (by simpa using h1), List.getD_eq_getElem _ _ (by simpa using h1)]
  simp

theorem ext_periodic_map {h : ℤ → M} {L : ℕ} (hL : 1 ≤ L) (hper : ∀ k, h (k + L) = h k) (k : ℤ) :
    ext .periodic ((List.range L).map fun o : ℕ => h o) k = h k := by
  have hm := Int.emod_nonneg k (show (L : ℤ) ≠ 0 by omega)
  have hm2 := Int.emod_lt_of_pos k (show (0 : ℤ) < L by omega)
  have hdiv := Int.mul_ediv_add_emod k L
  have hall : ∀ q : ℤ, ∀ r, h (L * q + r) = h r := by
    intro q
    induction q with
    | zero => intro r; simp
    | succ i ih =>
      intro r
      rw [show (L : ℤ) * ((i : ℤ) + 1) + r = (L * i + r) + L by ring, hper, ih]
    | pred i ih =>
      intro r
      rw [← hper, show (L : ℤ) * (-(i : ℤ) - 1) + r + L = L * (-(i : ℤ)) + r by ring, ih]
  obtain ⟨j, hj⟩ : ∃ j : ℕ, k % L = j := ⟨(k % L).toNat, by omega⟩
  rw [ext_per _ (q := k / L) (k := j) (by simp; omega) (by simp; omega),
    List.getD_eq_getElem _ _ (by simp; omega)]
  simp only [List.getElem_map, List.getElem_range]
  rw [← hdiv, hall, hj]

theorem conv_congr {f : List R} {e e' : ℤ → M} {p : ℤ}
    (h : ∀ j < f.length, e (p - j) = e' (p - j)) : conv f e p = conv f e' p := by
  unfold conv
  apply sum_congr rfl
  intro j hj
  rw [h j (by simpa using hj)]

/-- `idwt(dwt x)` for any filters: analysis and synthesis of the bi-infinite extension. -/
theorem synthesis_analysis_gen {dlo dhi rlo rhi : List R}
    (h1 : dhi.length = dlo.length) (h2 : rlo.length = dlo.length) (h3 : rhi.length = dlo.length)
    (hF : 2 ≤ dlo.length) (hF2 : dlo.length % 2 = 0) {mode : Mode} {x : List M}
    (hx : 1 ≤ x.length) :
    ∃ o1 o2 : ℤ, o1 + o2 = dlo.length - 1 ∧
    synthesis mode rlo rhi (analysis mode dlo x) (analysis mode dhi x) =
      (List.range (x.length + x.length % 2)).map fun n : ℕ =>
        conv rlo (upsample fun k => conv dlo (ext mode x) (2 * k + o1)) (n + o2) +
          conv rhi (upsample fun k => conv dhi (ext mode x) (2 * k + o1)) (n + o2) := by
  by_cases hm : mode = .periodization
  · refine ⟨((dlo.length / 2 : ℕ) : ℤ), ((dlo.length / 2 : ℕ) : ℤ) - 1, by omega, ?_⟩
    apply List.ext_getElem
    · rw [synthesis_length, analysis_length, h2, synthLen_coeffLen hF2 hF]
      simp
    · intro n hn1 hn2
      simp only [List.length_map, List.length_range] at hn2
      subst hm
      simp only [synthesis, analysis, List.getElem_map, List.getElem_range, h2, h1]
      have hlen : (evenPad x).length = 2 * ((x.length + 1) / 2) := by
        unfold evenPad
        split
        · simp; omega
        · omega
      have hper : ∀ p : ℤ, ext .periodization x (p + 2 * ((x.length + 1) / 2 : ℕ)) =
          ext .periodization x p := by
        intro p
        simp only [Spec.ext]
        rw [hlen]
        push_cast
        rw [Int.add_emod_right]
      have hc : ∀ (f : List R) (k : ℤ),
          ext .periodic ((List.range ((x.length + 1) / 2)).map fun o : ℕ =>
            conv f (ext .periodization x) (((dlo.length / 2 : ℕ) : ℤ) + 2 * o)) k =
            conv f (ext .periodization x) (2 * k + ((dlo.length / 2 : ℕ) : ℤ)) := by
        intro f k
        rw [ext_periodic_map (h := fun o => conv f (ext .periodization x)
          (((dlo.length / 2 : ℕ) : ℤ) + 2 * o)) (by omega), add_comm]
        intro k
        unfold conv
        apply sum_congr rfl
        intro j _
        rw [show ((dlo.length / 2 : ℕ) : ℤ) + 2 * (k + ((x.length + 1) / 2 : ℕ)) - j =
          (((dlo.length / 2 : ℕ) : ℤ) + 2 * k - j) + 2 * ((x.length + 1) / 2 : ℕ) by ring, hper]
      have hup : ∀ f : List R, (upsample (ext .periodic
          ((List.range ((x.length + 1) / 2)).map fun o : ℕ =>
            conv f (ext .periodization x) (((dlo.length / 2 : ℕ) : ℤ) + 2 * o)))) =
          upsample fun k => conv f (ext .periodization x) (2 * k + ((dlo.length / 2 : ℕ) : ℤ)) := by
        intro f
        funext p
        unfold upsample
        rw [hc]
      rw [hup, hup]
  · refine ⟨1, dlo.length - 2, by ring, ?_⟩
    have hs : ∀ a d : List M, synthesis mode rlo rhi a d =
          (List.range (2 * a.length + 2 - rlo.length)).map fun n : ℕ =>
          conv rlo (upsample (ext .zero a)) ((n : ℤ) + (rlo.length - 2)) +
          conv rhi (upsample (ext .zero d)) ((n : ℤ) + (rlo.length - 2)) := by
        intro a d
        cases mode <;> first | rfl | exact absurd rfl hm
    have ha : ∀ f : List R, analysis mode f x =
          (List.range ((x.length + f.length - 1) / 2)).map fun o : ℕ =>
            conv f (ext mode x) (2 * (o : ℤ) + 1) := by
        intro f
        cases mode <;> first | rfl | exact absurd rfl hm
    apply List.ext_getElem
    · rw [synthesis_length, analysis_length, h2, synthLen_coeffLen hF2 hF]
      simp
    · intro n hn1 hn2
      simp only [List.length_map, List.length_range] at hn2
      simp only [hs, ha, List.getElem_map, List.getElem_range, h1, h2]
      have hc : ∀ (f : List R) (j : ℕ), j < dlo.length →
          upsample (ext .zero ((List.range ((x.length + dlo.length - 1) / 2)).map fun o : ℕ =>
            conv f (ext mode x) (2 * (o : ℤ) + 1))) ((n : ℤ) + (dlo.length - 2) - j) =
          upsample (fun k => conv f (ext mode x) (2 * k + 1)) ((n : ℤ) + (dlo.length - 2) - j) := by
        intro f j hj
        unfold upsample
        split
        · rw [ext_zero_map (h := fun o => conv f (ext mode x) (2 * o + 1)) (by omega) (by omega)]
        · rfl
      rw [conv_congr (f := rlo) (fun j hj => hc dlo j (by omega)),
        conv_congr (f := rhi) (fun j hj => hc dhi j (by omega))]

/-- `idwt(dwt x)` is the extension of `x`, sample by sample. -/
theorem synthesis_analysis {dlo dhi rlo rhi : List R} (hpr : PR dlo dhi rlo rhi)
    (h1 : dhi.length = dlo.length) (h2 : rlo.length = dlo.length) (h3 : rhi.length = dlo.length)
    (hF : 2 ≤ dlo.length) (hF2 : dlo.length % 2 = 0) {mode : Mode} {x : List M}
    (hx : 1 ≤ x.length) :
    synthesis mode rlo rhi (analysis mode dlo x) (analysis mode dhi x) =
      (List.range (x.length + x.length % 2)).map fun n : ℕ => ext mode x n := by
  obtain ⟨o1, o2, ho, h⟩ := synthesis_analysis_gen h1 h2 h3 hF hF2 hx (mode := mode)
  rw [h]
  apply List.map_congr_left
  intro n _
  exact pr_key hpr h1 h2 h3 (by omega) _ _ _ _ ho

end Pywt
