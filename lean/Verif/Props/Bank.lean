import Verif.Proof.Bank
import Verif.Model.Objects
import Mathlib.Analysis.Real.Sqrt

/-!
# C34: filter banks
-/

set_option autoImplicit false

namespace Pywt

open Finset Spec

variable {R : Type} [CommRing R]

/-- The condition `PR` used throughout is the textbook one: no distortion and no aliasing. -/
theorem C34_PR_textbook (h2 : ∀ a : R, 2 * a = 0 → a = 0) (dlo dhi rlo rhi : List R) :
    PR dlo dhi rlo rhi ↔ PRTextbook dlo dhi rlo rhi := PR_iff_textbook h2 dlo dhi rlo rhi

/-- `qmf`: reversed with alternating signs; applied twice it negates a filter of even length. -/
theorem C34_qmf (f : List R) :
    (qmf f).length = f.length ∧
    (∀ i < f.length, (qmf f).getD i 0 = (-1) ^ i * f.getD (f.length - 1 - i) 0) ∧
    (f.length % 2 = 0 → qmf (qmf f) = f.map (- ·)) := by
  refine ⟨qmf_length f, fun i hi => qmf_getD f hi, fun h2 => ?_⟩
  apply List.ext_getElem (by simp [qmf_length])
  intro i h1 h3
  rw [qmf_length, qmf_length] at h1
  rw [← List.getD_eq_getElem _ 0, qmf_getD _ (by rw [qmf_length]; exact h1), qmf_length,
    qmf_getD _ (by omega), List.getElem_map, ← List.getD_eq_getElem _ 0, ← mul_assoc, ← pow_add,
    Odd.neg_one_pow (by rw [Nat.odd_iff]; omega), show f.length - 1 - (f.length - 1 - i) = i by omega]
  ring

/-- **C34 (orthogonal_filter_bank).** The four filters are well formed, and they reconstruct perfectly
exactly when the (normalised) synthesis low-pass filter is orthonormal to its even shifts. -/
theorem C34_orthogonal_iff {K : Type} [Field K] [DecidableEq K] (sqrt2 : K) (f : List K) (w : Wavelet K)
    (h0 : f ≠ []) (h : orthogonalFilterBank sqrt2 f = .ok w) :
    w.Ok ∧ (PR w.dec_lo w.dec_hi w.rec_lo w.rec_hi ↔ EvenBiorthogonal w.rec_lo w.rec_lo) := by
  unfold orthogonalFilterBank at h
  split_ifs at h with h1 h2
  simp only [Except.ok.injEq] at h
  subst h
  have := fromPair_qmf (f := f.map fun v => sqrt2 * v / f.sum)
    (by simpa using List.length_pos_iff.2 h0) (by simpa using h1)
  exact ⟨this.ok, this.PR_iff⟩

/-- **C34 (orthogonal_filter_bank).** A scaling filter of even length that is orthogonal to its even shifts
and whose even and odd taps have the same non-zero sum gives a perfect-reconstruction bank, whatever its
scale. -/
theorem C34_orthogonal {K : Type} [Field K] [DecidableEq K] (sqrt2 : K) (hs : sqrt2 * sqrt2 = 2)
    (h2 : (2 : K) ≠ 0) (f : List K) (he : f.length % 2 = 0)
    (hsum : ∑ i ∈ range f.length, (if i % 2 = 0 then f.getD i 0 else 0) =
      ∑ i ∈ range f.length, (if i % 2 = 1 then f.getD i 0 else 0))
    (hn : ∑ i ∈ range f.length, (if i % 2 = 1 then f.getD i 0 else 0) ≠ 0)
    (ho : ∀ k : ℤ, k ≠ 0 → xcorr f f (2 * k) = 0) :
    ∃ w, orthogonalFilterBank sqrt2 f = .ok w ∧ w.Ok ∧ PR w.dec_lo w.dec_hi w.rec_lo w.rec_hi := by
  have hS : f.sum = 2 * ∑ i ∈ range f.length, (if i % 2 = 1 then f.getD i 0 else 0) := by
    rw [sum_parity, hsum]; ring
  have hS0 : f.sum ≠ 0 := by rw [hS]; exact mul_ne_zero h2 hn
  have h0 : f ≠ [] := by rintro rfl; simp at hS0
  obtain ⟨w, hex, hrec⟩ : ∃ w, orthogonalFilterBank sqrt2 f = .ok w ∧
      w.rec_lo = f.map fun v => sqrt2 * v / f.sum := by
    unfold orthogonalFilterBank
    rw [if_neg (by simpa using he), if_neg hS0]
    exact ⟨_, rfl, rfl⟩
  obtain ⟨hok, hiff⟩ := C34_orthogonal_iff sqrt2 f _ h0 hex
  refine ⟨_, hex, hok, hiff.2 ?_⟩
  have hmap : (f.map fun v => sqrt2 * v / f.sum) = f.map ((sqrt2 / f.sum) * ·) := by
    apply List.map_congr_left
    intro v _
    field_simp
  have hr0 : xcorr f f 0 = f.sum ^ 2 / 2 := by
    have := sum_xcorr_even f
    rw [hsum, sum_eq_single 0] at this
    · rw [mul_zero] at this
      rw [this, hS]
      field_simp
      ring
    · intro k _ hk
      exact ho k hk
    · intro h
      simp at h
  intro k
  rw [hrec, hmap, xcorr_map_mul]
  by_cases hk : k = 0
  · subst hk
    rw [mul_zero, hr0, if_pos rfl]
    field_simp
    rw [pow_two, hs]
  · rw [ho k hk, mul_zero, if_neg hk]

/-- Odd lengths are rejected. -/
theorem C34_orthogonal_odd {K : Type} [Field K] [DecidableEq K] (sqrt2 : K) (f : List K)
    (h : f.length % 2 = 1) : orthogonalFilterBank sqrt2 f = .error .value := by
  unfold orthogonalFilterBank
  rw [if_pos (by omega)]

/-- **C34 (the C table loader).** The loops of `discrete_wavelet`, given tables for the two low-pass
filters, stay inside the tables and the buffers, store them as stated, and give a perfect-reconstruction
bank exactly when the low-pass filters are biorthogonal with respect to even shifts (with equal tables:
when the filter is orthonormal to its even shifts). -/
theorem C34_loader (b c : List R) (n F : ℕ) (hF : 0 < F) (he : F % 2 = 0) (hb : n + F ≤ b.length)
    (hc : c.length = F) :
    ∃ w, fillBank b c n F = .ok w ∧ w.Ok ∧ w.rec_lo = (b.drop n).take F ∧ w.dec_lo = c.reverse ∧
      (PR w.dec_lo w.dec_hi w.rec_lo w.rec_hi ↔ EvenBiorthogonal ((b.drop n).take F) c) := by
  obtain ⟨w, h1, h2⟩ := fillBank_ok hF he hb hc
  exact ⟨w, h1, h2.ok, h2.rl, h2.dl, h2.PR_iff⟩

/-- **C34 (inverse_filter_bank).** The inverse bank of a perfect-reconstruction bank is one, and inverting
twice gives the bank back. -/
theorem C34_inverse (w : Wavelet R) (hw : w.Ok) (h : PR w.dec_lo w.dec_hi w.rec_lo w.rec_hi) :
    w.inverse.Ok ∧ PR w.inverse.dec_lo w.inverse.dec_hi w.inverse.rec_lo w.inverse.rec_hi ∧
      w.inverse.inverse = w := by
  refine ⟨?_, PR_inverse hw h, ?_⟩
  · obtain ⟨h1, h2, h3, h4, h5⟩ := hw
    refine ⟨?_, ?_, ?_, ?_, ?_⟩ <;> simp only [Wavelet.inverse, List.length_reverse] <;> omega
  · unfold Wavelet.inverse
    simp

omit [CommRing R] in
/-- **C34 (rbio).** The exchange and reversal of filters that the C code uses for reverse biorthogonal
wavelets is the inverse bank of the biorthogonal wavelet. -/
theorem C34_rbio (w : Wavelet R) : swapReverse w = w.inverse := rfl

/-- The filter `[3, 6, 2, -1]` meets the hypotheses of `C34_orthogonal` over the real numbers. -/
example : ∃ (f : List ℝ) (s : ℝ), s * s = 2 ∧ f.length % 2 = 0 ∧
    ∑ i ∈ range f.length, (if i % 2 = 0 then f.getD i 0 else 0) =
      ∑ i ∈ range f.length, (if i % 2 = 1 then f.getD i 0 else 0) ∧
    ∑ i ∈ range f.length, (if i % 2 = 1 then f.getD i 0 else 0) ≠ 0 ∧
    (∀ k : ℤ, k ≠ 0 → xcorr f f (2 * k) = 0) ∧ f.length = 4 := by
  refine ⟨[3, 6, 2, -1], Real.sqrt 2, Real.mul_self_sqrt (by norm_num), rfl, ?_, ?_, ?_, rfl⟩
  · simp [sum_range_succ]; norm_num
  · simp [sum_range_succ]; norm_num
  · intro k hk
    by_cases h : -4 < 2 * k ∧ 2 * k < 4
    · have : k = 1 ∨ k = -1 := by omega
      rcases this with rfl | rfl
      · simp [xcorr, tap, sum_range_succ]; norm_num
      · simp [xcorr, tap, sum_range_succ]; norm_num
    · exact xcorr_out (by simp; omega)

/-- The Le Gall bank comes out of the loader and meets the hypothesis of `C34_inverse`. -/
example : legallQ.Ok ∧ PR legallQ.dec_lo legallQ.dec_hi legallQ.rec_lo legallQ.rec_hi :=
  ⟨legallQ_ok, legallQ_PR⟩

example : fillBank ([0, 0, 1, 2, 0, 0] : List ℤ) [3, 4] 2 2 = .ok ⟨[4, 3], [-1, 2], [1, 2], [4, -3]⟩ := by
  decide +kernel

end Pywt
