import Verif.Proof.Lin
import Verif.Proof.Examples
import Mathlib.LinearAlgebra.Complex.Module

/-!
# Properties C01–C07: the one-level 1-D transform

`Verif.Spec.Ext` and `Verif.Spec.Bank` contain the specification: `ext mode x : ℤ → M` is the
bi-infinite extension of the signal, `tap f i` is tap `i` of a filter (zero outside), `SignalOk`
says which signals a mode is defined for, `PR` are the perfect-reconstruction identities.
-/

namespace Pywt

open Finset Spec

variable {R M : Type} [Ring R] [AddCommGroup M] [Module R M]

/-- **C01.** Outside periodization, `dwt` returns `⌊(N+F-1)/2⌋` approximation and detail
coefficients, and coefficient `o` is the filtered extended signal at position `2o+1`. -/
theorem C01_dwt_is_filtered_extension {w : Wavelet R} (hw : w.Ok) {x : List M} {mode : Mode}
    (hx : SignalOk mode x) (hm : mode ≠ .periodization) :
    ∃ cA cD, dwt w mode x = .ok (cA, cD) ∧
      cA.length = (x.length + w.dec_len - 1) / 2 ∧ cD.length = (x.length + w.dec_len - 1) / 2 ∧
      (∀ o (h : o < cA.length), cA[o] =
        ∑ j ∈ range w.dec_len, w.dec_lo.getD j 0 • ext mode x (2 * o + 1 - j)) ∧
      (∀ o (h : o < cD.length), cD[o] =
        ∑ j ∈ range w.dec_len, w.dec_hi.getD j 0 • ext mode x (2 * o + 1 - j)) := by
  have h3 : w.dec_hi.length = w.dec_len := hw.2.2.1
  refine ⟨_, _, dwt_ok hw hx, ?_, ?_, ?_, ?_⟩
  · rw [analysis_length]; simp [coeffLen, hm, Wavelet.dec_len]
  · rw [analysis_length, h3]; simp [coeffLen, hm]
  · intro o h
    have : analysis mode w.dec_lo x = (List.range ((x.length + w.dec_lo.length - 1) / 2)).map
        fun o : ℕ => conv w.dec_lo (ext mode x) (2 * (o : ℤ) + 1) := by
      cases mode <;> first | rfl | exact absurd rfl hm
    simp only [this, List.getElem_map, List.getElem_range, conv, Wavelet.dec_len]
  · intro o h
    have : analysis mode w.dec_hi x = (List.range ((x.length + w.dec_hi.length - 1) / 2)).map
        fun o : ℕ => conv w.dec_hi (ext mode x) (2 * (o : ℤ) + 1) := by
      cases mode <;> first | rfl | exact absurd rfl hm
    simp only [this, List.getElem_map, List.getElem_range, conv, h3]

example : legallQ.Ok ∧ SignalOk .antireflect [(3 : ℚ), 1, 4, 1, 5] ∧
    Mode.antireflect ≠ .periodization := by decide

/-- **C02.** In periodization mode `dwt` returns `⌈N/2⌉` coefficients of each kind; coefficient `o`
is the circular convolution, at position `F/2 + 2o`, with the signal whose last sample is repeated
if its length is odd (`y` below). -/
theorem C02_dwt_periodization_is_circular {w : Wavelet R} (hw : w.Ok) {x : List M} (hx : x ≠ []) :
    ∃ cA cD y, dwt w .periodization x = .ok (cA, cD) ∧
      (y = if x.length % 2 = 0 then x else x ++ [x.getLast hx]) ∧
      cA.length = (x.length + 1) / 2 ∧ cD.length = (x.length + 1) / 2 ∧
      (∀ o (h : o < cA.length), cA[o] = ∑ j ∈ range w.dec_len,
        w.dec_lo.getD j 0 • y.getD (((w.dec_len / 2 : ℕ) + 2 * o - j : ℤ) % y.length).toNat 0) ∧
      (∀ o (h : o < cD.length), cD[o] = ∑ j ∈ range w.dec_len,
        w.dec_hi.getD j 0 • y.getD (((w.dec_len / 2 : ℕ) + 2 * o - j : ℤ) % y.length).toNat 0) := by
  have h3 : w.dec_hi.length = w.dec_len := hw.2.2.1
  have hl := List.length_pos_iff.mpr hx
  have hs : SignalOk .periodization x := ⟨hl, by simp⟩
  refine ⟨_, _, evenPad x, dwt_ok hw hs, ?_, ?_, ?_, ?_, ?_⟩
  · unfold evenPad
    by_cases h : x.length % 2 = 0
    · rw [if_neg (by omega), if_pos h]
    · rw [if_pos (by omega), if_neg h]
      congr 2
      unfold at'
      rw [show ((x.length : ℤ) - 1).toNat = x.length - 1 by omega, List.getLast_eq_getElem,
        List.getD_eq_getElem]
  · rw [analysis_length]; simp [coeffLen]
  · rw [analysis_length]; simp [coeffLen]
  · intro o h
    simp only [analysis, List.getElem_map, List.getElem_range, conv, Wavelet.dec_len, Spec.ext, at']
  · intro o h
    simp only [analysis, List.getElem_map, List.getElem_range, conv, h3, Spec.ext, at']

example : legallQ.Ok ∧ [(3 : ℚ), 1, 4] ≠ [] := by decide

/-- **C03 (kernels).** On a signal the Python layer lets through, the downsampling convolution
kernel started on any output buffer of the right size, with any amount of fuel above `N + F + 2`
iterations per loop, performs no access outside its buffers, no wrapping index subtraction, and
finishes. -/
theorem C03_downsampling_kernel_safe {f : List R} {x out : List M} {mode : Mode} {fuel : ℕ}
    (hx : SignalOk mode x) (hF : 1 ≤ f.length)
    (hout : out.length = coeffLen mode x.length f.length) (hfuel : x.length + f.length + 2 < fuel) :
    ∃ r, dsConv fuel x f out 2 mode = .ok r ∧ r.length = out.length :=
  ⟨_, dsConv_two_eq hx.1 hx.2 hF (by rw [hout, analysis_length]) hfuel, by
    rw [hout, analysis_length]⟩

example : SignalOk .smooth [(3 : ℚ)] ∧ 1 ≤ [(1 : ℚ), 2, 3].length ∧
    [(0 : ℚ)].length = coeffLen .smooth 1 3 ∧ 1 + 3 + 2 < 7 := by decide

/-- **C03 (kernels).** The same for the upsampling kernel `upcoef` uses. -/
theorem C03_upsampling_full_kernel_safe {f : List R} {c out : List M} {fuel : ℕ}
    (hc : 1 ≤ c.length) (hF : 2 ≤ f.length) (hF2 : f.length % 2 = 0)
    (hout : out.length = 2 * c.length + f.length - 2) (hfuel : c.length + f.length < fuel) :
    ∃ r, usFull fuel c f out = .ok (some r) ∧ r.length = out.length :=
  ⟨_, usFull_eq hc hF hF2 hout hfuel, by simp⟩

example : 1 ≤ [(1 : ℚ)].length ∧ 2 ≤ [(1 : ℚ), 2].length ∧ [(1 : ℚ), 2].length % 2 = 0 ∧
    [(0 : ℚ), 0].length = 2 * 1 + 2 - 2 ∧ 1 + 2 < 4 := by decide

/-- **C03 (API).** Whatever 1-D data and mode `dwt` is called with, it either returns or raises
`ValueError`; the C code it runs never misbehaves. -/
theorem C03_dwt_never_misbehaves {w : Wavelet R} (hw : w.Ok) (mode : Mode) (x : List M) :
    (∃ r, dwt w mode x = .ok r) ∨ dwt w mode x = .error .value := by
  by_cases hx : SignalOk mode x
  · exact .inl ⟨_, dwt_ok hw hx⟩
  · exact .inr (dwt_err hw hx)

example : haarQ.Ok := haarQ_ok

theorem idwtSingle_total {w : Wavelet R} (hw : w.Ok) (mode : Mode) (a d : List M) :
    (a.length = d.length ∧ 1 ≤ synthLen mode a.length w.rec_len ∧
      idwtSingle w mode a d = .ok (synthesis mode w.rec_lo w.rec_hi a d)) ∨
    ((a.length ≠ d.length ∨ synthLen mode a.length w.rec_len = 0) ∧
      (idwtSingle w mode a d = .error .value ∨ idwtSingle w mode a d = .error .alloc)) := by
  by_cases hl : a.length = d.length
  · by_cases hs : 1 ≤ synthLen mode a.length w.rec_len
    · exact .inl ⟨hl, hs, idwt_ok hw hl hs⟩
    · refine .inr ⟨.inr (by omega), ?_⟩
      unfold idwtSingle
      rw [if_neg (by omega)]
      cases mode <;> simp only [idwtBufferLength, synthLen, if_true, reduceCtorEq, if_false] at hs ⊢
      all_goals first
        | (rw [if_pos (by omega)]; exact .inl rfl)
        | (split
           · rename_i h; split at h <;> simp_all
           · rename_i h
             split at h
             · simp only [Option.some.injEq] at h
               rw [if_pos (by omega)]
               exact .inl rfl
             · simp at h)
  · refine .inr ⟨.inl hl, .inl ?_⟩
    unfold idwtSingle
    rw [if_pos hl]
    rfl

/-- **C03 (API).** `idwt` likewise returns or raises, for every combination of coefficient arrays
(equal lengths or not, long enough for the filter or not, missing or not). -/
theorem C03_idwt_never_misbehaves {w : Wavelet R} (hw : w.Ok) (mode : Mode)
    (cA cD : Option (List M)) :
    (∃ r, idwt w mode cA cD = .ok r) ∨ idwt w mode cA cD = .error .value ∨
      idwt w mode cA cD = .error .alloc := by
  have key : ∀ a d : List M, (∃ r, idwtSingle w mode a d = .ok r) ∨
      idwtSingle w mode a d = .error .value ∨ idwtSingle w mode a d = .error .alloc := by
    intro a d
    rcases idwtSingle_total hw mode a d with ⟨-, -, h⟩ | ⟨-, h⟩
    · exact .inl ⟨_, h⟩
    · exact .inr h
  cases cA <;> cases cD
  · exact .inr (.inl rfl)
  · exact key _ _
  · exact key _ _
  · exact key _ _

example : legallQ.Ok := legallQ_ok

/-- **C04.** `dwt_coeff_len` rejects empty data and empty filters and otherwise returns the
documented length. -/
theorem C04_dwt_coeff_len (N F : ℕ) (mode : Mode) :
    dwtCoeffLen N F mode =
      if N < 1 ∨ F < 1 then .error .value
      else .ok (if mode = .periodization then (N + 1) / 2 else (N + F - 1) / 2) := by
  unfold dwtCoeffLen
  by_cases h1 : N < 1
  · rw [if_pos h1, if_pos (.inl h1)]
  · by_cases h2 : F < 1
    · rw [if_neg h1, if_pos h2, if_pos (.inr h2)]
    · rw [if_neg h1, if_neg h2, if_neg (by omega), dwtBufferLength_eq (by omega) (by omega)]
      rfl

/-- **C04.** Whenever `dwt` returns, both arrays have the length `dwt_coeff_len` promises. -/
theorem C04_dwt_lengths {w : Wavelet R} (hw : w.Ok) {mode : Mode} {x cA cD : List M}
    (h : dwt w mode x = .ok (cA, cD)) :
    dwtCoeffLen x.length w.dec_len mode = .ok cA.length ∧ cD.length = cA.length := by
  have hx : SignalOk mode x := by
    by_contra hx
    rw [dwt_err hw hx] at h
    simp at h
  have h3 : w.dec_hi.length = w.dec_lo.length := hw.2.2.1
  have h1 : 2 ≤ w.dec_lo.length := hw.1
  have := hx.1
  rw [dwt_ok hw hx] at h
  simp only [Except.ok.injEq, Prod.mk.injEq] at h
  obtain ⟨rfl, rfl⟩ := h
  rw [analysis_length, analysis_length, h3, C04_dwt_coeff_len, if_neg]
  · exact ⟨rfl, rfl⟩
  · simp only [Wavelet.dec_len]; omega

example : dwt haarQ .zero [(1 : ℚ), 3, 5] = .ok ([2, 5 / 2], [-1, 5 / 2]) := by decide +kernel

/-- **C05.** `idwt` inverts `dwt` in every mode: the result starts with `x`, has `N` samples if `N`
is even, and one more if `N` is odd, which is then the next sample of the extension. -/
theorem C05_idwt_dwt {w : Wavelet R} (hw : w.Ok) (hpr : PR w.dec_lo w.dec_hi w.rec_lo w.rec_hi)
    {mode : Mode} {x : List M} (hx : SignalOk mode x) :
    ∃ cA cD, dwt w mode x = .ok (cA, cD) ∧
      idwt w mode (some cA) (some cD) =
        .ok (if x.length % 2 = 0 then x else x ++ [ext mode x x.length]) := by
  obtain ⟨h1, h2, h3, h4, h5⟩ := hw
  have hw : w.Ok := ⟨h1, h2, h3, h4, h5⟩
  have hN := hx.1
  refine ⟨_, _, dwt_ok hw hx, ?_⟩
  have hl : (analysis mode w.dec_lo x).length = coeffLen mode x.length w.dec_lo.length :=
    analysis_length _ _ _
  rw [idwt_ok hw (by rw [analysis_length, analysis_length, h3]) (by
    rw [hl, Wavelet.rec_len, h4, synthLen_coeffLen h2 h1]; omega)]
  rw [synthesis_analysis hpr h3 h4 h5 h1 h2 hN]
  congr 1
  apply List.ext_getElem
  · split
    · simp; omega
    · simp; omega
  · intro n hn1 hn2
    simp only [List.getElem_map, List.getElem_range]
    simp only [List.length_map, List.length_range] at hn1
    by_cases hnx : n < x.length
    · rw [ext_in x mode hnx, List.getD_eq_getElem _ _ hnx]
      split <;> simp [hnx]
    · have : n = x.length := by omega
      subst this
      have hodd : ¬ x.length % 2 = 0 := by omega
      simp [hodd]

example : legallQ.Ok ∧ PR legallQ.dec_lo legallQ.dec_hi legallQ.rec_lo legallQ.rec_hi ∧
    SignalOk .smooth [(3 : ℚ), 1, 4, 1, 5] := ⟨legallQ_ok, legallQ_PR, by decide⟩

/-- **C06.** Outside periodization, `idwt` of two arrays of equal length `L` with `2L+2 > F` has
`2L-F+2` samples, sample `n` being `Σ_k cA[k]·rec_lo[n+F-2-2k] + cD[k]·rec_hi[n+F-2-2k]`. -/
theorem C06_idwt_is_synthesis {w : Wavelet R} (hw : w.Ok) {mode : Mode} (hm : mode ≠ .periodization)
    {a d : List M} (hl : a.length = d.length) (hlong : w.rec_len < 2 * a.length + 2) :
    ∃ r, idwt w mode (some a) (some d) = .ok r ∧ r.length = 2 * a.length + 2 - w.rec_len ∧
      ∀ n (h : n < r.length), r[n] =
        ∑ k ∈ range a.length, (tap w.rec_lo (n + w.rec_len - 2 - 2 * k) • a.getD k 0 +
          tap w.rec_hi (n + w.rec_len - 2 - 2 * k) • d.getD k 0) := by
  refine ⟨_, idwt_ok hw hl (by simp only [synthLen, hm, if_false]; omega), ?_, ?_⟩
  · rw [synthesis_length]; simp [synthLen, hm, Wavelet.rec_len]
  · intro n h
    have hs : synthesis mode w.rec_lo w.rec_hi a d =
          (List.range (2 * a.length + 2 - w.rec_lo.length)).map fun n : ℕ =>
          conv w.rec_lo (upsample (ext .zero a)) ((n : ℤ) + (w.rec_lo.length - 2)) +
          conv w.rec_hi (upsample (ext .zero d)) ((n : ℤ) + (w.rec_lo.length - 2)) := by
        cases mode <;> first | rfl | exact absurd rfl hm
    simp only [hs, List.getElem_map, List.getElem_range, conv_upsample_eq_sum, ← hl,
      sum_add_distrib, Wavelet.rec_len, add_sub_assoc]

example : legallQ.Ok ∧ Mode.zero ≠ .periodization ∧ [(3 : ℚ), 1, 4].length = [(1 : ℚ), 5, 9].length ∧
    legallQ.rec_len < 2 * 3 + 2 := by decide

/-- **C06.** In periodization mode the coefficients are indexed circularly and `2L` samples are
returned, starting at position `F/2-1` of the upsampled convolution. -/
theorem C06_idwt_periodization {w : Wavelet R} (hw : w.Ok) {a d : List M}
    (hl : a.length = d.length) (hlong : 1 ≤ a.length) :
    ∃ r, idwt w .periodization (some a) (some d) = .ok r ∧ r.length = 2 * a.length ∧
      ∀ n (h : n < r.length), r[n] = ∑ t ∈ range w.rec_len,
        if ((n : ℤ) + (w.rec_len / 2 : ℕ) - 1 - t) % 2 = 0 then
          w.rec_lo.getD t 0 •
            a.getD ((((n : ℤ) + (w.rec_len / 2 : ℕ) - 1 - t) / 2) % a.length).toNat 0 +
          w.rec_hi.getD t 0 •
            d.getD ((((n : ℤ) + (w.rec_len / 2 : ℕ) - 1 - t) / 2) % a.length).toNat 0
        else 0 := by
  have h6 : w.rec_hi.length = w.rec_lo.length := by have := hw.2.2.2; omega
  refine ⟨_, idwt_ok hw hl (by simp only [synthLen, if_true]; omega), ?_, ?_⟩
  · rw [synthesis_length]; simp [synthLen]
  · intro n h
    simp only [synthesis, List.getElem_map, List.getElem_range, conv, h6, Wavelet.rec_len,
      ← sum_add_distrib, Spec.upsample, Spec.ext, at', ← hl, add_sub_assoc]
    apply sum_congr rfl
    intro t _
    split <;> simp

example : legallQ.Ok ∧ [(3 : ℚ)].length = [(1 : ℚ)].length ∧ 1 ≤ [(3 : ℚ)].length := by decide

/-- **C06.** A missing array is treated as an array of zeros; two missing arrays are rejected. -/
theorem C06_idwt_none (w : Wavelet R) (mode : Mode) (c : List M) :
    idwt w mode (some c) none = idwt w mode (some c) (some (List.replicate c.length 0)) ∧
    idwt w mode none (some c) = idwt w mode (some (List.replicate c.length 0)) (some c) ∧
    idwt w mode (none : Option (List M)) none = .error .value :=
  ⟨rfl, rfl, rfl⟩

/-- **C06.** Arrays of different lengths are rejected. -/
theorem C06_idwt_length_mismatch (w : Wavelet R) (mode : Mode) {a d : List M}
    (h : a.length ≠ d.length) : idwt w mode (some a) (some d) = .error .value := by
  unfold idwt idwtSingle
  simp only [h, ne_eq, not_false_eq_true, if_true]
  rfl

example : [(3 : ℚ), 1].length ≠ [(1 : ℚ)].length := by decide

/-- Entrywise `a·x + b·y`. -/
def linComb {S : Type} [SMul S M] (a b : S) (x y : List M) : List M :=
  List.zipWith (fun u v => a • u + b • v) x y

/-- **C07 (general form).** Applying a linear map to every sample commutes with `dwt`, errors
included. -/
theorem C07_dwt_natural {M' : Type} [AddCommGroup M'] [Module R M'] {w : Wavelet R} (hw : w.Ok)
    (φ : M →ₗ[R] M') (mode : Mode) (x : List M) :
    dwt w mode (x.map φ) = (dwt w mode x).map fun c => (c.1.map φ, c.2.map φ) := by
  by_cases hx : SignalOk mode x
  · rw [dwt_ok hw hx, dwt_ok hw ((signalOk_map φ mode x).mpr hx), analysis_map, analysis_map]
    rfl
  · rw [dwt_err hw hx, dwt_err hw (mt (signalOk_map φ mode x).mp hx)]
    rfl

example : legallQ.Ok := legallQ_ok

/-- **C07 (general form).** The same for `idwt`. -/
theorem C07_idwt_natural {M' : Type} [AddCommGroup M'] [Module R M'] {w : Wavelet R} (hw : w.Ok)
    (φ : M →ₗ[R] M') (mode : Mode) {a d r : List M}
    (h : idwt w mode (some a) (some d) = .ok r) :
    idwt w mode (some (a.map φ)) (some (d.map φ)) = .ok (r.map φ) := by
  rcases idwtSingle_total hw mode a d with ⟨hl, hs, h1⟩ | ⟨-, h1⟩
  · rw [idwt_ok hw (by simpa using hl) (by simpa using hs), synthesis_map]
    have h2 : idwt w mode (some a) (some d) = _ := h1
    rw [h2] at h
    simp only [Except.ok.injEq] at h
    rw [h]
  · have h2 : idwt w mode (some a) (some d) = idwtSingle w mode a d := rfl
    rcases h1 with h1 | h1 <;> rw [h2, h1] at h <;> simp at h

example : idwt haarQ .zero (some [(1 : ℚ), 2]) (some [3, 4]) = .ok [4, -2, 6, -2] := by
  decide +kernel

theorem map_fst_zip {x y : List M} (h : x.length = y.length) :
    (x.zip y).map (LinearMap.fst R M M) = x := by
  have : (x.zip y).map Prod.fst = x := List.map_fst_zip (by omega)
  simpa using this

theorem map_snd_zip {x y : List M} (h : x.length = y.length) :
    (x.zip y).map (LinearMap.snd R M M) = y := by
  have : (x.zip y).map Prod.snd = y := List.map_snd_zip (by omega)
  simpa using this

end Pywt

namespace Pywt

open Finset Spec

variable {R M : Type} [CommRing R] [AddCommGroup M] [Module R M]

theorem linComb_eq_map (a b : R) (z : List (M × M)) :
    linComb a b (z.map (LinearMap.fst R M M)) (z.map (LinearMap.snd R M M)) =
      z.map (a • LinearMap.fst R M M + b • LinearMap.snd R M M) := by
  induction z with
  | nil => rfl
  | cons p z ih => simp [linComb] at ih ⊢

/-- **C07.** `dwt` is linear: `dwt(a·x + b·y) = a·dwt(x) + b·dwt(y)`. -/
theorem C07_dwt_linear {w : Wavelet R} (hw : w.Ok) {mode : Mode} {x y xA xD yA yD : List M}
    (hl : x.length = y.length) (a b : R)
    (hx : dwt w mode x = .ok (xA, xD)) (hy : dwt w mode y = .ok (yA, yD)) :
    dwt w mode (linComb a b x y) = .ok (linComb a b xA yA, linComb a b xD yD) := by
  have h1 := C07_dwt_natural hw (LinearMap.fst R M M) mode (x.zip y)
  have h2 := C07_dwt_natural hw (LinearMap.snd R M M) mode (x.zip y)
  have h3 := C07_dwt_natural hw (a • LinearMap.fst R M M + b • LinearMap.snd R M M) mode (x.zip y)
  rw [map_fst_zip hl, hx] at h1
  rw [map_snd_zip hl, hy] at h2
  rw [← linComb_eq_map, map_fst_zip hl, map_snd_zip hl] at h3
  rw [h3]
  cases hz : dwt w mode (x.zip y) with
  | error e => rw [hz] at h1; simp [Except.map] at h1
  | ok c =>
    rw [hz] at h1 h2
    simp only [Except.map, Except.ok.injEq, Prod.mk.injEq] at h1 h2 ⊢
    obtain ⟨rfl, rfl⟩ := h1
    obtain ⟨rfl, rfl⟩ := h2
    exact ⟨(linComb_eq_map _ _ _).symm, (linComb_eq_map _ _ _).symm⟩

example : [(1 : ℚ), 3, 5].length = [(2 : ℚ), 4, 6].length ∧
    dwt haarQ .zero [(1 : ℚ), 3, 5] = .ok ([2, 5 / 2], [-1, 5 / 2]) ∧
    dwt haarQ .zero [(2 : ℚ), 4, 6] = .ok ([3, 3], [-1, 3]) := by decide +kernel

/-- **C07.** `idwt` is linear in the coefficients. -/
theorem C07_idwt_linear {w : Wavelet R} (hw : w.Ok) {mode : Mode} {xA xD yA yD x y : List M}
    (hl : xA.length = yA.length) (a b : R)
    (hx : idwt w mode (some xA) (some xD) = .ok x) (hy : idwt w mode (some yA) (some yD) = .ok y) :
    idwt w mode (some (linComb a b xA yA)) (some (linComb a b xD yD)) = .ok (linComb a b x y) := by
  have e1 : xA.length = xD.length := by
    by_contra h
    rw [C06_idwt_length_mismatch w mode h] at hx
    simp at hx
  have e2 : yA.length = yD.length := by
    by_contra h
    rw [C06_idwt_length_mismatch w mode h] at hy
    simp at hy
  have hl2 : xD.length = yD.length := by omega
  have hz : ∃ z, idwt w mode (some (xA.zip yA)) (some (xD.zip yD)) = .ok z := by
    rcases idwtSingle_total hw mode xA xD with ⟨-, hs, -⟩ | ⟨-, h1⟩
    · exact ⟨_, idwt_ok hw (by simp [← hl, e1, ← hl2]) (by simp [← hl, hs])⟩
    · have h2 : idwt w mode (some xA) (some xD) = idwtSingle w mode xA xD := rfl
      rcases h1 with h1 | h1 <;> rw [h2, h1] at hx <;> simp at hx
  obtain ⟨z, hz⟩ := hz
  have h1 := C07_idwt_natural hw (LinearMap.fst R M M) mode hz
  have h2 := C07_idwt_natural hw (LinearMap.snd R M M) mode hz
  have h3 := C07_idwt_natural hw (a • LinearMap.fst R M M + b • LinearMap.snd R M M) mode hz
  rw [map_fst_zip hl, map_fst_zip hl2, hx] at h1
  rw [map_snd_zip hl, map_snd_zip hl2, hy] at h2
  rw [← linComb_eq_map, ← linComb_eq_map, map_fst_zip hl, map_snd_zip hl, map_fst_zip hl2,
    map_snd_zip hl2, ← linComb_eq_map] at h3
  simp only [Except.ok.injEq] at h1 h2
  rw [h3, ← h1, ← h2]

example : [(1 : ℚ), 2].length = [(0 : ℚ), 1].length ∧
    idwt haarQ .zero (some [(1 : ℚ), 2]) (some [3, 4]) = .ok [4, -2, 6, -2] ∧
    idwt haarQ .zero (some [(0 : ℚ), 1]) (some [1, 1]) = .ok [1, -1, 2, 0] := by decide +kernel

/-- **C07 (complex data).** The transform of complex data with real filters is the transform of the
real part plus `i` times the transform of the imaginary part. -/
theorem C07_dwt_complex {w : Wavelet ℝ} (hw : w.Ok) {mode : Mode} {x cA cD : List ℂ}
    (h : dwt w mode x = .ok (cA, cD)) :
    dwt w mode (x.map Complex.re) = .ok (cA.map Complex.re, cD.map Complex.re) ∧
    dwt w mode (x.map Complex.im) = .ok (cA.map Complex.im, cD.map Complex.im) := by
  have h1 := C07_dwt_natural hw Complex.reLm mode x
  have h2 := C07_dwt_natural hw Complex.imLm mode x
  rw [h] at h1 h2
  exact ⟨h1, h2⟩

example : ∃ (w : Wavelet ℝ) (x cA cD : List ℂ), w.Ok ∧ dwt w .zero x = .ok (cA, cD) ∧
    1 ≤ x.length :=
  ⟨⟨[1, 1], [1, -1], [1, 1], [-1, 1]⟩, [1, Complex.I], _, _, by decide, dwt_ok (by decide) (by simp [SignalOk, LenOk]),
    by simp⟩

end Pywt
