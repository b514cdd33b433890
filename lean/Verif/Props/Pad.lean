import Verif.Proof.Pad
import Verif.Proof.Examples

/-!
# Properties C33 and C44: the extension modes and `pad`

`Verif.Spec.Pad`: `window e l len` is the list of positions `-l, …` of a bi-infinite signal, `ExtLaws` the documented
laws of each mode.
-/

namespace Pywt

open Finset Spec

set_option autoImplicit false

variable {R M : Type} [Ring R] [AddCommGroup M] [Module R M]

/-- C44.  For every mode and every signal the mode is defined for, exactly one bi-infinite signal satisfies the
documented laws of the mode. -/
theorem C44_extension_determined {mode : Mode} {x : List M} (hx : SignalOk mode x) :
    ∃ e, ExtLaws mode x e ∧ ∀ e', ExtLaws mode x e' → e' = e :=
  ⟨_, ext_laws hx, fun _ h => laws_unique hx h (ext_laws hx)⟩

/-- C44.  Outside periodization `dwt` returns the odd positions of the filtered signal `e`, for any `e` that satisfies
the documented laws of the mode. -/
theorem C44_dwt_filters_extension {w : Wavelet R} (hw : w.Ok) {mode : Mode} (hm : mode ≠ .periodization)
    {x : List M} (hx : SignalOk mode x) {e : ℤ → M} (he : ExtLaws mode x e) :
    dwt w mode x =
      .ok ((List.range ((x.length + w.dec_len - 1) / 2)).map fun o : ℕ =>
            ∑ j ∈ range w.dec_len, w.dec_lo.getD j 0 • e (2 * o + 1 - j),
          (List.range ((x.length + w.dec_len - 1) / 2)).map fun o : ℕ =>
            ∑ j ∈ range w.dec_len, w.dec_hi.getD j 0 • e (2 * o + 1 - j)) := by
  have h3 : w.dec_hi.length = w.dec_lo.length := hw.2.2.1
  rw [laws_unique hx he (ext_laws hx), dwt_ok hw hx, analysis_nonper hm, analysis_nonper hm]
  unfold conv Wavelet.dec_len
  rw [h3]

/-- C44.  In periodization mode `dwt` returns the positions `F/2, F/2+2, …` of the filtered signal. -/
theorem C44_dwt_filters_periodization {w : Wavelet R} (hw : w.Ok)
    {x : List M} (hx : SignalOk .periodization x) {e : ℤ → M} (he : ExtLaws .periodization x e) :
    dwt w .periodization x =
      .ok ((List.range ((x.length + 1) / 2)).map fun o : ℕ =>
            ∑ j ∈ range w.dec_len, w.dec_lo.getD j 0 • e (((w.dec_len / 2 : ℕ) : ℤ) + 2 * o - j),
          (List.range ((x.length + 1) / 2)).map fun o : ℕ =>
            ∑ j ∈ range w.dec_len, w.dec_hi.getD j 0 • e (((w.dec_len / 2 : ℕ) : ℤ) + 2 * o - j)) := by
  have h3 : w.dec_hi.length = w.dec_lo.length := hw.2.2.1
  rw [laws_unique hx he (ext_laws hx), dwt_ok hw hx]
  unfold analysis conv Wavelet.dec_len
  simp only [h3]

/-- The laws are not empty: a signal of length three and its half-point antisymmetric extension. -/
example : ExtLaws .antisymmetric [(1 : ℚ), 2, 4] (Spec.ext .antisymmetric [1, 2, 4]) ∧
    (List.range 9).map (fun i : ℕ => Spec.ext .antisymmetric [(1 : ℚ), 2, 4] ((i : ℤ) - 4)) =
      [4, -4, -2, -1, 1, 2, 4, -4, -2] :=
  ⟨ext_laws ⟨by decide, by decide⟩, by decide +kernel⟩

/-- C33.  In the modes other than smooth and antisymmetric, `pad` returns the window of the extended signal: for every
signal the mode is defined for and all widths.  In periodization mode the signal is first made even. -/
theorem C33_pad_is_window {mode : Mode} (h1 : mode ≠ .smooth) (h2 : mode ≠ .antisymmetric) {x : List M}
    (hx : SignalOk mode x) {e : ℤ → M} (he : ExtLaws mode x e) (l r : ℕ) :
    pad x l r (modeName mode) = .ok (window e l
      (l + (if mode = .periodization then x.length + x.length % 2 else x.length) + r)) := by
  rw [laws_unique hx he (ext_laws hx)]
  exact pad_ok hx l r (fun h => absurd h h1) (fun h => absurd h h2)

/-- C33, the smooth and antisymmetric modes.  The full claim would be the same as for the other modes; it is missing
that the right width may be zero and, for the smooth mode, that there may be one sample only.  Both are false, see
below. -/
theorem C33_pad_is_window_partial {mode : Mode} {x : List M}
    (hx : SignalOk mode x) {e : ℤ → M} (he : ExtLaws mode x e) (l r : ℕ) (hr : 1 ≤ r)
    (hs : mode = .smooth → 2 ≤ x.length) :
    pad x l r (modeName mode) = .ok (window e l
      (l + (if mode = .periodization then x.length + x.length % 2 else x.length) + r)) := by
  rw [laws_unique hx he (ext_laws hx)]
  exact pad_ok hx l r (fun h => ⟨hs h, hr⟩) (fun _ => hr)

example : pad [(1 : ℚ), 2, 4] 7 5 "antisymmetric" =
      .ok [-1, 1, 2, 4, -4, -2, -1, 1, 2, 4, -4, -2, -1, 1, 2] ∧
    pad [(1 : ℚ), 2, 4] 2 3 "smooth" = .ok [-1, 0, 1, 2, 4, 6, 8, 10] ∧
    pad [(1 : ℚ), 2, 4] 2 3 "periodization" = .ok [4, 4, 1, 2, 4, 4, 1, 2, 4] ∧
    pad [(1 : ℚ), 2, 4] 5 0 "antireflect" = .ok [-6, -5, -4, -2, 0, 1, 2, 4] := by
  refine ⟨?_, ?_, ?_, ?_⟩ <;> decide +kernel

/-- C33 does not hold with right width zero: `pad` then raises, for every signal. -/
theorem C33_right_width_zero_fails {x : List M} (hx : x ≠ []) (l : ℕ) :
    pad x l 0 "antisymmetric" = .error .value ∧
    (2 ≤ x.length → pad x l 0 "smooth" = .error .value) ∧
    (x.length = 1 → pad x l 0 "smooth" = .error .index) := by
  have hN : 1 ≤ x.length := by
    cases x with
    | nil => exact absurd rfl hx
    | cons => simp
  have hp : ∀ s, pad x l 0 s = padMode x l 0 s := by
    intro s
    unfold pad
    rw [if_neg (by omega)]
    rfl
  have hlen : (List.replicate l 0 ++ x ++ List.replicate 0 0).length = l + x.length := by simp
  have hl1 : (List.replicate l 0 ++ x).length = l + x.length := by simp
  refine ⟨?_, fun h2 => ?_, fun h1 => ?_⟩
  · rw [hp]
    change npPadWith padAntisymmetric x l 0 = _
    unfold npPadWith padAntisymmetric sliceInner npPad
    simp only [if_true, List.length_nil, Nat.add_zero]
    by_cases hl : 0 < l
    · rw [if_pos (by simp [hl])]; rfl
    · have : l = 0 := by omega
      subst this
      rw [if_neg (by simp)]
      simp only [Py_bind_ok]
      rw [if_pos]
      · rfl
      · simp; omega
  · rw [hp]
    change npPadWith padSmooth x l 0 = _
    unfold npPadWith padSmooth
    rw [vecGet_nat (k := l) rfl (by rw [hlen]; omega), vecGet_nat (k := l + 1) (by push_cast; ring) (by rw [hlen]; omega)]
    simp only [Py_bind_ok]
    rw [vecGet_neg (k := l + x.length - 1) (by simp; omega) (by simp),
      vecGet_neg (k := l + x.length - 2) (by simp; omega) (by simp)]
    rfl
  · rw [hp]
    change npPadWith padSmooth x l 0 = _
    unfold npPadWith padSmooth
    rw [vecGet_nat (k := l) rfl (by rw [hlen]; omega)]
    simp only [Py_bind_ok]
    have : vecGet (List.replicate l 0 ++ x ++ List.replicate 0 0) ((l : ℤ) + 1) = .error .index := by
      unfold vecGet
      rw [if_neg (by rw [hlen]; omega), if_neg (by omega)]
    rw [this]
    rfl

/-- C33 does not hold for one sample in smooth mode: `dwt` extends it by its value, `pad` by a line through zero. -/
theorem C33_smooth_single_fails :
    pad [(3 : ℚ)] 1 2 "smooth" = .ok [6, 3, 0, -3] ∧
    window (Spec.ext .smooth [(3 : ℚ)]) 1 4 = [3, 3, 3, 3] := by
  constructor <;> decide +kernel

/-- C33, empty signal and no padding in antisymmetric mode: the loop over the segments does not end, whatever the number
of steps. -/
theorem C33_empty_antisymmetric_hangs (fuel n : ℕ) :
    flipRight 0 fuel n 0 ([] : List M) = .error (.c .fuel) ∧
    pad ([] : List M) 0 0 "antisymmetric" = .error (.c .fuel) := by
  have h : ∀ fuel n, flipRight 0 fuel n 0 ([] : List M) = .error (.c .fuel) := by
    intro fuel
    induction fuel with
    | zero => intro n; rfl
    | succ fuel ih =>
      intro n
      unfold flipRight
      rw [if_pos (by simp)]
      have : (if n % 2 = 1 then negSlice ([] : List M) 0 (min (0 + 0) ([] : List M).length) else []) = [] := by
        split_ifs <;> rfl
      simp only [this]
      exact ih (n + 1)
  exact ⟨h fuel n, rfl⟩

/-- C33.  Negative widths and unknown modes are rejected. -/
theorem C33_pad_rejects (x : List M) (l r : ℤ) (s : String)
    (h : l < 0 ∨ r < 0 ∨ ∀ mode, s ≠ modeName mode) : pad x l r s = .error .value := by
  unfold pad
  by_cases hn : l < 0 ∨ r < 0
  · rw [if_pos hn]
  · rw [if_neg hn]
    have h : ∀ mode, s ≠ modeName mode := by
      rcases h with h | h | h
      · exact absurd (Or.inl h) hn
      · exact absurd (Or.inr h) hn
      · exact h
    unfold padMode
    have h1 := h .symmetric
    have h2 := h .reflect
    have h3 := h .periodic
    have h4 := h .periodization
    have h5 := h .zero
    have h6 := h .constant
    have h7 := h .smooth
    have h8 := h .antisymmetric
    have h9 := h .antireflect
    simp only [modeName, ne_eq] at h1 h2 h3 h4 h5 h6 h7 h8 h9
    simp only [h1, h2, h3, h4, h5, h6, h7, h8, h9, if_false]

/-- C33.  `dwt` of the padded signal in zero mode has `dwt`'s coefficients in the middle: after `l/2` coefficients, if
the left width `l` is even and at least `F-2` and the right width is at least `F-1`. -/
theorem C33_dwt_of_pad {w : Wavelet R} (hw : w.Ok) {mode : Mode} (hm : mode ≠ .periodization) {x : List M}
    (hx : SignalOk mode x) (hs : mode = .smooth → 2 ≤ x.length) {k r : ℕ} (hl : w.dec_len ≤ 2 * k + 2)
    (hr : w.dec_len ≤ r + 1) :
    ∃ y cA cD pA pD, pad x ((2 * k : ℕ) : ℤ) r (modeName mode) = .ok y ∧ dwt w mode x = .ok (cA, cD) ∧
      dwt w .zero y = .ok (pA, pD) ∧ cA.length = (x.length + w.dec_len - 1) / 2 ∧
      (pA.drop k).take cA.length = cA ∧ (pD.drop k).take cD.length = cD := by
  have h3 : w.dec_hi.length = w.dec_lo.length := hw.2.2.1
  have hF : 2 ≤ w.dec_lo.length := hw.1
  unfold Wavelet.dec_len at *
  have hcl : ∀ f : List R, (analysis mode f x).length = (x.length + f.length - 1) / 2 := by
    intro f; rw [analysis_nonper hm]; simp
  refine ⟨_, _, _, _, _, pad_ok hx _ _ (fun h => ⟨hs h, by omega⟩) (fun _ => by omega), dwt_ok hw hx,
    dwt_ok hw ⟨?_, by simp⟩, hcl _, ?_, ?_⟩
  · rw [window_length]; have := hx.1; omega
  · rw [if_neg hm, hcl]
    exact analysis_window hm _ hl hr
  · rw [if_neg hm, hcl]
    exact analysis_window hm _ (by omega) (by omega)

/-- C33.  The same in periodization mode, for left widths of the parity opposite to `F/2`. -/
theorem C33_dwt_of_pad_periodization {w : Wavelet R} (hw : w.Ok) {x : List M} (hx : x ≠ []) {l r k : ℕ}
    (hk : l + w.dec_len / 2 = 2 * k + 1) (hl : w.dec_len ≤ 2 * k + 2) (hr : w.dec_len / 2 ≤ r + 1) :
    ∃ y cA cD pA pD, pad x l r "periodization" = .ok y ∧ dwt w .periodization x = .ok (cA, cD) ∧
      dwt w .zero y = .ok (pA, pD) ∧ cA.length = (x.length + 1) / 2 ∧
      (pA.drop k).take cA.length = cA ∧ (pD.drop k).take cD.length = cD := by
  have h3 : w.dec_hi.length = w.dec_lo.length := hw.2.2.1
  have hN : 1 ≤ x.length := by
    cases x with
    | nil => exact absurd rfl hx
    | cons => simp
  have hok : SignalOk .periodization x := ⟨hN, by simp⟩
  unfold Wavelet.dec_len at *
  have hcl : ∀ f : List R, (analysis .periodization f x).length = (x.length + 1) / 2 := by
    intro f; unfold analysis; simp
  refine ⟨_, _, _, _, _, pad_ok (mode := .periodization) hok _ _ (by simp) (by simp), dwt_ok hw hok,
    dwt_ok hw ⟨?_, by simp⟩, hcl _, ?_, ?_⟩
  · rw [window_length]; simp only [if_true]; omega
  · rw [if_pos rfl, hcl]
    exact analysis_window_per _ hk hl hr
  · rw [if_pos rfl, hcl]
    exact analysis_window_per _ (by rw [h3]; exact hk) (by omega) (by omega)

/-- A wavelet with six taps, a signal shorter than the filter, and widths that satisfy the hypotheses. -/
example : (legallQ.dec_len ≤ 2 * 4 + 2 ∧ legallQ.dec_len ≤ 8 + 1) ∧
    (do
      let y ← pad [(1 : ℚ), 2, 4] 8 8 "antisymmetric"
      let (pA, _) ← dwt legallQ .zero y
      let (cA, _) ← dwt legallQ .antisymmetric [(1 : ℚ), 2, 4]
      pure (decide ((pA.drop 4).take cA.length = cA))) = (.ok true : Py Bool) := by
  constructor <;> decide +kernel

end Pywt
