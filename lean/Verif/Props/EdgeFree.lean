import Verif.Proof.EdgeFree

/-!
# Property C73: the level limit and the warning about edge effects
-/

set_option autoImplicit false

namespace Pywt

open Finset Spec

section
variable {R M : Type} [Ring R] [AddCommGroup M] [Module R M]

/-- **C73 (the limit keeps its promise).** At every level up to `dwt_max_level` at least one coefficient is free of edge
effects. -/
theorem C73_max_level_edge_free {w : Wavelet R} (hw : w.Ok) {n L : ℕ} (hL : dwtMaxLevel n w.dec_len = .ok L) {j : ℕ} (hj : 1 ≤ j)
    (hjL : j ≤ L) : ∃ k, EdgeFree M w n j k := by
  have hF : 2 ≤ w.dec_len := hw.1
  have hL' : L = dwtMaxLevelC n w.dec_len := by
    unfold dwtMaxLevel at hL
    rw [if_neg (by omega)] at hL
    simpa using hL.symm
  subst hL'
  have h1 : (w.dec_len - 1) * 2 ^ j ≤ n := by
    rcases (dwtMaxLevelC_le (n := n) (F := w.dec_len) (L := j) hF).mp hjL with h | h
    · omega
    · exact h
  have hp : 0 < 2 ^ j := by positivity
  have h2 : w.dec_len - 1 ≤ n / 2 ^ j := (Nat.le_div_iff_mul_le hp).mpr h1
  have h3 : 2 ^ j * (w.dec_len - 1) ≤ 2 ^ j * (n / 2 ^ j) := Nat.mul_le_mul_left _ h2
  have h4 : (w.dec_len - 1) * (2 ^ j - 1) + (w.dec_len - 1) = 2 ^ j * (w.dec_len - 1) := by
    obtain ⟨q, hq⟩ : ∃ q, 2 ^ j = q + 1 := ⟨2 ^ j - 1, by omega⟩
    rw [hq, Nat.add_sub_cancel]
    ring
  obtain ⟨k, hk⟩ := (exists_interior (mode := .zero) (by simp) (F := w.dec_len) (N := n) (j := j)).mpr (by omega)
  exact ⟨k, edgeFree_of_interior hw hj hk⟩

example : haarQ.Ok ∧ dwtMaxLevel 1000 haarQ.dec_len = .ok 9 ∧ 1 ≤ 9 := by
  refine ⟨haarQ_ok, by decide +kernel, by decide⟩

/-- **C73 (the warning, 1-D).** `wavedec` warns exactly for levels above `dwt_max_level` (never for `level=None`), and the
warning does not change the result. -/
theorem C73_wavedec_warns {w : Wavelet R} (hw : w.Ok) (mode : Mode) (level : Option ℤ) (x : List M) :
    ∃ L : ℕ, dwtMaxLevel x.length w.dec_len = .ok L ∧
      wavedecWarn w mode level x =
        (wavedec w mode level x).map fun cs => (cs, level.any fun l => decide ((L : ℤ) < l)) := by
  have hF : 2 ≤ w.dec_len := hw.1
  refine ⟨dwtMaxLevelC x.length w.dec_len, by unfold dwtMaxLevel; rw [if_neg (by omega)], ?_⟩
  unfold wavedecWarn wavedec
  rw [checkLevelWarn_eq, checkLevel_one hF none]
  simp only [Py_bind_ok]
  cases checkLevel [x.length] [w.dec_len] level with
  | error e => rfl
  | ok l =>
    simp only [Py_bind_ok, Py_pure]
    cases wavedecLoop w mode l x [] <;> rfl

/-- **C73 (the warning, n-D).** `wavedecn` warns exactly for levels that are above `dwt_max_level` on one of the axes. -/
theorem C73_wavedecn_warns {st : List (Stage R)} (hne : st ≠ []) {x : Arr M} {wavelet : PerAxis (Wavelet R)} {mode : PerAxis Mode}
    {axes : Option (List ℤ)} (hr : Resolves x.ndim wavelet mode axes st) (hb : ∀ s ∈ st, s.1 < x.ndim ∧ s.2.1.Ok)
    (hn : (st.map (·.1)).Nodup) (level : Option ℤ) :
    ∃ b, wavedecnWarn x wavelet mode level axes = (wavedecn x wavelet mode level axes).map (fun cs => (cs, b)) ∧
      (b = true ↔ ∃ l : ℕ, level = some (l : ℤ) ∧ ∃ s ∈ st, ∃ L, dwtMaxLevel (x.shape.getD s.1 0) s.2.1.dec_len = .ok L ∧ L < l) := by
  have hd : 1 ≤ x.ndim := by
    cases st with
    | nil => exact absurd rfl hne
    | cons s st => have := (hb s (by simp)).1; omega
  obtain ⟨L, hL, hL2⟩ := checkLevel_stages (shape := x.shape) hne fun s hs => (hb s hs).2.1
  refine ⟨level.any fun l => decide ((L : ℤ) < l), ?_, ?_⟩
  · have hp := prepAxes_ok (shape := x.shape) hd hr (fun s hs => (hb s hs).1) hn
    have hw : wavelet.expand (axes.getD (rangeAxes x.shape.length)).length = .ok (st.map (·.2.1)) := by
      have h2 := hr.2.1
      rw [← hr.length] at h2
      exact h2
    simp only [wavedecnWarn, wavedecn, hp, Py_bind_ok]
    rw [hw]
    simp only [Py_bind_ok]
    rw [checkLevelWarn_eq, hL none]
    simp only [Py_bind_ok]
    cases checkLevel (st.map fun s : Stage R => x.shape.getD s.1 0) ((st.map (·.2.1)).map (·.dec_len)) level with
    | error e => rfl
    | ok l =>
      simp only [Py_bind_ok, Py_pure]
      cases wavedecnLoop wavelet mode (axes.getD (rangeAxes x.shape.length)) l x [] <;> rfl
  · exact warn_iff hb hL2 level

example : Resolves (R := ℚ) 2 (.one haarQ) (.one .zero) none [(0, haarQ, .zero), (1, haarQ, .zero)] ∧
    (match wavedecnWarn (⟨[2, 1], [3, 1], rfl⟩ : Arr ℚ) (.one haarQ) (.one .zero) (some 1) none with
      | .ok r => r.2 | .error _ => false) = true ∧
    (match wavedecnWarn (⟨[2, 1], [3, 1], rfl⟩ : Arr ℚ) (.one haarQ) (.one .zero) (some 1) (some [0]) with
      | .ok r => r.2 | .error _ => true) = false := by
  refine ⟨⟨rfl, rfl, rfl⟩, by decide +kernel, by decide +kernel⟩

/-- **C73 (the warning, 2-D).** The same for `wavedec2`. -/
theorem C73_wavedec2_warns {s t : Stage R} {x : Arr M} {wavelet : PerAxis (Wavelet R)} {mode : PerAxis Mode}
    {axes : List ℤ} (hr : Resolves x.ndim wavelet mode (some axes) [s, t]) (hb : ∀ u ∈ [s, t], u.1 < x.ndim ∧ u.2.1.Ok)
    (level : Option ℤ) :
    ∃ b, wavedec2Warn x wavelet mode level axes = (wavedec2 x wavelet mode level axes).map (fun cs => (cs, b)) ∧
      (b = true ↔ ∃ l : ℕ, level = some (l : ℤ) ∧
        ∃ u ∈ [s, t], ∃ L, dwtMaxLevel (x.shape.getD u.1 0) u.2.1.dec_len = .ok L ∧ L < l) := by
  obtain ⟨L, hL, hL2⟩ := checkLevel_stages (shape := x.shape) (st := [s, t]) (by simp) fun s hs => (hb s hs).2.1
  refine ⟨level.any fun l => decide ((L : ℤ) < l), ?_, warn_iff hb hL2 level⟩
  have hp : axesShapes x.shape axes = .ok ([s, t].map fun s : Stage R => x.shape.getD s.1 0) :=
    axesShapes_ok (fun s hs => (hb s hs).1) hr.axes_eq
  have hw : wavelet.expand axes.length = .ok ([s, t].map (·.2.1)) := by
    have h2 := hr.2.1
    rw [← hr.length] at h2
    exact h2
  unfold wavedec2Warn wavedec2
  by_cases h1 : x.ndim < 2
  · rw [if_pos h1, if_pos h1]; rfl
  by_cases h2 : axes.length ≠ 2
  · rw [if_neg h1, if_neg h1, if_pos h2, if_pos h2]; rfl
  by_cases h3 : ¬ axes.Nodup
  · rw [if_neg h1, if_neg h1, if_neg h2, if_neg h2, if_pos h3, if_pos h3]; rfl
  rw [if_neg h1, if_neg h1, if_neg h2, if_neg h2, if_neg h3, if_neg h3, hp, hw]
  simp only [Py_bind_ok, Py_pure]
  rw [checkLevelWarn_eq, hL none]
  simp only [Py_bind_ok]
  cases checkLevel ([s, t].map fun s : Stage R => x.shape.getD s.1 0) (([s, t].map (·.2.1)).map (·.dec_len)) level with
  | error e => rfl
  | ok l =>
    simp only [Py_bind_ok, Py_pure]
    cases wavedec2Loop wavelet mode axes l x [] <;> rfl

example : Resolves (R := ℚ) 2 (.one haarQ) (.one .zero) (some [-1, 0]) [(1, haarQ, .zero), (0, haarQ, .zero)] ∧
    (match wavedec2Warn (⟨[2, 1], [3, 1], rfl⟩ : Arr ℚ) (.one haarQ) (.one .zero) (some 1) [-1, 0] with
      | .ok r => r.2 | .error _ => false) = true := by
  refine ⟨⟨rfl, rfl, rfl⟩, by decide +kernel⟩

/-- **C73 (what the warning says is true, `_partial`).** The text of the warning: "all coefficients will experience boundary
effects".  If `wavedec` warns and `2^level ≥ F - 1` for the filter length `F`, then every coefficient of the last level looks at
samples outside of the signal.  Missing: the smaller levels, for which the text is wrong (`C73_warning_overstates`). -/
theorem C73_warning_true_partial {w : Wavelet R} (hw : w.Ok) {mode : Mode} (hm : mode ≠ .periodization) {l : ℕ} {x : List M}
    {cs : List (List M)} (h : wavedecWarn w mode (some (l : ℤ)) x = .ok (cs, true)) (hl : w.dec_len ≤ 2 ^ l + 1) :
    ∀ k, ¬ Interior mode w.dec_len x.length l k := by
  obtain ⟨L, hL, h2⟩ := C73_wavedec_warns hw mode (some (l : ℤ)) x
  have hF : 2 ≤ w.dec_len := hw.1
  rw [h2] at h
  have hlt : L < l := by
    cases hc : wavedec w mode (some (l : ℤ)) x with
    | error e => rw [hc] at h; cases h
    | ok r =>
      rw [hc] at h
      have := (Prod.mk.inj (Except.ok.inj h)).2
      simpa using this
  have hL' : L = dwtMaxLevelC x.length w.dec_len := by
    unfold dwtMaxLevel at hL
    rw [if_neg (by omega)] at hL
    simpa using hL.symm
  subst hL'
  have h1 : ¬ (w.dec_len - 1) * 2 ^ l ≤ x.length := fun h => by
    have := (dwtMaxLevelC_le (n := x.length) (F := w.dec_len) (L := l) hF).mpr (.inr h)
    omega
  have hp : 0 < 2 ^ l := by positivity
  have h3 : ¬ w.dec_len - 1 ≤ x.length / 2 ^ l := fun h => h1 ((Nat.le_div_iff_mul_le hp).mp h)
  rw [← not_exists, exists_interior hm, not_lt]
  obtain ⟨f, hf⟩ : ∃ f, w.dec_len = f + 2 := ⟨w.dec_len - 2, by omega⟩
  obtain ⟨q, hq⟩ : ∃ q, 2 ^ l = q + 1 := ⟨2 ^ l - 1, by omega⟩
  have h4 : x.length / 2 ^ l ≤ f := by omega
  calc 2 ^ l * (x.length / 2 ^ l) ≤ 2 ^ l * f := Nat.mul_le_mul_left _ h4
    _ ≤ (w.dec_len - 1) * (2 ^ l - 1) := by
      rw [hf, hq, Nat.add_sub_cancel, show f + 2 - 1 = f + 1 by omega]
      have : f ≤ q := by omega
      nlinarith

example : haarQ.Ok ∧ haarQ.dec_len ≤ 2 ^ 2 + 1 ∧
    (match wavedecWarn haarQ .zero (some ((2 : ℕ) : ℤ)) [(1 : ℚ), 2, 5] with | .ok r => r.2 | .error _ => false) = true := by
  refine ⟨haarQ_ok, by decide, by decide +kernel⟩

/-- **C73 (the warning overstates).** For every wavelet with at least four filter taps, `wavedec(x, w, level=1)` of a signal of
`2 F - 3` samples warns that all coefficients will experience boundary effects, in every mode; but coefficient `F/2 - 1` is free
of edge effects. -/
theorem C73_warning_overstates {w : Wavelet R} (hw : w.Ok) (hF : 4 ≤ w.dec_len) {mode : Mode} {x : List M}
    (hx : x.length = 2 * w.dec_len - 3) :
    (∃ cs, wavedecWarn w mode (some 1) x = .ok (cs, true)) ∧ EdgeFree M w x.length 1 (w.dec_len / 2 - 1) := by
  have hev : w.dec_len % 2 = 0 := hw.2.1
  refine ⟨?_, edgeFree_of_interior hw le_rfl ?_⟩
  · obtain ⟨L, hL, h2⟩ := C73_wavedec_warns hw mode (some 1) x
    have hL' : L = dwtMaxLevelC x.length w.dec_len := by
      unfold dwtMaxLevel at hL
      rw [if_neg (by omega)] at hL
      simpa using hL.symm
    have h0 : L < 1 := by
      by_contra hc
      have := (dwtMaxLevelC_le (n := x.length) (F := w.dec_len) (L := 1) (by omega)).mp (by omega)
      rcases this with h | h
      · omega
      · rw [pow_one] at h; omega
    have h3 := C09_wavedec_explicit_level hw mode 1 x
    rw [if_neg (by omega), if_pos] at h3
    · refine ⟨cascade mode w.dec_lo w.dec_hi (Int.toNat 1) x, ?_⟩
      rw [h2, h3]
      have : (some (1 : ℤ)).any (fun l => decide ((L : ℤ) < l)) = true := by simpa using by omega
      rw [this]
      rfl
    · intro j hj
      obtain rfl : j = 0 := by simpa using hj
      simp only [approxLen, Function.iterate_zero, id_eq]
      refine ⟨by omega, fun _ => by omega⟩
  · unfold Interior windowEnd
    simp
    omega

example : legallQ.Ok ∧ 4 ≤ legallQ.dec_len ∧ [(1 : ℚ), 0, 2, 0, 3, 0, 4, 0, 5].length = 2 * legallQ.dec_len - 3 := by
  refine ⟨legallQ_ok, by decide, by decide⟩

end

end Pywt
