import Verif.Proof.SwtAdjoint

/-!
# Property C74: the inverse stationary transform solves the least-squares problem
-/

set_option autoImplicit false

namespace Pywt

open Finset Spec

section
variable {R : Type} [CommRing R] [Invertible (2 : R)]

/-- What `swt` with `trim_approx=True` and `norm=True` returns, and what lengths it has. -/
theorem swt_trimmed_form {w : Wavelet R} (hw : w.Ok) {s : R} {l : ℕ} {x : List R} {cs : List (List R)}
    (h : swt w (some (l : ℤ)) 0 true (some s) x = .ok (.trimmed cs)) :
    1 ≤ l ∧ 1 ≤ x.length ∧ 2 ^ l ∣ x.length ∧
      cs = swtApprox (w.dec_lo.map (· * s)) 0 x l ::
        ((List.range l).map fun j => swtDetail (w.dec_lo.map (· * s)) (w.dec_hi.map (· * s)) 0 x j).reverse := by
  have he := swt_eq hw l 0 true (some s) x
  rw [Nat.cast_zero, h] at he
  split_ifs at he with hc
  simp only [Except.ok.injEq, swtResult, if_true, SwtCoeffs.trimmed.injEq, Wavelet.normed, Wavelet.rescale] at he
  rw [zero_add] at hc
  exact ⟨hc.1, hc.2.1, hc.2.2, he⟩

theorem swt_trimmed_lens {w : Wavelet R} (hw : w.Ok) {s : R} {l : ℕ} {x : List R} {cs : List (List R)}
    (h : swt w (some (l : ℤ)) 0 true (some s) x = .ok (.trimmed cs)) :
    cs.map List.length = List.replicate (l + 1) x.length := by
  obtain ⟨-, -, -, rfl⟩ := swt_trimmed_form hw h
  refine List.eq_replicate_iff.mpr ⟨by simp, ?_⟩
  intro b hb
  obtain ⟨c, hc, rfl⟩ := List.mem_map.mp hb
  simp only [List.mem_cons, List.mem_reverse, List.mem_map] at hc
  rcases hc with rfl | ⟨j, _, rfl⟩
  · simp
  · simp [swtDetail]

/-- **C74 (transpose).** For every filter bank, `iswt(·, w', norm=True)` with the inverse filter bank `w'` is the transpose of
`swt(·, w, trim_approx=True, norm=True)`.  (`s` is the factor `1/√2` of `swt`, `s' = 2 s` the factor `√2` of `iswt`.) -/
theorem C74_swt_adjoint {w : Wavelet R} (hw : w.Ok) {s s' : R} (hs : s' = 2 * s) {l : ℕ} {x : List R} {cs c : List (List R)}
    (h : swt w (some (l : ℤ)) 0 true (some s) x = .ok (.trimmed cs)) (hc : c.map List.length = cs.map List.length) :
    ∃ y, iswt w.inverse (some s') (.trimmed c) = .ok y ∧ y.length = x.length ∧ (List.zipWith sprod cs c).sum = sprod x y := by
  rw [swt_trimmed_lens hw h] at hc
  obtain ⟨h1, h2, h3, rfl⟩ := swt_trimmed_form hw h
  obtain ⟨a, ds, rfl⟩ : ∃ a ds, c = a :: ds := by
    cases c with
    | nil => simp at hc
    | cons a ds => exact ⟨a, ds, rfl⟩
  rw [List.map_cons, List.replicate_succ, List.cons.injEq] at hc
  obtain ⟨ha, hd⟩ := hc
  have hn : ds.length = l := by simpa using congrArg List.length hd
  have hdl : ∀ d ∈ ds, d.length = x.length := by
    intro d hdm
    have := List.mem_map_of_mem (f := List.length) hdm
    rw [hd] at this
    exact List.eq_of_mem_replicate this
  have hwi : (w.inverse.normed (some s')).Ok := (inverse_ok hw).normed (some s')
  have hlo : w.dec_lo.length % 2 = 0 := hw.2.1
  have hhi : w.dec_hi.length % 2 = 0 := by rw [hw.2.2.1]; exact hw.2.1
  refine ⟨_, iswtLoop_gen hwi ds a (by omega) (by rw [hn, ha]; exact h3) (fun d hdm => (hdl d hdm).trans ha.symm), ?_, ?_⟩
  · rw [iswtCascade_length _ _ _ _ (fun d hdm => (hdl d hdm).trans ha.symm), ha]
  · rw [List.zipWith_cons_cons, List.sum_cons]
    exact iswtCascade_adjoint hs hlo hhi h2 l ds a hn ha hdl

/-- `haar` as in the table, with the factors `1/√2` and `√2` of the code. -/
theorem haarR_orthogonal : OrthogonalBank haarR :=
  ⟨haarR_ok, by simp [haarR], by simp [haarR], haarR_PR⟩

theorem sqrt2_eq : Real.sqrt 2 = 2 * (1 / Real.sqrt 2) := by
  have h : Real.sqrt 2 * Real.sqrt 2 = 2 := Real.mul_self_sqrt (by norm_num)
  have h0 : Real.sqrt 2 ≠ 0 := by positivity
  field_simp
  linarith

example : haarR.Ok ∧ Real.sqrt 2 = 2 * (1 / Real.sqrt 2) ∧
    ∃ cs, swt haarR (some ((2 : ℕ) : ℤ)) 0 true (some (1 / Real.sqrt 2)) [(1 : ℝ), 2, 3, 4] = .ok (.trimmed cs) ∧
      [[(1 : ℝ), 0, 0, 7], [0, 0, 2, 0], [5, 0, 1, 0]].map List.length = cs.map List.length := by
  have he := swt_eq haarR_ok 2 0 true (some (1 / Real.sqrt 2)) [(1 : ℝ), 2, 3, 4]
  rw [if_pos (by decide)] at he
  exact ⟨haarR_ok, sqrt2_eq, _, he, (swt_trimmed_lens haarR_ok he).symm ▸ rfl⟩

/-- **C74 (least squares).** For an orthogonal filter bank and `norm=True`, take any coefficient arrays `c` of the right number and
length (edited ones, say).  `y = iswt(c)` is the one and only signal whose stationary transform is closest to `c`: for every
signal `z`, `‖swt(z) - c‖² = ‖z - y‖² + ‖swt(y) - c‖²`. -/
theorem C74_iswt_least_squares {w : Wavelet R} (h : OrthogonalBank w) {s s' : R} (hs : 2 * (s * s) = 1) (hs' : s' = 2 * s) {l N : ℕ}
    (hl : 1 ≤ l) (hN : 1 ≤ N) (hd : 2 ^ l ∣ N) {c : List (List R)} (hc : c.map List.length = List.replicate (l + 1) N) :
    ∃ y cs, iswt w (some s') (.trimmed c) = .ok y ∧ y.length = N ∧
      swt w (some (l : ℤ)) 0 true (some s) y = .ok (.trimmed cs) ∧
      ∀ z : List R, z.length = N → ∃ zs, swt w (some (l : ℤ)) 0 true (some s) z = .ok (.trimmed zs) ∧
        dist2s zs c = dist2 z y + dist2s cs c := by
  obtain ⟨hw, hr1, hr2, hpr⟩ := h
  have hinv : ∀ c : SwtCoeffs (List R), iswt w.inverse (some s') c = iswt w (some s') c := by
    have e : w.inverse = w := by
      unfold Wavelet.inverse
      rw [hr1, hr2, List.reverse_reverse, List.reverse_reverse, ← hr1, ← hr2]
    intro c
    rw [e]
  have hswt : ∀ z : List R, z.length = N → ∃ zs, swt w (some (l : ℤ)) 0 true (some s) z = .ok (.trimmed zs) := by
    intro z hz
    have he := swt_eq hw l 0 true (some s) z
    rw [Nat.cast_zero, if_pos ⟨hl, by omega, by rw [zero_add, hz]; exact hd⟩] at he
    exact ⟨_, he⟩
  have key : ∀ z : List R, z.length = N → ∃ zs y, swt w (some (l : ℤ)) 0 true (some s) z = .ok (.trimmed zs) ∧
      iswt w (some s') (.trimmed c) = .ok y ∧ y.length = N ∧
      dist2s zs c = energy z - 2 * sprod z y + (c.map energy).sum := by
    intro z hz
    obtain ⟨zs, hzs⟩ := hswt z hz
    have hlen := swt_trimmed_lens hw hzs
    obtain ⟨y, y1, y2, y3⟩ := C74_swt_adjoint hw hs' hzs (c := c) (by rw [hc, hlen, hz])
    rw [hinv] at y1
    refine ⟨zs, y, hzs, y1, y2.trans hz, ?_⟩
    have he := C17_swt_energy hw (by rw [← hr1, ← hr2]; exact hpr) hs (l := l) (m := 0) (x := z) (arrs := zs) hzs
    rw [dist2s_expand (by rw [hc, hlen, hz]), y3, he]
  obtain ⟨-, y, -, y1, y2, -⟩ := key (List.replicate N 0) (by simp)
  obtain ⟨cs, y', c1, c2, c3, c4⟩ := key y y2
  rw [y1] at c2
  obtain rfl := Except.ok.inj c2
  refine ⟨y, cs, y1, y2, c1, fun z hz => ?_⟩
  obtain ⟨zs, y', d1, d2, d3, d4⟩ := key z hz
  rw [y1] at d2
  obtain rfl := Except.ok.inj d2
  refine ⟨zs, d1, ?_⟩
  rw [d4, c4, sprod_self, dist2_expand (hz.trans y2.symm)]
  ring

example : OrthogonalBank haarR ∧ 2 * ((1 / Real.sqrt 2) * (1 / Real.sqrt 2)) = 1 ∧ Real.sqrt 2 = 2 * (1 / Real.sqrt 2) ∧
    2 ^ 2 ∣ 4 ∧ [[(1 : ℝ), 0, 0, 7], [0, 0, 2, 0], [5, 0, 1, 0]].map List.length = List.replicate (2 + 1) 4 :=
  ⟨haarR_orthogonal, inv_sqrt2_sq, sqrt2_eq, by decide, rfl⟩

end

section
variable {K : Type} [Field K] [LinearOrder K] [IsStrictOrderedRing K] [Invertible (2 : K)]

/-- **C74 (edits).** Hence the reconstruction of edited stationary coefficients is at most as far from the signal as the edited
coefficients are from those of the signal. -/
theorem C74_edit_contracts {w : Wavelet K} (h : OrthogonalBank w) {s s' : K} (hs : 2 * (s * s) = 1) (hs' : s' = 2 * s) {l : ℕ}
    {x : List K} {cs c : List (List K)} (hx : swt w (some (l : ℤ)) 0 true (some s) x = .ok (.trimmed cs))
    (hc : c.map List.length = cs.map List.length) :
    ∃ y, iswt w (some s') (.trimmed c) = .ok y ∧ y.length = x.length ∧ dist2 x y ≤ dist2s cs c := by
  obtain ⟨h1, h2, h3, -⟩ := swt_trimmed_form h.1 hx
  obtain ⟨y, ys, y1, y2, y3, y4⟩ := C74_iswt_least_squares h hs hs' h1 h2 h3 (hc.trans (swt_trimmed_lens h.1 hx))
  refine ⟨y, y1, y2, ?_⟩
  obtain ⟨zs, z1, z2⟩ := y4 x rfl
  rw [hx] at z1
  obtain rfl : cs = zs := by simpa using z1
  have hn : 0 ≤ dist2s ys c := by
    unfold dist2s
    refine List.sum_nonneg fun v hv => ?_
    obtain ⟨i, hi, rfl⟩ := List.mem_iff_getElem.mp hv
    rw [List.getElem_zipWith]
    exact dist2_nonneg _ _
  linarith

end

example : OrthogonalBank haarR ∧ 2 * ((1 / Real.sqrt 2) * (1 / Real.sqrt 2)) = 1 ∧ Real.sqrt 2 = 2 * (1 / Real.sqrt 2) ∧
    ∃ cs, swt haarR (some ((2 : ℕ) : ℤ)) 0 true (some (1 / Real.sqrt 2)) [(1 : ℝ), 2, 3, 4] = .ok (.trimmed cs) ∧
      [[(1 : ℝ), 0, 0, 7], [0, 0, 2, 0], [5, 0, 1, 0]].map List.length = cs.map List.length := by
  have he := swt_eq haarR_ok 2 0 true (some (1 / Real.sqrt 2)) [(1 : ℝ), 2, 3, 4]
  rw [if_pos (by decide)] at he
  exact ⟨haarR_orthogonal, inv_sqrt2_sq, sqrt2_eq, _, he, (swt_trimmed_lens haarR_ok he).symm ▸ rfl⟩

end Pywt
