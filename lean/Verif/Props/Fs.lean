import Verif.Proof.FsHeld
import Verif.Proof.Examples

/-!
# C24: the fully separable transform

`FsResolves shape wavelet mode levels axes ps`: the arguments of a call on data of this shape denote
the list `ps` of axes, each with its wavelet, mode and number of levels (Spec/Fs.lean).
`x.fsTransform ps` replaces, axis after axis, every line by the concatenation of the arrays of its 1-D
multilevel transform; `x.fsSubband ps key` keeps along each axis only the array with the given number.
-/

namespace Pywt

open Finset Spec

set_option autoImplicit false
set_option linter.unusedSectionVars false

section
variable {R M : Type} [Ring R] [AddCommGroup M] [Module R M]

/-- `fswavedecn(x, wavelet, mode, levels, axes)`: the coefficients are the separable transform of `x`;
the reported slices cut the lines along each axis into the arrays `[cA_n, cD_n, …, cD_1]`; the reported
axes, wavelets, modes and levels are those of the call. -/
theorem C24_fswavedecn {x : Arr M} {wavelet : PerAxis (Wavelet R)} {mode : PerAxis Mode}
    {levels : PerAxis (Option ℤ)} {axes : Option (List ℤ)} {ps : List (FsAxis R)}
    (hr : FsResolves x.shape wavelet mode levels axes ps) (hok : FsOk x.shape ps) :
    ∃ r, fswavedecn x wavelet mode levels axes = .ok r ∧ r.coeffs = x.fsTransform ps ∧
      r.axes = ps.map (·.arg) ∧ r.wavelets = ps.map (·.w) ∧ r.modes = ps.map (·.mode) ∧
      r.levels = ps.map (·.n) ∧
      r.slices = ps.map fun p =>
        sliceTable (cascadeLens p.mode p.w.dec_len (x.shape.getD p.ax 0) p.n) := by
  refine ⟨_, fswavedecn_ok hr hok, rfl, rfl, rfl, rfl, ?_, ?_⟩
  · unfold FsResult.levels
    rw [List.map_map]
    apply List.map_congr_left
    intro p _
    simp only [Function.comp_apply, FsAxis.slices]
    rw [offsetSlices_length, FsAxis.lens_length]
    rfl
  · apply List.map_congr_left
    intro p _
    exact offsetSlices_table _

/-- `r[key] = v` on a result object after any history of assignments: a value of the right shape is
stored; reading the key returns it, and reading any other key returns what it returned before.  A value
of another shape is rejected. -/
theorem C24_set_get {x : Arr M} {wavelet : PerAxis (Wavelet R)} {mode : PerAxis Mode}
    {levels : PerAxis (Option ℤ)} {axes : Option (List ℤ)} {ps : List (FsAxis R)}
    (hr : FsResolves x.shape wavelet mode levels axes ps) (hok : FsOk x.shape ps)
    {r : FsResult R M} (h : FsHeld x wavelet mode levels axes r)
    {key : List ℕ} (hk : FsKey ps key) (v : Arr M) :
    (v.shape = fsItemShape ps x.shape key →
      ∃ r', r.setItem (key.map fun k : ℕ => (k : ℤ)) v = .ok r' ∧
        r'.getItem (key.map fun k : ℕ => (k : ℤ)) = .ok v ∧
        ∀ key', FsKey ps key' → key' ≠ key →
          r'.getItem (key'.map fun k : ℕ => (k : ℤ)) = r.getItem (key'.map fun k : ℕ => (k : ℤ))) ∧
    (v.shape ≠ fsItemShape ps x.shape key →
      r.setItem (key.map fun k : ℕ => (k : ℤ)) v = .error .value) := by
  have hs := h.setting hr hok
  constructor
  · intro hv
    obtain ⟨r', h1, _, _, h4, h5⟩ := setItem_getItem hs hk (hv.trans (item_shape hs hk).symm)
    exact ⟨r', h1, h4, h5⟩
  · intro hv
    have hg := getItem_ok hs hk
    unfold FsResult.getItem at hg
    rw [validateIndex_ok hs hk] at hg
    simp only [Py_bind_ok] at hg
    unfold FsResult.setItem
    rw [validateIndex_ok hs hk]
    simp only [Py_bind_ok]
    cases h2 : r.getCoefSl ((key.map fun k : ℕ => (k : ℤ)).map Int.toNat) with
    | error e => rw [h2] at hg; simp at hg
    | ok sl =>
      rw [h2] at hg
      simp only [Py_bind_ok] at hg ⊢
      rw [hg]
      simp only [Py_bind_ok]
      rw [if_pos (by rw [item_shape hs hk]; exact Ne.symm hv)]
      rfl

/-- Every item can be read, and has the shape of its key. -/
theorem C24_get_shape {x : Arr M} {wavelet : PerAxis (Wavelet R)} {mode : PerAxis Mode}
    {levels : PerAxis (Option ℤ)} {axes : Option (List ℤ)} {ps : List (FsAxis R)}
    (hr : FsResolves x.shape wavelet mode levels axes ps) (hok : FsOk x.shape ps)
    {r : FsResult R M} (h : FsHeld x wavelet mode levels axes r)
    {key : List ℕ} (hk : FsKey ps key) :
    ∃ v, r.getItem (key.map fun k : ℕ => (k : ℤ)) = .ok v ∧ v.shape = fsItemShape ps x.shape key :=
  ⟨_, getItem_ok (h.setting hr hok) hk, item_shape (h.setting hr hok) hk⟩

/-- Keys with the wrong number of entries, a negative entry or an entry above the number of levels
are rejected, when reading and when writing. -/
theorem C24_bad_key_rejected {x : Arr M} {wavelet : PerAxis (Wavelet R)} {mode : PerAxis Mode}
    {levels : PerAxis (Option ℤ)} {axes : Option (List ℤ)} {ps : List (FsAxis R)}
    (hr : FsResolves x.shape wavelet mode levels axes ps) (hok : FsOk x.shape ps)
    {r : FsResult R M} (h : FsHeld x wavelet mode levels axes r)
    {key : List ℤ} (hk : ¬ List.Forall₂ (fun (p : FsAxis R) (l : ℤ) => 0 ≤ l ∧ l ≤ p.n) ps key)
    (v : Arr M) :
    r.getItem key = .error .value ∧ r.setItem key v = .error .value := by
  have hs := h.setting hr hok
  have hv : r.validateIndex key = .error .value := by
    unfold FsResult.validateIndex
    by_cases h1 : key.length ≠ r.axes.length
    · rw [if_pos h1]; rfl
    · rw [if_neg h1]
      by_cases h2 : (key.any fun l => decide (l < 0)) = true
      · rw [if_pos h2]; rfl
      · rw [if_neg h2]
        have h3 : ((key.zip r.levels).any fun p => decide (p.1 > (p.2 : ℤ))) = true := by
          by_contra h3
          apply hk
          rw [hs.is.1, List.length_map, not_not] at h1
          rw [hs.levels] at h3
          clear hk hs h hr hok
          induction ps generalizing key with
          | nil =>
            have : key = [] := List.length_eq_zero_iff.mp h1
            subst this
            exact .nil
          | cons p ps ih =>
            cases key with
            | nil => simp at h1
            | cons l key =>
              simp only [List.any_cons, Bool.or_eq_true, decide_eq_true_eq, not_or, not_lt] at h2
              simp only [List.map_cons, List.zip_cons_cons, List.any_cons, Bool.or_eq_true,
                decide_eq_true_eq, not_or, gt_iff_lt, not_lt] at h3
              exact .cons ⟨h2.1, h3.1⟩ (ih (by simpa using h1) h2.2 h3.2)
        rw [if_pos h3]
        rfl
  constructor
  · unfold FsResult.getItem
    rw [hv]
    rfl
  · unfold FsResult.setItem
    rw [hv]
    rfl

/-- `detail_keys()`: exactly the keys other than the all-zero key of the approximation, each once, in
increasing order. -/
theorem C24_detail_keys {x : Arr M} {wavelet : PerAxis (Wavelet R)} {mode : PerAxis Mode}
    {levels : PerAxis (Option ℤ)} {axes : Option (List ℤ)} {ps : List (FsAxis R)}
    (hr : FsResolves x.shape wavelet mode levels axes ps) (hok : FsOk x.shape ps)
    {r : FsResult R M} (h : FsHeld x wavelet mode levels axes r) :
    (∀ key, key ∈ r.detailKeys ↔ FsKey ps key ∧ key ≠ List.replicate ps.length 0) ∧
    r.detailKeys.Pairwise (· < ·) := by
  have hs := h.setting hr hok
  have hsorted := prodRanges_sorted r.levels
  have hnd : (FsResult.prodRanges r.levels).Nodup := hsorted.imp fun h => ne_of_lt h
  unfold FsResult.detailKeys
  refine ⟨fun key => ?_, hsorted.sublist List.erase_sublist⟩
  rw [hnd.mem_erase_iff, mem_prodRanges, hs.levels, hs.is.1, List.length_map,
    List.forall₂_map_left_iff]
  exact and_comm

/-- `r.approx` is the item of the all-zero key. -/
theorem C24_approx {x : Arr M} {wavelet : PerAxis (Wavelet R)} {mode : PerAxis Mode}
    {levels : PerAxis (Option ℤ)} {axes : Option (List ℤ)} {ps : List (FsAxis R)}
    (hr : FsResolves x.shape wavelet mode levels axes ps) (hok : FsOk x.shape ps)
    {r : FsResult R M} (h : FsHeld x wavelet mode levels axes r) :
    r.approx = r.getItem (List.replicate ps.length 0) := by
  have hs := h.setting hr hok
  have hk : FsKey ps (List.replicate ps.length 0) := by
    unfold FsKey
    clear hs h hr hok
    induction ps with
    | nil => exact .nil
    | cons p ps ih => exact .cons (Nat.zero_le _) ih
  have e : (List.replicate ps.length (0 : ℤ)) =
      (List.replicate ps.length 0).map fun k : ℕ => (k : ℤ) := by simp
  have hle : r.slices.length ≤ r.coeffs.ndim := by
    have h1 : r.coeffs.ndim = x.shape.length := hs.is.2.2.2.2.1
    rw [h1, hs.is.2.1, List.length_map]
    have hax : ∀ k ∈ ps.map (·.ax), k < x.shape.length := by
      intro k hk
      obtain ⟨p, hp, rfl⟩ := List.mem_map.mp hk
      exact (hs.axes p hp).2
    have := (hs.nodup.subperm (l₂ := List.range x.shape.length)
      fun k hk => List.mem_range.mpr (hax k hk)).length_le
    simpa using this
  unfold FsResult.approx FsResult.getItem
  rw [e, validateIndex_ok hs hk, toNat_key]
  simp only [Py_bind_ok]
  have : r.getCoefSl (List.replicate r.coeffs.ndim 0) = r.getCoefSl (List.replicate ps.length 0) := by
    unfold FsResult.getCoefSl
    rw [zip_replicate _ _ hle, hs.is.2.1, List.length_map]
  rw [this]

/-- `fswaverecn` after any history of assignments: axis after axis, every line is cut at the reported
slices and replaced by its 1-D multilevel inverse. -/
theorem C24_fswaverecn {x : Arr M} {wavelet : PerAxis (Wavelet R)} {mode : PerAxis Mode}
    {levels : PerAxis (Option ℤ)} {axes : Option (List ℤ)} {ps : List (FsAxis R)}
    (hr : FsResolves x.shape wavelet mode levels axes ps) (hok : FsOk x.shape ps)
    {r : FsResult R M} (h : FsHeld x wavelet mode levels axes r) :
    fswaverecn r = .ok (r.coeffs.fsInverse ps x.shape) := by
  have hs := h.setting hr hok
  exact fswaverecn_ok hs.is hs.nodup hs.axes hok

/-- `r.coeffs = c` with an array of another shape is rejected. -/
theorem C24_set_coeffs (r : FsResult R M) (c : Arr M) :
    r.setCoeffs c = if c.shape = r.coeffs.shape then .ok { r with coeffs := c }
      else .error .value := by
  unfold FsResult.setCoeffs
  by_cases h : c.shape = r.coeffs.shape
  · rw [if_pos h, if_neg (not_not.mpr h)]; rfl
  · rw [if_neg h, if_pos h]; rfl

/-- Repeated axes and axes outside the array are rejected, as is a list of levels that does not have
the length of the list of axes. -/
theorem C24_fswavedecn_rejects (x : Arr M) (wavelet : PerAxis (Wavelet R)) (mode : PerAxis Mode)
    (levels : PerAxis (Option ℤ)) (axes : List ℤ) :
    ((¬ axes.Nodup ∨ ∃ a ∈ axes, ¬ ∃ k, AxisIs x.ndim a k) →
      fswavedecn x wavelet mode levels (some axes) = .error .axis) ∧
    (∀ ls, levels = .many ls → ls.length ≠ axes.length → axes.Nodup →
      (∀ a ∈ axes, ∃ k, AxisIs x.ndim a k) →
      fswavedecn x wavelet mode levels (some axes) = .error .value) := by
  have key : ∀ l : List ℤ, (∃ a ∈ l, ¬ ∃ k, AxisIs x.ndim a k) → axesShapes x.shape l = .error .axis := by
    intro l
    induction l with
    | nil => simp
    | cons a l ih =>
      intro h
      unfold axesShapes
      by_cases ha : ∃ k, AxisIs x.ndim a k
      · obtain ⟨k, hk⟩ := ha
        rw [AxisIs.pyIndex (shape := x.shape) hk]
        simp only
        rw [ih]
        · rfl
        · obtain ⟨b, hb, hb'⟩ := h
          rcases List.mem_cons.mp hb with rfl | hb
          · exact absurd ⟨k, hk⟩ hb'
          · exact ⟨b, hb, hb'⟩
      · rw [pyIndex_none (shape := x.shape) ha]
        rfl
  have key2 : ∀ l : List ℤ, (∀ a ∈ l, ∃ k, AxisIs x.ndim a k) → ∃ s, axesShapes x.shape l = .ok s := by
    intro l
    induction l with
    | nil => intro _; exact ⟨[], rfl⟩
    | cons a l ih =>
      intro h
      obtain ⟨k, hk⟩ := h a (by simp)
      obtain ⟨s, hs⟩ := ih fun b hb => h b (by simp [hb])
      unfold axesShapes
      rw [AxisIs.pyIndex (shape := x.shape) hk]
      simp only
      rw [hs]
      exact ⟨_, rfl⟩
  constructor
  · intro h
    unfold fswavedecn checkFsAxes
    simp only [Option.getD_some]
    by_cases hn : axes.Nodup
    · have h' := h.resolve_left (not_not.mpr hn)
      rw [if_neg (not_not.mpr hn), key _ h']
      rfl
    · rw [if_pos hn]
      rfl
  · rintro ls rfl hl hn ha
    obtain ⟨s, hs⟩ := key2 axes ha
    unfold fswavedecn checkFsAxes fsLevels
    simp only [Option.getD_some]
    rw [if_neg (not_not.mpr hn), hs, if_pos hl]
    rfl

end

section
variable {R M : Type} [CommRing R] [AddCommGroup M] [Module R M]

/-- The item of a key of the transform is the subband of that key: along each axis the coefficient
array with that number of every line, and nothing else. -/
theorem C24_items {x : Arr M} {wavelet : PerAxis (Wavelet R)} {mode : PerAxis Mode}
    {levels : PerAxis (Option ℤ)} {axes : Option (List ℤ)} {ps : List (FsAxis R)}
    (hr : FsResolves x.shape wavelet mode levels axes ps) (hok : FsOk x.shape ps)
    {r : FsResult R M} (h : fswavedecn x wavelet mode levels axes = .ok r)
    {key : List ℕ} (hk : FsKey ps key) :
    r.getItem (key.map fun k : ℕ => (k : ℤ)) = .ok (x.fsSubband ps key) := by
  rw [getItem_ok ((FsHeld.result h).setting hr hok) hk]
  rw [fswavedecn_ok hr hok, Except.ok.injEq] at h
  subst h
  simp only
  rw [subband_of_transform hr.2.2.2.2.2 (fun p hp => (hr.2.2.2.2.1 p hp).1.2)
    (fun p hp => (hok p hp).1) hk]

/-- `fswaverecn` inverts `fswavedecn`: the result has the shape of `x`, except that an odd length
along a transformed axis grows by one, and restricted to the shape of `x` it equals `x`. -/
theorem C24_round_trip {x : Arr M} {wavelet : PerAxis (Wavelet R)} {mode : PerAxis Mode}
    {levels : PerAxis (Option ℤ)} {axes : Option (List ℤ)} {ps : List (FsAxis R)}
    (hr : FsResolves x.shape wavelet mode levels axes ps) (hok : FsOk x.shape ps)
    (hpr : ∀ p ∈ ps, PR p.w.dec_lo p.w.dec_hi p.w.rec_lo p.w.rec_hi) :
    ∃ r y, fswavedecn x wavelet mode levels axes = .ok r ∧ fswaverecn r = .ok y ∧
      y.ndim = x.ndim ∧
      (∀ p ∈ ps, y.shape.getD p.ax 0 =
        x.shape.getD p.ax 0 + if p.n = 0 then 0 else x.shape.getD p.ax 0 % 2) ∧
      (∀ k, k ∉ ps.map (·.ax) → y.shape.getD k 0 = x.shape.getD k 0) ∧
      ∀ idx, InB x.shape idx → y.get idx = x.get idx := by
  have ha : ∀ p ∈ ps, AxisIs x.shape.length p.arg p.ax := fun p hp => (hr.2.2.2.2.1 p hp).1
  have hrt := fs_round_trip (x := x) hr.2.2.2.2.2 (fun p hp => (ha p hp).2) hok hpr
  refine ⟨_, _, fswavedecn_ok hr hok, C24_fswaverecn hr hok (.result (fswavedecn_ok hr hok)),
    ?_, hrt.2.1, hrt.2.2, hrt.1.2.2⟩
  exact hrt.1.1

end

section
variable {R M : Type} [Ring R] [AddCommGroup M] [Module R M]

/-- A number of levels for which 1-D `wavedec` rejects the lines along that axis is rejected. -/
theorem C24_fswavedecn_bad_level {x : Arr M} {wavelet : PerAxis (Wavelet R)} {mode : PerAxis Mode}
    {levels : PerAxis (Option ℤ)} {axes : Option (List ℤ)} {ps : List (FsAxis R)}
    (hr : FsResolves x.shape wavelet mode levels axes ps) (hw : ∀ p ∈ ps, p.w.Ok)
    (hbad : ∃ p ∈ ps, ¬ LevelsOk p.mode p.w.dec_len (x.shape.getD p.ax 0) p.n) :
    fswavedecn x wavelet mode levels axes = .error .value :=
  fswavedecn_err hr hw hbad

end

/-! ### The hypotheses are satisfiable -/

/-- The example: a 3 × 2 array, all axes, two levels along the first axis and the default number along
the second. -/
def fsExample : List (FsAxis ℚ) :=
  [⟨0, some 2, haarQ, .symmetric, 0, 2⟩, ⟨1, none, haarQ, .symmetric, 1, 1⟩]

def fsData : Arr ℚ := ⟨[3, 2], [1, 2, 3, 5, 7, 11], rfl⟩

theorem fsExample_resolves : FsResolves fsData.shape (.one haarQ) (.one .symmetric)
    (.many [some 2, none]) none fsExample := by
  refine ⟨rfl, rfl, rfl, rfl, ?_, by decide⟩
  intro p hp
  simp only [fsExample, List.mem_cons, List.not_mem_nil, or_false] at hp
  rcases hp with rfl | rfl
  · exact ⟨⟨by decide, by decide⟩, rfl⟩
  · exact ⟨⟨by decide, by decide⟩, by decide +kernel⟩

theorem fsExample_ok : FsOk fsData.shape fsExample ∧
    ∀ p ∈ fsExample, PR p.w.dec_lo p.w.dec_hi p.w.rec_lo p.w.rec_hi := by
  refine ⟨?_, ?_⟩ <;> intro p hp <;>
    simp only [fsExample, List.mem_cons, List.not_mem_nil, or_false] at hp <;>
    rcases hp with rfl | rfl
  · exact ⟨haarQ_ok, by decide⟩
  · exact ⟨haarQ_ok, by decide⟩
  · exact haarQ_PR
  · exact haarQ_PR

example : FsKey fsExample [1, 0] ∧ FsKey fsExample [2, 1] ∧
    fsItemShape fsExample fsData.shape [2, 1] = [2, 1] ∧
    ¬ List.Forall₂ (fun (p : FsAxis ℚ) (l : ℤ) => 0 ≤ l ∧ l ≤ p.n) fsExample [0, 2] := by
  refine ⟨.cons (by decide) (.cons (by decide) .nil), .cons (by decide) (.cons (by decide) .nil),
    by decide, ?_⟩
  intro h
  cases h with
  | cons _ h =>
    cases h with
    | cons h _ => exact absurd h.2 (by decide)

/-- The object returned for the example, and one after an assignment. -/
example : ∃ r r' : FsResult ℚ ℚ,
    fswavedecn fsData (.one haarQ) (.one .symmetric) (.many [some 2, none]) none = .ok r ∧
    r.setItem [2, 1] ⟨[2, 1], [10, 20], rfl⟩ = .ok r' ∧
    FsHeld fsData (.one haarQ) (.one .symmetric) (.many [some 2, none]) none r' ∧
    r.coeffs.data = [47/8, -11/8, -25/8, 5/8, -5/4, 1/4, 0, 0] ∧
    r'.coeffs.data = [47/8, -11/8, -25/8, 5/8, -5/4, 10, 0, 20] ∧
    r.detailKeys = [[0, 1], [1, 0], [1, 1], [2, 0], [2, 1]] := by
  obtain ⟨r, h1, h2, h3, h4, h5, h6, h7⟩ := C24_fswavedecn fsExample_resolves fsExample_ok.1
  obtain ⟨r', s1, s2, s3⟩ := (C24_set_get fsExample_resolves fsExample_ok.1 (.result h1)
    (key := [2, 1]) (.cons (by decide) (.cons (by decide) .nil)) ⟨[2, 1], [10, 20], rfl⟩).1
    (by decide)
  have hr : fswavedecn fsData (.one haarQ) (.one .symmetric) (.many [some 2, none]) none =
      .ok ⟨⟨[4, 2], [47/8, -11/8, -25/8, 5/8, -5/4, 1/4, 0, 0], rfl⟩,
        [[⟨0, some 1⟩, ⟨1, some 2⟩, ⟨2, some 4⟩], [⟨0, some 1⟩, ⟨1, some 2⟩]],
        [haarQ, haarQ], [.symmetric, .symmetric], [0, 1]⟩ := by
    rw [h1]
    congr 1
    obtain ⟨c, sl, ws, ms, as⟩ := r
    simp only at h2 h3 h4 h5 h7
    subst h2 h3 h4 h5 h7
    congr 1
    decide +kernel
  rw [hr, Except.ok.injEq] at h1
  subst h1
  refine ⟨_, r', hr, s1, .item (.result hr) s1, rfl, ?_, by decide +kernel⟩
  have : r'.coeffs = ⟨[4, 2], [47/8, -11/8, -25/8, 5/8, -5/4, 10, 0, 20], rfl⟩ := by
    obtain ⟨c, hc, _⟩ := setItem_with s1
    subst hc
    have hx := s1
    have hy : ∀ r0 : FsResult ℚ ℚ, FsResult.setItem (⟨⟨[4, 2], [47/8, -11/8, -25/8, 5/8, -5/4, 1/4, 0, 0], rfl⟩,
        [[⟨0, some 1⟩, ⟨1, some 2⟩, ⟨2, some 4⟩], [⟨0, some 1⟩, ⟨1, some 2⟩]],
        [haarQ, haarQ], [.symmetric, .symmetric], [0, 1]⟩ : FsResult ℚ ℚ) [2, 1]
        (⟨[2, 1], [10, 20], rfl⟩ : Arr ℚ) = .ok r0 → r0.coeffs = ⟨[4, 2], [47/8, -11/8, -25/8, 5/8, -5/4, 10, 0, 20], rfl⟩ := by
      intro r0 h0
      have : (FsResult.setItem (⟨⟨[4, 2], [47/8, -11/8, -25/8, 5/8, -5/4, 1/4, 0, 0], rfl⟩,
        [[⟨0, some 1⟩, ⟨1, some 2⟩, ⟨2, some 4⟩], [⟨0, some 1⟩, ⟨1, some 2⟩]],
        [haarQ, haarQ], [.symmetric, .symmetric], [0, 1]⟩ : FsResult ℚ ℚ) [2, 1]
        (⟨[2, 1], [10, 20], rfl⟩ : Arr ℚ)).map (·.coeffs) =
          .ok ⟨[4, 2], [47/8, -11/8, -25/8, 5/8, -5/4, 10, 0, 20], rfl⟩ := by decide +kernel
      rw [h0] at this
      simpa [Except.map] using this
    exact hy _ hx
  rw [this]

example : (¬ ([0, 0] : List ℤ).Nodup) ∧ (¬ ∃ k, AxisIs 2 (2 : ℤ) k) ∧
    ¬ LevelsOk .reflect haarQ.dec_len 2 2 := by
  refine ⟨by decide, ?_, by decide⟩
  rintro ⟨k, h, h'⟩
  simp at h
  omega

/-- The check for repeated axes compares the numbers as given: on a 1-D array the axes `(0, -1)`,
which are the same axis, are accepted, and with different levels `fswaverecn` does not return the
data. -/
theorem C24_repeated_axis_undetected :
    ∃ r y, fswavedecn (⟨[4], [1, 2, 3, 5], rfl⟩ : Arr ℚ) (.one haarQ) (.one .symmetric)
        (.many [some 1, some 2]) (some [0, -1]) = .ok r ∧
      fswaverecn r = .ok y ∧ y.data = [4, 0, -1, -4] := by
  have hr : ((fswavedecn (⟨[4], [1, 2, 3, 5], rfl⟩ : Arr ℚ) (.one haarQ) (.one .symmetric)
        (.many [some 1, some 2]) (some [0, -1])).bind fun r => (fswaverecn r).map (·.data)) =
      .ok [4, 0, -1, -4] := by decide +kernel
  cases h1 : fswavedecn (⟨[4], [1, 2, 3, 5], rfl⟩ : Arr ℚ) (.one haarQ) (.one .symmetric)
        (.many [some 1, some 2]) (some [0, -1]) with
  | error e => rw [h1] at hr; simp [Except.bind] at hr
  | ok r =>
    rw [h1] at hr
    simp only [Except.bind] at hr
    cases h2 : fswaverecn r with
    | error e => rw [h2] at hr; simp [Except.map] at hr
    | ok y =>
      rw [h2] at hr
      simp only [Except.map, Except.ok.injEq] at hr
      exact ⟨r, y, rfl, h2, hr⟩

end Pywt
