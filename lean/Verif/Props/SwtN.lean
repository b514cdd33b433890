import Verif.Proof.SwtNTop
import Verif.Props.AxisMulti
import Verif.Props.Swt

/-!
# C45–C47: the stationary transforms of n-D arrays

`Verif.Spec.SwtN` contains the specification.  `SwtResolves ndim wavelet axes norm st`: the arguments
stand for the axes and wavelets `st`, in this order.  `SwtnFits st L shape`: the axes are distinct and in
range, the wavelets well-formed, and the lengths along the axes are non-zero multiples of `2^L`.
`swtnBand st m x j key` is the subband `key` of level `m + j + 1`: every line of the previous approximation
is filtered circularly, axis after axis, with the filter of the letter of `key`, the taps `2^(m+j)` samples
apart; nothing is dropped.  `iswtnCascade` is the inverse: at every level, every subband is filtered with
the synthesis filters, the results are added and halved once for every axis.
-/

namespace Pywt

open Finset Spec

set_option autoImplicit false

section
variable {R M : Type} [Ring R] [AddCommGroup M] [Module R M]

/-! ### C45: the forward transforms -/

/-- **C45.** `swt` of an n-D array along an axis: all arrays have the shape of the data, and every line of
the coefficients is what 1-D `swt` returns for that line of the data, whatever the levels, `trim_approx`
and `norm`. -/
theorem C45_swt_axis_is_swt_of_lines {w : Wavelet R} (hw : w.Ok) {level : Option ℤ} {start : ℤ} {trim : Bool}
    {norm : Option R} {axis : ℤ} {ax : ℕ} {x : Arr M} (hax : AxisIs x.ndim axis ax)
    {r : SwtCoeffs (Arr M)} (h : swtA w level start trim norm axis x = .ok r) :
    (∀ a ∈ r.arrays, a.shape = x.shape) ∧ ∀ idx, OffAxis x ax idx →
      swt w level start trim norm (x.line ax idx) = .ok (r.lines ax idx) := by
  obtain ⟨l, m, rfl, h', hsw⟩ := swtA_level hax h
  rw [swtA_eq hw l m trim norm hax] at h'
  by_cases hc : 1 ≤ l ∧ 1 ≤ x.shape.getD ax 0 ∧ 2 ^ (m + l) ∣ x.shape.getD ax 0
  · rw [if_pos hc] at h'
    simp only [Except.ok.injEq] at h'
    subst h'
    refine ⟨swtLines_shape, ?_⟩
    intro idx hidx
    rw [hsw _ (by simp), swt_eq hw, if_pos (by simpa using hc), swtLines_lines hax.2 hidx]
  · rw [if_neg hc] at h'
    simp at h'

/-- **C45.** `swt` along an axis succeeds exactly if the level is positive and the axis is a non-zero
multiple of `2^(start_level+level)` long; otherwise it raises `ValueError`. -/
theorem C45_swt_axis_accepts {w : Wavelet R} (hw : w.Ok) (l m : ℕ) (trim : Bool) (norm : Option R)
    {axis : ℤ} {ax : ℕ} {x : Arr M} (hax : AxisIs x.ndim axis ax) :
    ((∃ r, swtA w (some (l : ℤ)) (m : ℤ) trim norm axis x = .ok r) ↔
      1 ≤ l ∧ 1 ≤ x.shape.getD ax 0 ∧ 2 ^ (m + l) ∣ x.shape.getD ax 0) ∧
    ((¬ ∃ r, swtA w (some (l : ℤ)) (m : ℤ) trim norm axis x = .ok r) →
      swtA w (some (l : ℤ)) (m : ℤ) trim norm axis x = .error .value) := by
  rw [swtA_eq hw l m trim norm hax]
  by_cases h : 1 ≤ l ∧ 1 ≤ x.shape.getD ax 0 ∧ 2 ^ (m + l) ∣ x.shape.getD ax 0
  · simp only [if_pos h]
    exact ⟨⟨fun _ => h, fun _ => ⟨_, rfl⟩⟩, fun h' => absurd ⟨_, rfl⟩ h'⟩
  · simp only [if_neg h]
    exact ⟨⟨fun ⟨r, hr⟩ => by simp at hr, fun h' => absurd h' h⟩, fun _ => trivial⟩

/-- **C45.** An axis outside the array is an `AxisError`. -/
theorem C45_swt_bad_axis {w : Wavelet R} {level : Option ℤ} {start : ℤ} {trim : Bool} {norm : Option R}
    {axis : ℤ} {x : Arr M} (h : ¬ ∃ ax, AxisIs x.ndim axis ax) :
    swtA w level start trim norm axis x = .error .axis := swtA_bad_axis h

/-- **C45.** The memory layout of the data is irrelevant: strided, transposed and reversed views give the
same coefficients as a C-contiguous copy. -/
theorem C45_swt_any_layout {w : Wavelet R} (hw : w.Ok) (l m : ℕ) {axis : ℕ} (trim : Bool) {c : Mem M}
    (hc : c.Ok) (ha : axis < c.info.shape.length) :
    swtAxisMem w l m axis trim c = swtAxisMem w l m axis trim c.copy.toMem := by
  rw [swtAxisMem_eq hw l m trim hc ha, swtAxisMem_eq hw l m trim c.copy.toMem_ok ha, Arr.copy_toMem]
  rfl

/-- A 2×4 array of rationals. -/
def arr24 : Arr ℚ := ⟨[2, 4], [1, 2, 3, 6, 0, 1, 0, 5], rfl⟩

example : AxisIs arr24.ndim (-1) 1 ∧ swtA haarQ (some 1) 0 false none (-1) arr24 =
    .ok (.pairs [(⟨[2, 4], [3/2, 5/2, 9/2, 7/2, 1/2, 1/2, 5/2, 5/2], rfl⟩,
      ⟨[2, 4], [-1/2, -1/2, -3/2, 5/2, -1/2, 1/2, -5/2, 5/2], rfl⟩)]) ∧
    swtA haarQ (some 2) 0 false none 0 arr24 = .error .value ∧
    ¬ ∃ ax, AxisIs arr24.ndim 2 ax := by
  refine ⟨⟨by decide, by decide⟩, by decide +kernel, by decide +kernel, ?_⟩
  rintro ⟨ax, h1, h2⟩
  simp [arr24, Arr.ndim] at h1 h2
  omega

/-- **C45.** What `swtn` returns: from the coarsest level on, a dict with all subbands of the level, or with
`trim_approx` the last approximation and dicts with all other subbands.  The subbands of every level are
computed from the approximation of the level before. -/
theorem C45_swtn_values {wavelet : PerAxis (Wavelet R)} {axes : Option (List ℤ)} {norm : Option R}
    {st : List (SStage R)} {x : Arr M} (hr : SwtResolves x.ndim wavelet axes norm st)
    (hnd : 1 ≤ x.ndim) {l m : ℕ} (hf : SwtnFits st (m + l) x.shape) :
    (∃ r, swtn x wavelet (l : ℤ) (m : ℤ) axes false norm = .ok (.dicts r) ∧ r.length = l ∧
      ∀ j < l, ∃ d, r[l - 1 - j]? = some d ∧ d.map (·.1) = words st.length ∧
        ∀ k ∈ words st.length, d.lookup k = some (swtnBand st m x j k)) ∧
    (∃ r, swtn x wavelet (l : ℤ) (m : ℤ) axes true norm = .ok (.trimmed (swtnApprox st m x l) r) ∧
      r.length = l ∧
      ∀ j < l, ∃ d, r[l - 1 - j]? = some d ∧
        d.map (·.1) = (words st.length).filter (fun k => k ≠ List.replicate st.length 'a') ∧
        ∀ k ∈ words st.length, k ≠ List.replicate st.length 'a' →
          d.lookup k = some (swtnBand st m x j k)) := by
  constructor
  · refine ⟨_, swtn_ok hr hnd hf false, by simp, ?_⟩
    intro j hj
    refine ⟨swtnDict st m false x j, ?_, ?_, ?_⟩
    · rw [List.getElem?_reverse (by simp; omega)]
      simp only [List.length_map, List.length_range, List.getElem?_map]
      rw [show l - 1 - (l - 1 - j) = j by omega, List.getElem?_range hj]
      rfl
    · rw [swtnDict_keys]
      simp
    · intro k hk
      rw [swtnDict_false, lookup_map hk]
  · refine ⟨_, swtn_ok hr hnd hf true, by simp, ?_⟩
    intro j hj
    refine ⟨swtnDict st m true x j, ?_, ?_, ?_⟩
    · rw [List.getElem?_reverse (by simp; omega)]
      simp only [List.length_map, List.length_range, List.getElem?_map]
      rw [show l - 1 - (l - 1 - j) = j by omega, List.getElem?_range hj]
      rfl
    · rw [swtnDict_keys]
      simp
    · intro k hk hne
      exact swtnDict_lookup true x j hk hne

/-- **C45.** `swtn` of at least one level raises `ValueError` as soon as one of the axes does not allow
the levels. -/
theorem C45_swtn_rejects_lengths {wavelet : PerAxis (Wavelet R)} (hw : wavelet.Ok) {axes : Option (List ℤ)}
    {norm : Option R} {st : List (SStage R)} {x : Arr M} (hr : SwtResolves x.ndim wavelet axes norm st)
    (hnd : 1 ≤ x.ndim) (hn : (st.map (·.1)).Nodup) (hax : ∀ s ∈ st, s.1 < x.ndim) {l m : ℕ}
    (hl : 1 ≤ l) (trim : Bool)
    (h : ∃ s ∈ st, x.shape.getD s.1 0 = 0 ∨ ¬ 2 ^ (m + l) ∣ x.shape.getD s.1 0) :
    swtn x wavelet (l : ℤ) (m : ℤ) axes trim norm = .error .value := by
  refine swtn_err hr hnd hn (fun s hs => ⟨hax s hs, hr.stages_ok hw s hs⟩) hl ?_ trim
  rintro ⟨-, h2⟩
  obtain ⟨s, hs, h3⟩ := h
  have := (h2 s hs).2.2
  rcases h3 with h3 | h3
  · omega
  · exact h3 this.2

/-- **C45.** The checks of the axes: an axis out of range is an `AxisError`; a repeated axis (also as a
negative and a non-negative number) is a `ValueError`; so is an array without axes, and a number of
wavelets that does not fit. -/
theorem C45_swtn_rejects_axes {wavelet : PerAxis (Wavelet R)} (level start : ℤ) (axes : List ℤ)
    (trim : Bool) (norm : Option R) {x : Arr M} (hnd : 1 ≤ x.ndim) :
    ((∃ a ∈ axes, a < -(x.ndim : ℤ) ∨ (x.ndim : ℤ) ≤ a) →
      swtn x wavelet level start (some axes) trim norm = .error .axis) ∧
    ((∀ a ∈ axes, -(x.ndim : ℤ) ≤ a ∧ a < (x.ndim : ℤ)) →
      ¬ (axes.map fun a => if a < 0 then a + (x.ndim : ℤ) else a).Nodup →
      swtn x wavelet level start (some axes) trim norm = .error .value) := by
  have e1 : ¬ x.ndim < 1 := by omega
  constructor
  · rintro ⟨a, ha, h⟩
    have e2 : ((normAxes x.ndim axes).any fun a => decide (a < 0 ∨ a ≥ x.ndim)) = true := by
      rw [List.any_eq_true]
      refine ⟨_, List.mem_map.mpr ⟨a, ha, rfl⟩, ?_⟩
      rw [decide_eq_true_eq]
      split <;> omega
    unfold swtn
    rw [if_neg e1]
    simp only [Option.getD_some, Py_pure, Py_bind_ok, if_pos e2]
    rfl
  · intro h hn
    have e2 : ¬ ((normAxes x.ndim axes).any fun a => decide (a < 0 ∨ a ≥ x.ndim)) = true := by
      rw [List.any_eq_true]
      rintro ⟨b, hb, h2⟩
      obtain ⟨a, ha, rfl⟩ := List.mem_map.mp hb
      have := h a ha
      rw [decide_eq_true_eq] at h2
      split at h2 <;> omega
    have e3 : ¬ (normAxes x.ndim axes).Nodup := hn
    unfold swtn
    rw [if_neg e1]
    simp only [Option.getD_some, Py_pure, Py_bind_ok, if_neg e2, if_pos e3]
    rfl

/-- **C45.** `swtn` does not reject a level that is not positive (1-D `swt` does): it returns no
coefficients, or only the data. -/
theorem C45_swtn_level_zero {wavelet : PerAxis (Wavelet R)} {axes : Option (List ℤ)} {norm : Option R}
    {st : List (SStage R)} {x : Arr M} (hr : SwtResolves x.ndim wavelet axes norm st)
    (hnd : 1 ≤ x.ndim) (hn : (st.map (·.1)).Nodup) (hax : ∀ s ∈ st, s.1 < x.ndim) {level : ℤ}
    (hl : level ≤ 0) (start : ℤ) :
    swtn x wavelet level start axes false norm = .ok (.dicts []) ∧
    swtn x wavelet level start axes true norm = .ok (.trimmed x []) := by
  rw [swtn_unfold hr hnd hax hn, swtn_unfold hr hnd hax hn, show level.toNat = 0 by omega]
  exact ⟨rfl, rfl⟩

/-- **C45.** What `swt2` returns: the subbands of `swtn` for two axes, as tuples. -/
theorem C45_swt2_values {wavelet : PerAxis (Wavelet R)} {axes : List ℤ} {norm : Option R}
    {st : List (SStage R)} {x : Arr M} (hl : st.length = 2)
    (hr : SwtResolves x.ndim wavelet (some axes) norm st) {l m : ℕ}
    (hf : SwtnFits st (m + l) x.shape) :
    swt2 x wavelet (l : ℤ) (m : ℤ) axes false norm =
      .ok (.pairs ((List.range l).map fun j => (swtnApprox st m x (j + 1), (swtnBand st m x j ['d', 'a'],
        swtnBand st m x j ['a', 'd'], swtnBand st m x j ['d', 'd']))).reverse) ∧
    swt2 x wavelet (l : ℤ) (m : ℤ) axes true norm =
      .ok (.trimmed (swtnApprox st m x l) ((List.range l).map fun j => (swtnBand st m x j ['d', 'a'],
        swtnBand st m x j ['a', 'd'], swtnBand st m x j ['d', 'd'])).reverse) :=
  ⟨swt2_ok hl hr hf false, swt2_ok hl hr hf true⟩

example : SwtResolves arr24.ndim (.many [haarQ, legallQ]) (some [1, -2]) none
    [(1, haarQ), (0, legallQ)] ∧ SwtnFits [(1, haarQ), (0, legallQ)] 1 arr24.shape := by
  refine ⟨⟨by decide, [haarQ, legallQ], rfl, rfl⟩, by decide, ?_⟩
  intro s hs
  simp only [List.mem_cons, List.not_mem_nil, or_false] at hs
  rcases hs with rfl | rfl
  · exact ⟨by decide, haarQ_ok, by decide, by decide⟩
  · exact ⟨by decide, legallQ_ok, by decide, by decide⟩

example : swtn arr24 (.one haarQ) 1 0 none true none =
    .ok (.trimmed ⟨[2, 4], [1, 3/2, 7/2, 3, 1, 3/2, 7/2, 3], rfl⟩
      [[(['a', 'd'], ⟨[2, 4], [-1/2, 0, -2, 5/2, -1/2, 0, -2, 5/2], rfl⟩),
        (['d', 'a'], ⟨[2, 4], [1/2, 1, 1, 1/2, -1/2, -1, -1, -1/2], rfl⟩),
        (['d', 'd'], ⟨[2, 4], [0, -1/2, 1/2, 0, 0, 1/2, -1/2, 0], rfl⟩)]]) ∧
    swtn arr24 (.one haarQ) 2 0 none true none = .error .value ∧
    swtn arr24 (.one haarQ) 1 0 (some [0, -2]) true none = .error .value ∧
    swtn arr24 (.one haarQ) 1 0 (some [0, 2]) true none = .error .axis := by decide +kernel

/-! ### C46: the inverse transforms -/

variable [Invertible (2 : R)]

/-- **C46.** `iswt` along an axis, for arbitrary coefficients of one shape: every line of the result is what
1-D `iswt` returns for the lines of the coefficients. -/
theorem C46_iswt_axis_is_iswt_of_lines {w : Wavelet R} (hw : w.Ok) {norm : Option R} {axis : ℤ} {ax : ℕ}
    {S : List ℕ} {c : SwtCoeffs (Arr M)} (hax : AxisIs S.length axis ax) (hs : ∀ a ∈ c.arrays, a.shape = S)
    (hl : 1 ≤ c.levels) (h1 : 1 ≤ S.getD ax 0) (h2 : 2 ^ c.levels ∣ S.getD ax 0) :
    ∃ y, iswtA w norm axis c = .ok y ∧ y.shape = S ∧ ∀ idx, OffAxis y ax idx →
      iswt w norm (c.lines ax idx) = .ok (y.line ax idx) := by
  obtain ⟨y, y1, y2, y3⟩ := iswtA_lines hw (norm := norm) hax hs hl h1 h2
  refine ⟨y, y1, y2, ?_⟩
  intro idx hidx
  apply y3
  unfold OffAxis Arr.ndim at hidx
  rw [y2] at hidx
  exact hidx

example : iswtA haarQ none (-1) (.pairs [(⟨[2, 4], [3/2, 5/2, 9/2, 7/2, 1/2, 1/2, 5/2, 5/2], rfl⟩,
      ⟨[2, 4], [-1/2, -1/2, -3/2, 5/2, -1/2, 1/2, -5/2, 5/2], rfl⟩)]) = .ok arr24 := by decide +kernel

/-- **C46.** `iswt` inverts `swt` along every axis (`start_level=0`, any level, both output conventions). -/
theorem C46_iswt_swt_axis {w : Wavelet R} (hw : w.Ok) (hpr : PR w.dec_lo w.dec_hi w.rec_lo w.rec_hi)
    {level : Option ℤ} {trim : Bool} {axis : ℤ} {ax : ℕ} {x : Arr M} (hax : AxisIs x.ndim axis ax)
    {r : SwtCoeffs (Arr M)} (h : swtA w level 0 trim none axis x = .ok r) :
    iswtA w none axis r = .ok x :=
  iswtA_swtA hw hax h fun _ _ hr => C15_iswt_swt hw hpr hr

/-- **C46.** What `iswtn` computes for arbitrary coefficients `[cA, {…}, …, {…}]`: the cascade.  Keys that
are missing in a dict stand for zeros.  The arguments are left as they are. -/
theorem C46_iswtn_values {A : Arr M} {ds : List (List (List Char × Arr M))} {wavelet : PerAxis (Wavelet R)}
    {axes : Option (List ℤ)} {norm : Option R} {st : List (SStage R)}
    (hr : SwtResolves A.ndim wavelet axes norm st) (hf : SwtnFits st ds.length A.shape) (hne : ds ≠ [])
    (hd : ∀ d ∈ ds, DictOk d st.length A.shape ∧ d ≠ []) :
    iswtnFull (.trimmed A ds) wavelet axes norm = (.ok (iswtnCascade st ds A), .trimmed A ds) :=
  iswtn_trimmed hr hf hne hd

/-- **C46.** With the other convention, the approximation of the coarsest level is used and the other
approximations are ignored. -/
theorem C46_iswtn_values_dicts {A : Arr M} {d : List (List Char × Arr M)} {ds : List (List (List Char × Arr M))}
    {wavelet : PerAxis (Wavelet R)} {axes : Option (List ℤ)} {norm : Option R} {st : List (SStage R)}
    (hA : d.lookup (List.replicate st.length 'a') = some A)
    (hr : SwtResolves A.ndim wavelet axes norm st) (hf : SwtnFits st (ds.length + 1) A.shape)
    (hd : ∀ e ∈ d :: ds, DictOk e st.length A.shape ∧ List.replicate st.length 'a' ∈ e.map (·.1) ∧
        ∃ k ∈ e.map (·.1), k ≠ List.replicate st.length 'a') :
    iswtn (.dicts (d :: ds)) wavelet axes norm = .ok (iswtnCascade st (d :: ds) A) := by
  unfold iswtn
  rw [iswtn_dicts hA hr hf hd]

/-- **C46.** One level of the cascade, as sums over the taps: the value at `idx` is the sum over all
subbands of the filtered subband, divided by two for every axis. -/
theorem C46_iswtn_level (st : List (SStage R)) (step : ℕ) (band : List Char → Arr M) {S : List ℕ}
    (hb : ∀ k, (band k).shape = S) {idx : ℕ → ℕ} (hidx : ∀ k < S.length, idx k < S.getD k 0) :
    (Arr.iswtnStep st step band S).get idx = (⅟2 : R) ^ st.length •
      ((words st.length).map fun k => ((band k).swtUnband st step k).get idx).sum := by
  unfold Arr.iswtnStep
  rw [Arr.get_ofFn _ hidx]
  have hsh : ∀ (st : List (SStage R)) (k : List Char) (x : Arr M), (x.swtUnband st step k).shape = x.shape := by
    intro st
    induction st with
    | nil => intro k x; rfl
    | cons s st ih =>
      intro k x
      cases k with
      | nil => rfl
      | cons c k => rw [Arr.swtUnband, Arr.shape_along, ih, list_set_getD]
  intro f g hfg
  refine congrArg (fun l => (⅟2 : R) ^ st.length • List.sum l) (List.map_congr_left ?_)
  intro k _
  apply Arr.get_congr
  intro j hj
  rw [hsh, hb] at hj
  exact hfg j hj

/-- **C46.** `iswtn` inverts `swtn` (`start_level=0`): all axes and wavelets, any positive level, both
output conventions. -/
theorem C46_iswtn_swtn {x : Arr M} {wavelet : PerAxis (Wavelet R)} (hw : wavelet.Ok) (hpr : wavelet.PR)
    {l : ℤ} (hl : 1 ≤ l) {axes : Option (List ℤ)} (hax : axes ≠ some []) {trim : Bool} {r : SwtN M}
    (h : swtn x wavelet l 0 axes trim none = .ok r) : iswtn r wavelet axes none = .ok x :=
  iswtn_swtn hw (normsInv_none hpr) hl hax h

/-- **C46.** `iswt2` inverts `swt2`, for 2-D data and for any two axes of n-D data. -/
theorem C46_iswt2_swt2 {x : Arr M} {wavelet : PerAxis (Wavelet R)} (hw : wavelet.Ok) (hpr : wavelet.PR)
    {l : ℤ} (hl : 1 ≤ l) {axes : List ℤ} {trim : Bool} {r : Swt2 M}
    (h : swt2 x wavelet l 0 axes trim none = .ok r) : iswt2 r wavelet none axes = .ok x :=
  iswt2_swt2 hw (normsInv_none hpr) hl h

example : legallQ.Ok ∧ PR legallQ.dec_lo legallQ.dec_hi legallQ.rec_lo legallQ.rec_hi ∧
    (∃ r, swtn arr24 (.one legallQ) 1 0 none true none = .ok r) ∧
    ∃ r, swt2 arr24 (.one legallQ) 1 0 [-2, -1] false none = .ok r := by
  refine ⟨legallQ_ok, legallQ_PR, ⟨_, swtn_ok (m := 0) (l := 1) (st := [(0, legallQ), (1, legallQ)])
    ⟨by decide, [legallQ, legallQ], rfl, rfl⟩ (by decide) ?_ true⟩,
    ⟨_, swt2_ok (m := 0) (l := 1) (st := [(0, legallQ), (1, legallQ)]) rfl
    ⟨by decide, [legallQ, legallQ], rfl, rfl⟩ ?_ false⟩⟩ <;>
  · refine ⟨by decide, ?_⟩
    intro s hs
    simp only [List.mem_cons, List.not_mem_nil, or_false] at hs
    rcases hs with rfl | rfl
    · exact ⟨by decide, legallQ_ok, by decide, by decide⟩
    · exact ⟨by decide, legallQ_ok, by decide, by decide⟩

/-- **C46.** `iswt2` computes the cascade too, although it has its own loops for 2-D data. -/
theorem C46_iswt2_values {wavelet : PerAxis (Wavelet R)} {norm : Option R} {axes : List ℤ}
    {st : List (SStage R)} {A : Arr M} {ps : List (Arr M × Arr M × Arr M)} (hl : st.length = 2)
    (hr : SwtResolves A.ndim wavelet (some axes) norm st) (hf : SwtnFits st ps.length A.shape)
    (hne : ps ≠ [])
    (hs : ∀ p ∈ ps, p.1.shape = A.shape ∧ p.2.1.shape = A.shape ∧ p.2.2.shape = A.shape) :
    iswt2 (.trimmed A ps) wavelet norm axes = .ok (iswtnCascade st (ps.map dict3) A) ∧
    iswt2 (.trimmed A ps) wavelet norm axes = iswtn (.trimmed A (ps.map dict3)) wavelet (some axes) norm := by
  have h := iswt2_trimmed hl hr hf hne hs
  refine ⟨h, ?_⟩
  rw [h]
  unfold iswtn
  rw [iswtn_trimmed hr (by simpa using hf) (by simpa using hne)]
  intro d hd
  obtain ⟨p, hp, rfl⟩ := List.mem_map.mp hd
  rw [hl]
  exact ⟨dict3_ok (hs p hp).1 (hs p hp).2.1 (hs p hp).2.2, by simp⟩

/-- **C46.** The same for the convention with all approximations. -/
theorem C46_iswt2_values_pairs {wavelet : PerAxis (Wavelet R)} {norm : Option R} {axes : List ℤ}
    {st : List (SStage R)} {A : Arr M} {q : Arr M × Arr M × Arr M}
    {ps : List (Arr M × (Arr M × Arr M × Arr M))} (hl : st.length = 2)
    (hr : SwtResolves A.ndim wavelet (some axes) norm st) (hf : SwtnFits st (ps.length + 1) A.shape)
    (hs : ∀ p ∈ (A, q) :: ps, p.1.shape = A.shape ∧ p.2.1.shape = A.shape ∧ p.2.2.1.shape = A.shape ∧
      p.2.2.2.shape = A.shape) :
    iswt2 (.pairs ((A, q) :: ps)) wavelet norm axes =
      .ok (iswtnCascade st (dict3 q :: ps.map fun p => dict3 p.2) A) :=
  iswt2_pairs hl hr hf hs

example : iswt2 (.trimmed ⟨[2, 2], [(1 : ℚ), 0, 0, 5], rfl⟩ [(⟨[2, 2], [0, 2, 0, 0], rfl⟩,
      ⟨[2, 2], [1, 0, 0, 0], rfl⟩, ⟨[2, 2], [0, 0, 3, 0], rfl⟩)]) (.one haarQ) none [-2, -1] =
    .ok ⟨[2, 2], [3/2, 5/2, 2, 0], rfl⟩ := by decide +kernel

/-- **C46 (limit of the claim).** The coefficients that `swtn` returns for `level=0` are not accepted by
`iswtn`. -/
theorem C46_level_zero_not_inverted :
    (∃ r, swtn arr24 (.one haarQ) 0 0 none true none = .ok r ∧ iswtn r (.one haarQ) none none = .error .value) ∧
    (∃ r, swtn arr24 (.one haarQ) 0 0 none false none = .ok r ∧
      iswtn r (.one haarQ) none none = .error .index) :=
  ⟨⟨.trimmed arr24 [], by decide +kernel, by decide +kernel⟩, ⟨.dicts [], by decide +kernel, by decide +kernel⟩⟩

/-! ### C47: the caller's coefficients -/

/-- **C47.** After a successful `iswtn` every dict of the caller has the same items as before (only the
position of the approximation may have changed). -/
theorem C47_iswtn_keeps_items {A : Arr M} {d : List (List Char × Arr M)} {ds : List (List (List Char × Arr M))}
    {wavelet : PerAxis (Wavelet R)} {axes : Option (List ℤ)} {norm : Option R} {st : List (SStage R)}
    (hA : d.lookup (List.replicate st.length 'a') = some A)
    (hr : SwtResolves A.ndim wavelet axes norm st) (hf : SwtnFits st (ds.length + 1) A.shape)
    (hd : ∀ e ∈ d :: ds, DictOk e st.length A.shape ∧ List.replicate st.length 'a' ∈ e.map (·.1) ∧
        ∃ k ∈ e.map (·.1), k ≠ List.replicate st.length 'a') :
    ∃ y l, iswtnFull (.dicts (d :: ds)) wavelet axes norm = (.ok y, .dicts l) ∧
      List.Forall₂ (fun e' e => e'.Perm e ∧ ∀ k, e'.lookup k = e.lookup k) l (d :: ds) := by
  refine ⟨_, _, iswtn_dicts hA hr hf hd, ?_⟩
  have key : ∀ l : List (List (List Char × Arr M)), (∀ e ∈ l, DictOk e st.length A.shape) →
      List.Forall₂ (fun e' e => e'.Perm e ∧ ∀ k, e'.lookup k = e.lookup k) (l.map (putBack st.length)) l := by
    intro l hl
    induction l with
    | nil => exact .nil
    | cons e l ih =>
      refine .cons ?_ (ih fun e he => hl e (List.mem_cons_of_mem _ he))
      exact ⟨putBack_perm (hl e List.mem_cons_self).1, putBack_lookup _ _⟩
  exact key (d :: ds) fun e he => (hd e he).1

/-- **C47 (violated on errors).** If `iswtn` raises in the middle, the approximation of that level is
missing in the caller's dict: it was taken out of it and is put back only at the end of the level. -/
theorem C47_iswtn_error_loses_approx :
    ∃ (d d' : ADict ℚ), d.lookup ['a', 'a'] ≠ none ∧
      iswtnFull (.dicts [d]) (.one haarQ) none none = (.error .runtime, .dicts [d']) ∧
      d'.lookup ['a', 'a'] = none := by
  refine ⟨[(['a', 'a'], ⟨[2, 2], [1, 2, 3, 4], rfl⟩), (['d', 'a'], ⟨[2, 2], [0, 0, 0, 0], rfl⟩),
    (['d', 'd'], ⟨[2, 1], [0, 0], rfl⟩)],
    [(['d', 'a'], ⟨[2, 2], [0, 0, 0, 0], rfl⟩), (['d', 'd'], ⟨[2, 1], [0, 0], rfl⟩)], ?_, ?_, ?_⟩ <;>
    decide +kernel

example : iswtnFull (.dicts [[(['a'], ⟨[2], [(1 : ℚ), 2], rfl⟩), (['d'], ⟨[2], [3, 0], rfl⟩)]]) (.one haarQ) none none =
    (.ok ⟨[2], [3, 0], rfl⟩, .dicts [[(['d'], ⟨[2], [3, 0], rfl⟩), (['a'], ⟨[2], [1, 2], rfl⟩)]]) := by
  decide +kernel

end

section
variable {R M : Type} [CommRing R] [AddCommGroup M] [Module R M] [Invertible (2 : R)]

/-- **C46 (norm).** With `norm=True` on both sides the filters are multiplied by `s` in the forward and by
`s'` in the inverse transforms, with `s * s' = 1`: all three inverse transforms invert. -/
theorem C46_inverse_norm {x : Arr M} {w : Wavelet R} (hw : w.Ok)
    (hpr : PR w.dec_lo w.dec_hi w.rec_lo w.rec_hi) {wavelet : PerAxis (Wavelet R)} (hws : wavelet.Ok)
    (hprs : wavelet.PR) {s s' : R} (hs : s * s' = 1) (trim : Bool) :
    (∀ level axis ax r, AxisIs x.ndim axis ax → swtA w level 0 trim (some s) axis x = .ok r →
      iswtA w (some s') axis r = .ok x) ∧
    (∀ (l : ℤ) axes r, 1 ≤ l → axes ≠ some [] → swtn x wavelet l 0 axes trim (some s) = .ok r →
      iswtn r wavelet axes (some s') = .ok x) ∧
    (∀ (l : ℤ) axes r, 1 ≤ l → swt2 x wavelet l 0 axes trim (some s) = .ok r →
      iswt2 r wavelet (some s') axes = .ok x) :=
  ⟨fun _ _ _ _ hax h => iswtA_swtA hw hax h fun _ _ hr => C15_iswt_swt_norm hw hpr hs hr,
   fun _ _ _ hl hax h => iswtn_swtn hws (normsInv_some hprs hs) hl hax h,
   fun _ _ _ hl h => iswt2_swt2 hws (normsInv_some hprs hs) hl h⟩

end

/-- **C46 (norm).** The actual factors, `1/√2` and `√2`. -/
theorem C46_inverse_sqrt2 {M : Type} [AddCommGroup M] [Module ℝ M] {x : Arr M} {wavelet : PerAxis (Wavelet ℝ)}
    (hws : wavelet.Ok) (hprs : wavelet.PR) {l : ℤ} (hl : 1 ≤ l) {axes : Option (List ℤ)}
    (hax : axes ≠ some []) {trim : Bool} {r : SwtN M}
    (h : swtn x wavelet l 0 axes trim (some (1 / Real.sqrt 2)) = .ok r) :
    iswtn r wavelet axes (some (Real.sqrt 2)) = .ok x :=
  iswtn_swtn hws (normsInv_some hprs (by
    rw [one_div, inv_mul_cancel₀]
    exact (Real.sqrt_pos.mpr two_pos).ne')) hl hax h

example : haarR.Ok ∧ PR haarR.dec_lo haarR.dec_hi haarR.rec_lo haarR.rec_hi := ⟨haarR_ok, haarR_PR⟩

end Pywt
