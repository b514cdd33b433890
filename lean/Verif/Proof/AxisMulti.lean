import Verif.Spec.AxisMulti
import Verif.Proof.PackFmt
import Verif.Proof.Multi

/-! `wavedec` and `waverec` along an axis. -/

namespace Pywt

open Finset Spec

set_option linter.unusedSectionVars false

section
variable {M : Type} [AddCommGroup M]

theorem AxisIs.normAxis {ndim : ℕ} {axis : ℤ} {ax : ℕ} (h : AxisIs ndim axis ax) :
    normAxis ndim axis = .ok ax := by
  obtain ⟨h1, h2⟩ := h
  unfold Pywt.normAxis
  simp only [← h1]
  rw [if_pos (by omega), Int.toNat_natCast]

theorem AxisIs.pyIndex {shape : List ℕ} {axis : ℤ} {ax : ℕ} (h : AxisIs shape.length axis ax) :
    pyIndex shape axis = some (shape.getD ax 0) := pyIndex_eq h.2 h.1

theorem not_axisIs {ndim : ℕ} {axis : ℤ} (h : ¬ ∃ ax, AxisIs ndim axis ax) :
    ¬ (-(ndim : ℤ) ≤ axis ∧ axis < ndim) := by
  rintro ⟨h1, h2⟩
  apply h
  by_cases hn : axis < 0
  · exact ⟨(axis + ndim).toNat, by rw [if_pos hn]; omega, by omega⟩
  · exact ⟨axis.toNat, by rw [if_neg hn]; omega, by omega⟩

theorem pyIndex_none {shape : List ℕ} {axis : ℤ} (h : ¬ ∃ ax, AxisIs shape.length axis ax) :
    pyIndex shape axis = none := by
  have := not_axisIs h
  unfold pyIndex
  split
  · rw [List.getElem?_eq_none]; omega
  · rw [if_neg (by omega)]

/-! ### Lines -/

theorem Arr.line_one {x : Arr M} (h : x.ndim = 1) (idx : ℕ → ℕ) : x.line 0 idx = x.data := by
  obtain ⟨n, hn⟩ : ∃ n, x.shape = [n] := List.length_eq_one_iff.mp h
  have hl : x.data.length = n := by rw [x.ok, hn]; simp
  apply List.ext_getElem
  · simp [Arr.line, hn, hl]
  · intro j h1 h2
    simp only [Arr.line, List.getElem_map, List.getElem_range, Arr.get, hn, List.length_singleton,
      ravelIx]
    rw [Function.update_self]
    simp [h2]

theorem Arr.along_one {x : Arr M} (h : x.ndim = 1) {n : ℕ} {g : List M → List M}
    (hg : (g x.data).length = n) : x.along 0 n g = .of1 (g x.data) := by
  obtain ⟨m, hm⟩ : ∃ n, x.shape = [n] := List.length_eq_one_iff.mp h
  have hs : (x.along 0 n g).shape = [n] := by simp [Arr.along, hm]
  refine Arr.ext_get (by rw [hs, ← hg]; rfl) ?_
  intro idx hidx
  rw [Arr.along_get (by simp [hm]) (by rw [hs] at hidx; simpa [hm] using hidx), Arr.line_one h]
  simp [Arr.get, Arr.of1, ravelIx]

theorem Arr.along2_one {a b : Arr M} (h : a.ndim = 1) (hs : b.shape = a.shape) {n : ℕ}
    {g : List M → List M → List M} (hg : (g a.data b.data).length = n) :
    Arr.along2 0 n g a b = .of1 (g a.data b.data) := by
  obtain ⟨m, hm⟩ : ∃ n, a.shape = [n] := List.length_eq_one_iff.mp h
  have hs' : (Arr.along2 0 n g a b).shape = [n] := by simp [Arr.along2, hm]
  refine Arr.ext_get (by rw [hs', ← hg]; rfl) ?_
  intro idx hidx
  rw [Arr.along2_get hs (by simp [hm]) (by rw [hs'] at hidx; simpa [hm] using hidx), Arr.line_one h,
    Arr.line_one (by rw [Arr.ndim, hs]; exact h)]
  simp [Arr.get, Arr.of1, ravelIx]

theorem Arr.along_congr {x : Arr M} {axis n : ℕ} {g h : List M → List M}
    (hgh : ∀ l : List M, l.length = x.shape.getD axis 0 → g l = h l) :
    x.along axis n g = x.along axis n h := by
  unfold Arr.along
  congr 1
  funext idx
  rw [hgh _ (Arr.line_length _ _ _)]

theorem Arr.along_along {x : Arr M} {axis n m : ℕ} {g h : List M → List M}
    (ha : axis < x.shape.length) (hg : ∀ l : List M, l.length = x.shape.getD axis 0 →
      (g l).length = n) :
    (x.along axis n g).along axis m h = x.along axis m fun l => h (g l) := by
  have hs : ((x.along axis n g).along axis m h).shape = x.shape.set axis m := by
    simp [Arr.shape_along]
  refine Arr.ext_get (by rw [hs, Arr.shape_along]) ?_
  intro idx hidx
  rw [hs] at hidx
  rw [Arr.along_get (by simpa [Arr.shape_along] using ha) (by simpa [Arr.shape_along] using hidx),
    Arr.along_get ha hidx, Arr.line_along ha ?_ (hg _ (Arr.line_length _ _ _))]
  intro k hk hka
  exact ((inB_set ha).mp hidx).2 k hk hka

theorem Arr.line_along2 {a b : Arr M} {axis n : ℕ} {g : List M → List M → List M}
    (hs : b.shape = a.shape) (ha : axis < a.shape.length) {idx : ℕ → ℕ}
    (hidx : ∀ k < a.shape.length, k ≠ axis → idx k < a.shape.getD k 0)
    (hg : (g (a.line axis idx) (b.line axis idx)).length = n) :
    (Arr.along2 axis n g a b).line axis idx = g (a.line axis idx) (b.line axis idx) := by
  apply List.ext_getElem
  · rw [Arr.line_length]
    simp only [Arr.along2, Arr.shape_ofFn]
    rw [getD_set ha, if_pos rfl, hg]
  · intro j h1 h2
    rw [Arr.line_getElem, Arr.along2_get hs ha]
    · rw [Function.update_self, a.line_congr (g := idx), b.line_congr (g := idx),
        List.getD_eq_getElem (hn := h2)]
      · intro k _ hka
        rw [Function.update_of_ne hka]
      · intro k _ hka
        rw [Function.update_of_ne hka]
    · rw [inB_set ha, Function.update_self]
      refine ⟨by omega, ?_⟩
      intro k hk hka
      rw [Function.update_of_ne hka]
      exact hidx k hk hka

/-- An array is determined by its lines. -/
theorem Arr.ext_line {a b : Arr M} {axis : ℕ} (ha : axis < a.shape.length) (hs : a.shape = b.shape)
    (h : ∀ idx : ℕ → ℕ, (∀ k < a.shape.length, k ≠ axis → idx k < a.shape.getD k 0) →
      a.line axis idx = b.line axis idx) : a = b := by
  refine Arr.ext_get hs fun idx hidx => ?_
  have := h idx fun k hk _ => hidx k hk
  have e : ∀ c : Arr M, c.shape = a.shape → c.get idx = (c.line axis idx).getD (idx axis) 0 := by
    intro c hc
    have hl : idx axis < (c.line axis idx).length := by
      rw [Arr.line_length, hc]; exact hidx axis ha
    rw [List.getD_eq_getElem (hn := hl), Arr.line_getElem, Function.update_eq_self]
  rw [e a rfl, e b hs.symm, this]

theorem SameBut.getD {ax : ℕ} {s t : List ℕ} (h : SameBut ax s t) {k : ℕ} (hk : k ≠ ax) :
    s.getD k 0 = t.getD k 0 := by
  have := congrArg (fun l : List ℕ => l.getD k 0) h
  simp only [List.getD_eq_getElem?_getD, List.getElem?_set_ne (Ne.symm hk)] at this
  simpa [List.getD_eq_getElem?_getD] using this

theorem SameBut.length {ax : ℕ} {s t : List ℕ} (h : SameBut ax s t) : s.length = t.length := by
  simpa using congrArg List.length h

theorem SameBut.symm {ax : ℕ} {s t : List ℕ} (h : SameBut ax s t) : SameBut ax t s := Eq.symm h

theorem SameBut.trans {ax : ℕ} {s t u : List ℕ} (h : SameBut ax s t) (h' : SameBut ax t u) :
    SameBut ax s u := Eq.trans h h'

theorem SameBut.set {ax : ℕ} (s : List ℕ) (n : ℕ) : SameBut ax (s.set ax n) s := by
  simp [SameBut]

theorem SameBut.eq {ax : ℕ} {s t : List ℕ} (h : SameBut ax s t)
    (hax : s.getD ax 0 = t.getD ax 0) : s = t := by
  have h2 : s.set ax (s.getD ax 0) = t.set ax (t.getD ax 0) := by
    rw [hax]
    have := congrArg (fun l : List ℕ => l.set ax (t.getD ax 0)) h
    simpa using this
  have h3 : ∀ l : List ℕ, l.set ax (l.getD ax 0) = l := by
    intro l
    by_cases hl : ax < l.length
    · rw [List.getD_eq_getElem (hn := hl)]; exact List.set_getElem_self hl
    · exact List.set_eq_of_length_le (by omega)
  rwa [h3, h3] at h2

/-- Trimming all axes to the shape of an array that differs only on one axis. -/
theorem trimTo_ok {a d : Arr M} {ax : ℕ} (ha : ax < a.shape.length)
    (hs : SameBut ax a.shape d.shape) (hle : d.shape.getD ax 0 ≤ a.shape.getD ax 0) :
    ∃ b, trimTo a d = .ok b ∧ b.shape = d.shape ∧
      ∀ idx : ℕ → ℕ, (∀ k < a.shape.length, k ≠ ax → idx k < a.shape.getD k 0) →
        b.line ax idx = (a.line ax idx).take (d.shape.getD ax 0) := by
  have hsl : SlFor a.shape (d.shape.map fun s => (⟨0, some s⟩ : Slice)) (fun _ => 0) d.shape := by
    refine ⟨by simp [hs.length], hs.length.symm, ?_⟩
    intro k hk
    have hk' : k < d.shape.length := by rw [← hs.length]; exact hk
    have hle' : d.shape.getD k 0 ≤ a.shape.getD k 0 := by
      by_cases h : k = ax
      · subst h; exact hle
      · rw [hs.getD h]
    rw [List.getD_eq_getElem (hn := by simpa using hk'), List.getElem_map]
    rw [List.getD_eq_getElem (hn := hk')] at hle'
    constructor
    · simp [Slice.lo]
    · simp only [Slice.len, Slice.lo, Option.getD_some]
      rw [List.getD_eq_getElem (hn := hk')]
      omega
  have e : ¬ a.ndim < (d.shape.map fun s => (⟨0, some s⟩ : Slice)).length := by
    simp [Arr.ndim, hs.length]
  refine ⟨Arr.ofFn d.shape fun idx => a.get idx, ?_, rfl, ?_⟩
  · simp only [trimTo, Arr.getSlices, if_neg e, Py_pure, sliceShape_eq hsl]
    congr 1
    refine Arr.ext_get rfl fun idx hidx => ?_
    simp only [Arr.shape_ofFn] at hidx
    rw [Arr.get_ofFn _ hidx, Arr.get_ofFn _ hidx]
    · refine a.get_congr fun k hk => ?_
      rw [sliceLo_eq hsl hk, Nat.zero_add]
    · intro f g hfg
      exact a.get_congr fun k hk => hfg k (by rw [← hs.length]; exact hk)
    · intro f g hfg
      exact a.get_congr fun k hk => by rw [hfg k (by rw [← hs.length]; exact hk)]
  · intro idx hidx
    apply List.ext_getElem
    · rw [Arr.line_length, List.length_take, Arr.line_length, Arr.shape_ofFn]
      omega
    · intro j h1 h2
      rw [Arr.line_length, Arr.shape_ofFn] at h1
      rw [Arr.line_getElem, List.getElem_take, Arr.line_getElem]
      rw [Arr.get_ofFn]
      · intro f g hfg
        exact a.get_congr fun k hk => hfg k (by rw [← hs.length]; exact hk)
      · intro k hk
        by_cases h : k = ax
        · subst h; rw [Function.update_self]; exact h1
        · rw [Function.update_of_ne h, ← hs.getD h]
          exact hidx k (by rw [hs.length]; exact hk) h

end

section
variable {R M : Type} [Ring R] [AddCommGroup M] [Module R M]

/-! ### `dwt`, `wavedec` -/

theorem dwtA_ok {w : Wavelet R} (hw : w.Ok) {mode : Mode} {axis : ℤ} {ax : ℕ} {x : Arr M}
    (ha : AxisIs x.ndim axis ax) (hl : LenOk mode (x.shape.getD ax 0)) :
    dwtA w mode axis x = .ok
      (x.along ax (coeffLen mode (x.shape.getD ax 0) w.dec_len) (analysis mode w.dec_lo),
       x.along ax (coeffLen mode (x.shape.getD ax 0) w.dec_len) (analysis mode w.dec_hi)) := by
  unfold dwtA
  rw [ha.normAxis]
  simp only [Py_bind_ok]
  split
  · rename_i h1
    have hax : ax = 0 := by have := ha.2; omega
    subst hax
    obtain ⟨n, hn⟩ : ∃ n, x.shape = [n] := List.length_eq_one_iff.mp h1
    have hlen : x.data.length = x.shape.getD 0 0 := by rw [x.ok, hn]; simp
    have hs : SignalOk mode x.data := by unfold SignalOk; rw [hlen]; exact hl
    have := dwt_ok hw hs
    unfold dwt at this
    rw [this]
    simp only [Py_bind_ok, Py_pure]
    rw [Arr.along_one h1, Arr.along_one h1]
    · rw [analysis_length, hlen, hw.2.2.1]; rfl
    · rw [analysis_length, hlen]; rfl
  · obtain ⟨h1, h2⟩ := lenOk_iff.mp hl
    exact dwtAxis_ok hw ha.2 h1 h2

theorem dwtA_err {w : Wavelet R} (hw : w.Ok) {mode : Mode} {axis : ℤ} {ax : ℕ} {x : Arr M}
    (ha : AxisIs x.ndim axis ax) (hl : ¬ LenOk mode (x.shape.getD ax 0)) :
    dwtA w mode axis x = .error .value := by
  unfold dwtA
  rw [ha.normAxis]
  simp only [Py_bind_ok]
  split
  · rename_i h1
    have hax : ax = 0 := by have := ha.2; omega
    subst hax
    obtain ⟨n, hn⟩ : ∃ n, x.shape = [n] := List.length_eq_one_iff.mp h1
    have hlen : x.data.length = x.shape.getD 0 0 := by rw [x.ok, hn]; simp
    have hs : ¬ SignalOk mode x.data := by unfold SignalOk; rw [hlen]; exact hl
    have := dwt_err hw hs
    unfold dwt at this
    rw [this]
    rfl
  · refine dwtAxisMem_err (c := x.toMem) ha.2 ?_
    by_contra hc
    rw [not_or, Bool.not_eq_true] at hc
    exact hl (lenOk_iff.mpr ⟨by have := hc.1; simp only [Arr.toMem] at this; omega, hc.2⟩)

theorem cascadeAlong_succ {ax : ℕ} {mode : Mode} {lo hi : List R} {n : ℕ} {x : Arr M}
    (ha : ax < x.shape.length) :
    (x.along ax (coeffLen mode (x.shape.getD ax 0) lo.length) (analysis mode lo)).cascadeAlong ax
        mode lo hi n ++
      [x.along ax (coeffLen mode (x.shape.getD ax 0) lo.length) (analysis mode hi)] =
    x.cascadeAlong ax mode lo hi (n + 1) := by
  have hsh : (x.along ax (coeffLen mode (x.shape.getD ax 0) lo.length) (analysis mode lo)).shape.getD
      ax 0 = coeffLen mode (x.shape.getD ax 0) lo.length := by
    rw [Arr.shape_along, getD_set ha, if_pos rfl]
  have hlen : ∀ l : List M, l.length = x.shape.getD ax 0 →
      (analysis mode lo l).length = coeffLen mode (x.shape.getD ax 0) lo.length := by
    intro l hl
    rw [analysis_length, hl]
  unfold Arr.cascadeAlong
  rw [hsh, List.range_succ_eq_map, List.map_cons, List.reverse_cons, List.map_map,
    List.cons_append, Arr.along_along ha hlen]
  congr 1
  congr 1
  congr 1
  apply List.map_congr_left
  intro j _
  rw [Arr.along_along ha hlen]
  rfl

theorem wavedecALoop_ok {w : Wavelet R} (hw : w.Ok) {mode : Mode} {axis : ℤ} {ax : ℕ} (n : ℕ) :
    ∀ (x : Arr M) (acc : List (Arr M)), AxisIs x.ndim axis ax →
      LevelsOk mode w.dec_len (x.shape.getD ax 0) n →
      wavedecALoop w mode axis n x acc =
        .ok (x.cascadeAlong ax mode w.dec_lo w.dec_hi n ++ acc.reverse) := by
  induction n with
  | zero =>
    intro x acc ha _
    have : x.along ax (x.shape.getD ax 0) (fun l => l) = x := by
      have hs : (x.along ax (x.shape.getD ax 0) (fun l => l)).shape = x.shape := by
        rw [Arr.shape_along]
        exact SameBut.eq (SameBut.set _ _) (by rw [getD_set ha.2, if_pos rfl])
      refine Arr.ext_line (by rw [hs]; exact ha.2) hs fun idx hidx => ?_
      rw [hs] at hidx
      exact Arr.line_along ha.2 hidx (Arr.line_length _ _ _)
    simp only [wavedecALoop, Arr.cascadeAlong, List.range_zero, List.map_nil, List.reverse_nil,
      Py_pure, List.reverse_append, List.reverse_cons, List.nil_append, List.cons_append]
    congr 1
    congr 1
    exact this.symm
  | succ n ih =>
    intro x acc ha h
    obtain ⟨h0, h1⟩ := levelsOk_succ.mp h
    have hF : w.dec_len = w.dec_lo.length := rfl
    simp only [wavedecALoop]
    rw [dwtA_ok hw ha h0]
    simp only [Py_bind_ok]
    rw [ih _ _ (by simpa [Arr.ndim, Arr.shape_along] using ha) (by
      rw [Arr.shape_along, getD_set ha.2, if_pos rfl]; exact h1)]
    rw [hF, ← cascadeAlong_succ ha.2]
    simp

theorem wavedecALoop_err {w : Wavelet R} (hw : w.Ok) {mode : Mode} {axis : ℤ} {ax : ℕ} (n : ℕ) :
    ∀ (x : Arr M) (acc : List (Arr M)), AxisIs x.ndim axis ax →
      ¬ LevelsOk mode w.dec_len (x.shape.getD ax 0) n →
      wavedecALoop w mode axis n x acc = .error .value := by
  induction n with
  | zero => intro x acc ha h; exact absurd (fun j hj => absurd hj (by omega)) h
  | succ n ih =>
    intro x acc ha h
    simp only [wavedecALoop]
    by_cases h0 : LenOk mode (x.shape.getD ax 0)
    · rw [dwtA_ok hw ha h0]
      simp only [Py_bind_ok]
      refine ih _ _ (by simpa [Arr.ndim, Arr.shape_along] using ha) fun h1 => h ?_
      rw [Arr.shape_along, getD_set ha.2, if_pos rfl] at h1
      exact levelsOk_succ.mpr ⟨h0, h1⟩
    · rw [dwtA_err hw ha h0]
      rfl

/-! ### `idwt`, `waverec` -/

theorem idwtPair_ok {w : Wavelet R} (hw : w.Ok) {mode : Mode} {axis : ℤ} {ax : ℕ} {a d : Arr M}
    (ha : AxisIs a.ndim axis ax) (hs : d.shape = a.shape)
    (hlen : 1 ≤ synthLen mode (a.shape.getD ax 0) w.rec_len) :
    idwtPair w mode axis a d = .ok (Arr.along2 ax (synthLen mode (a.shape.getD ax 0) w.rec_len)
      (synthesis mode w.rec_lo w.rec_hi) a d) := by
  unfold idwtPair
  rw [ha.normAxis]
  simp only [Py_bind_ok]
  split
  · rename_i h1
    have hax : ax = 0 := by have := ha.2; omega
    subst hax
    have h1' : d.ndim = 1 := by rw [Arr.ndim, hs]; exact h1
    obtain ⟨n, hn⟩ : ∃ n, a.shape = [n] := List.length_eq_one_iff.mp h1
    have hla : a.data.length = a.shape.getD 0 0 := by rw [a.ok, hn]; simp
    have hld : d.data.length = a.shape.getD 0 0 := by rw [d.ok, hs, hn]; simp
    have := idwt_ok hw (mode := mode) (hla.trans hld.symm) (by rw [hla]; exact hlen)
    simp only [idwt] at this
    simp only [h1', ne_eq, not_true_eq_false, if_false]
    rw [this]
    simp only [Py_bind_ok, Py_pure]
    rw [Arr.along2_one h1 hs]
    rw [synthesis_length, hla]
    rfl
  · rw [idwtAxis_ok hw hs ha.2 hlen]
    rfl

theorem waverecALoop_ok {w : Wavelet R} (hw : w.Ok) {mode : Mode} {axis : ℤ} {ax : ℕ}
    (ds : List (Arr M)) : ∀ a : Arr M, AxisIs a.ndim axis ax →
      (∀ d ∈ ds, SameBut ax d.shape a.shape) →
      RecOk mode w.rec_len (a.shape.getD ax 0) (ds.map fun d => d.shape.getD ax 0) →
      ∃ y, waverecALoop w mode axis (some a) (ds.map some) = .ok (some y) ∧
        y.shape = a.shape.set ax (recLen mode w.rec_len (a.shape.getD ax 0)
          (ds.map fun d => d.shape.getD ax 0)) ∧
        ∀ idx : ℕ → ℕ, (∀ k < a.shape.length, k ≠ ax → idx k < a.shape.getD k 0) →
          y.line ax idx = recombine mode w.rec_lo w.rec_hi (a.line ax idx)
            (ds.map fun d => d.line ax idx) := by
  induction ds with
  | nil =>
    intro a ha _ _
    refine ⟨a, rfl, ?_, fun idx _ => rfl⟩
    refine SameBut.eq (SameBut.set _ _).symm ?_
    rw [getD_set ha.2, if_pos rfl]
    rfl
  | cons d ds ih =>
    intro a ha hs hr
    have hax : ax < a.shape.length := ha.2
    obtain ⟨r1, r2, r3⟩ := hr
    simp only at r1 r2 r3
    have hsd := hs d (by simp)
    have hda : AxisIs d.ndim axis ax := by
      have : d.ndim = a.ndim := hsd.length
      rw [this]; exact ha
    -- the trimmed approximation
    obtain ⟨b, hb1, hb2, hb3⟩ : ∃ b, trimA axis (some a) (some d) = .ok (some b) ∧
        b.shape = d.shape ∧
        ∀ idx : ℕ → ℕ, (∀ k < a.shape.length, k ≠ ax → idx k < a.shape.getD k 0) →
          b.line ax idx = (a.line ax idx).take (d.shape.getD ax 0) := by
      simp only [trimA, AxisIs.pyIndex (shape := a.shape) ha,
        AxisIs.pyIndex (shape := d.shape) hda]
      rcases r1 with r1 | r1
      · refine ⟨a, ?_, (hsd.eq r1.symm).symm, ?_⟩
        · rw [if_neg (by omega), if_neg (by omega)]
          rfl
        · intro idx _
          rw [← r1, List.take_of_length_le (by rw [Arr.line_length])]
      · obtain ⟨b, b1, b2, b3⟩ := trimTo_ok hax hsd.symm (by omega)
        refine ⟨b, ?_, b2, b3⟩
        rw [if_pos r1, b1]
        rfl
    have hba : AxisIs b.ndim axis ax := by rw [Arr.ndim, hb2]; exact hda
    have e2 : idwtA w mode axis (some b) (some d) = _ :=
      idwtPair_ok hw hba hb2.symm (by rw [hb2]; exact r2)
    have hys : (Arr.along2 ax (synthLen mode (b.shape.getD ax 0) w.rec_len)
        (synthesis mode w.rec_lo w.rec_hi) b d).shape =
        a.shape.set ax (synthLen mode (d.shape.getD ax 0) w.rec_len) := by
      simp only [Arr.along2, Arr.shape_ofFn]
      rw [hb2]
      refine SameBut.eq ((SameBut.set _ _).trans (hsd.trans (SameBut.set _ _).symm)) ?_
      rw [getD_set hda.2, getD_set hax, if_pos rfl, if_pos rfl]
    obtain ⟨y, y1, y2, y3⟩ := ih (Arr.along2 ax (synthLen mode (b.shape.getD ax 0) w.rec_len)
        (synthesis mode w.rec_lo w.rec_hi) b d) (by rw [Arr.ndim, hys, List.length_set]; exact ha)
      (fun c hc => by rw [hys]; exact (hs c (by simp [hc])).trans (SameBut.set _ _).symm)
      (by rw [hys, getD_set hax, if_pos rfl]; exact r3)
    refine ⟨y, ?_, ?_, ?_⟩
    · simp only [List.map_cons, waverecALoop, hb1, Py_bind_ok]
      rw [e2]
      simp only [Py_bind_ok]
      exact y1
    · rw [y2, hys]
      rw [List.set_set, getD_set hax, if_pos rfl]
      rfl
    · intro idx hidx
      rw [y3 idx (by
        intro k hk hka
        rw [hys] at hk ⊢
        rw [getD_set hax, if_neg hka]
        exact hidx k (by simpa using hk) hka)]
      simp only [List.map_cons, recombine, List.foldl_cons]
      congr 1
      rw [Arr.line_along2 hb2.symm hba.2]
      · rw [hb3 idx hidx, Arr.line_length]
      · intro k hk hka
        rw [hb2, hsd.getD hka]
        rw [hb2, hsd.length] at hk
        exact hidx k hk hka
      · rw [synthesis_length, Arr.line_length]; rfl

theorem cascadeAlong_lines {ax : ℕ} {mode : Mode} {lo hi : List R} (hhl : hi.length = lo.length)
    {n : ℕ} {x : Arr M} (ha : ax < x.shape.length) {idx : ℕ → ℕ}
    (hidx : ∀ k < x.shape.length, k ≠ ax → idx k < x.shape.getD k 0) :
    (x.cascadeAlong ax mode lo hi n).map (fun c => c.line ax idx) =
      cascade mode lo hi n (x.line ax idx) := by
  unfold Arr.cascadeAlong cascade
  rw [List.map_cons, List.map_reverse, List.map_map]
  congr 1
  · rw [Arr.line_along ha hidx (by rw [approx_length, Arr.line_length])]
  · congr 1
    apply List.map_congr_left
    intro j _
    simp only [Function.comp_apply]
    rw [Arr.line_along ha hidx (by rw [detail_length _ _ _ hhl, approx_length, Arr.line_length])]

theorem recombine_cascade {w : Wavelet R} (hw : w.Ok)
    (hpr : PR w.dec_lo w.dec_hi w.rec_lo w.rec_hi) {mode : Mode} {x : List M} (n : ℕ) :
    ∀ r : List M, LevelsOk mode w.dec_len x.length n →
      r.take (approx mode w.dec_lo n x).length = approx mode w.dec_lo n x →
      (recombine mode w.rec_lo w.rec_hi r
        ((List.range n).map fun j => detail mode w.dec_lo w.dec_hi j x).reverse).take x.length = x := by
  obtain ⟨h1, h2, h3, h4, h5⟩ := hw
  induction n with
  | zero => intro r _ hr; exact hr
  | succ n ih =>
    intro r h hr
    have hx : LenOk mode (approx mode w.dec_lo n x).length := by
      rw [approx_length]; exact h n (by omega)
    have hl : (approx mode w.dec_lo (n + 1) x).length =
        (detail mode w.dec_lo w.dec_hi n x).length := (detail_length _ _ _ h3 _ _).symm
    have hsyn := synthesis_analysis hpr h3 h4 h5 h1 h2 (mode := mode)
      (x := approx mode w.dec_lo n x) hx.1
    simp only [List.range_succ, List.map_append, List.map_cons, List.map_nil, List.reverse_append,
      List.reverse_cons, List.reverse_nil, List.nil_append, List.cons_append, recombine,
      List.foldl_cons]
    refine ih _ (fun j hj => h j (by omega)) ?_
    rw [← hl, hr, approx_succ]
    unfold detail
    rw [hsyn]
    apply List.ext_getElem
    · simp
    · intro j j1 j2
      simp only [List.getElem_take, List.getElem_map, List.getElem_range]
      rw [ext_in _ mode j2, List.getD_eq_getElem]

theorem approxLen_succ'' {mode : Mode} {F N n : ℕ} :
    approxLen mode F N (n + 1) = coeffLen mode (approxLen mode F N n) F :=
  Function.iterate_succ_apply' _ _ _

theorem recOk_cascade {mode : Mode} {F N : ℕ} (hF : 2 ≤ F) (hF2 : F % 2 = 0) (n : ℕ) :
    ∀ m, LevelsOk mode F N n → (m = approxLen mode F N n ∨ m = approxLen mode F N n + 1) →
      RecOk mode F m ((List.range n).map fun j => approxLen mode F N (j + 1)).reverse ∧
      recLen mode F m ((List.range n).map fun j => approxLen mode F N (j + 1)).reverse =
        if n = 0 then m else N + N % 2 := by
  induction n with
  | zero => intro m _ _; exact ⟨trivial, rfl⟩
  | succ n ih =>
    intro m h hm
    have hx : LenOk mode (approxLen mode F N n) := h n (by omega)
    have e : synthLen mode (approxLen mode F N (n + 1)) F =
        approxLen mode F N n + approxLen mode F N n % 2 := by
      rw [approxLen_succ'', synthLen_coeffLen hF2 hF]
    simp only [List.range_succ, List.map_append, List.map_cons, List.map_nil, List.reverse_append,
      List.reverse_cons, List.reverse_nil, List.nil_append, List.cons_append, RecOk, recLen,
      List.foldl_cons, e]
    obtain ⟨i1, i2⟩ := ih (approxLen mode F N n + approxLen mode F N n % 2)
      (fun j hj => h j (by omega)) (by omega)
    refine ⟨⟨hm, by have := hx.1; omega, i1⟩, ?_⟩
    unfold recLen at i2
    rw [i2]
    split
    · rename_i h0
      subst h0
      simp [approxLen]
    · rfl

end

end Pywt
