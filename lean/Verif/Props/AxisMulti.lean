import Verif.Proof.AxisMulti
import Verif.Proof.Examples

/-!
# C41, C43: `dwt`, `idwt`, `wavedec`, `waverec` along an axis of an n-D array

`AxisIs ndim axis ax`: the argument `axis` (possibly negative) denotes axis number `ax`.
`x.line ax idx`: the line of `x` along axis `ax` through `idx`.  `OffAxis x ax idx` says that `idx` lies
in the array, its entry for axis `ax` being irrelevant.
-/

namespace Pywt

open Finset Spec

set_option autoImplicit false

section
variable {R M : Type} [Ring R] [AddCommGroup M] [Module R M]

/-- The index lies in the array, apart from its entry for axis `ax`. -/
def OffAxis (x : Arr M) (ax : ℕ) (idx : ℕ → ℕ) : Prop :=
  ∀ k < x.ndim, k ≠ ax → idx k < x.shape.getD k 0

/-! ### C41: a transform along an axis is the 1-D transform of every line -/

/-- `dwt` of an n-D array along an axis (negative axes count from the end): every line of the two
results is what 1-D `dwt` returns for that line of the data. -/
theorem C41_dwt_axis_is_dwt_of_lines {w : Wavelet R} (hw : w.Ok) {mode : Mode} {x : Arr M}
    {axis : ℤ} {ax : ℕ} (hax : AxisIs x.ndim axis ax) (hl : LenOk mode (x.shape.getD ax 0)) :
    ∃ cA cD, dwtA w mode axis x = .ok (cA, cD) ∧
      cA.shape = x.shape.set ax (coeffLen mode (x.shape.getD ax 0) w.dec_len) ∧
      cD.shape = cA.shape ∧
      ∀ idx, OffAxis x ax idx →
        dwt w mode (x.line ax idx) = .ok (cA.line ax idx, cD.line ax idx) := by
  refine ⟨_, _, dwtA_ok hw hax hl, rfl, rfl, ?_⟩
  intro idx hidx
  have hs : SignalOk mode (x.line ax idx) := by unfold SignalOk; rw [Arr.line_length]; exact hl
  rw [dwt_ok hw hs, Arr.line_along hax.2 hidx (by rw [analysis_length, Arr.line_length]; rfl),
    Arr.line_along hax.2 hidx (by rw [analysis_length, Arr.line_length, hw.2.2.1]; rfl)]

/-- Lines that 1-D `dwt` rejects make `dwt` along the axis raise the same error. -/
theorem C41_dwt_bad_length_rejected {w : Wavelet R} (hw : w.Ok) {mode : Mode} {x : Arr M}
    {axis : ℤ} {ax : ℕ} (hax : AxisIs x.ndim axis ax) (hl : ¬ LenOk mode (x.shape.getD ax 0)) :
    dwtA w mode axis x = .error .value :=
  dwtA_err hw hax hl

/-- `idwt` along an axis: every line of the result is 1-D `idwt` of the lines of the
coefficients. -/
theorem C41_idwt_axis_is_idwt_of_lines {w : Wavelet R} (hw : w.Ok) {mode : Mode} {a d : Arr M}
    {axis : ℤ} {ax : ℕ} (hax : AxisIs a.ndim axis ax)
    (hs : d.shape = a.shape) (hl : 1 ≤ synthLen mode (a.shape.getD ax 0) w.rec_len) :
    ∃ y, idwtA w mode axis (some a) (some d) = .ok y ∧
      y.shape = a.shape.set ax (synthLen mode (a.shape.getD ax 0) w.rec_len) ∧
      ∀ idx, OffAxis a ax idx →
        idwt w mode (some (a.line ax idx)) (some (d.line ax idx)) = .ok (y.line ax idx) := by
  refine ⟨_, idwtPair_ok hw hax hs hl, rfl, ?_⟩
  intro idx hidx
  rw [idwt_ok hw (by simp [Arr.line_length, hs]) (by rw [Arr.line_length]; exact hl),
    Arr.line_along2 hs hax.2 hidx]
  rw [synthesis_length, Arr.line_length]
  rfl

/-- `idwt` with one coefficient array missing: it acts line by line as 1-D `idwt` with `None`, that
is with zeros in its place. -/
theorem C41_idwt_missing {w : Wavelet R} (hw : w.Ok) {mode : Mode} {c : Arr M}
    {axis : ℤ} {ax : ℕ} (hax : AxisIs c.ndim axis ax)
    (hl : 1 ≤ synthLen mode (c.shape.getD ax 0) w.rec_len) :
    (∃ y, idwtA w mode axis (some c) none = .ok y ∧
      y.shape = c.shape.set ax (synthLen mode (c.shape.getD ax 0) w.rec_len) ∧
      ∀ idx, OffAxis c ax idx →
        idwt w mode (some (c.line ax idx)) none = .ok (y.line ax idx)) ∧
    (∃ y, idwtA w mode axis none (some c) = .ok y ∧
      y.shape = c.shape.set ax (synthLen mode (c.shape.getD ax 0) w.rec_len) ∧
      ∀ idx, OffAxis c ax idx →
        idwt w mode none (some (c.line ax idx)) = .ok (y.line ax idx)) := by
  have hz : ∀ idx, c.zerosLike.line ax idx = zeros (c.line ax idx).length := by
    intro idx
    unfold Arr.line zeros
    rw [List.length_map, List.length_range]
    apply List.ext_getElem
    · simp [Arr.zerosLike]
    · intro j h1 h2
      simp [Arr.get, Arr.zerosLike, zeros, List.getD_eq_getElem?_getD, List.getElem?_replicate]
      split <;> rfl
  constructor
  · obtain ⟨y, y1, y2, y3⟩ := C41_idwt_axis_is_idwt_of_lines hw (mode := mode) (a := c)
      (d := c.zerosLike) hax rfl hl
    refine ⟨y, y1, y2, fun idx hidx => ?_⟩
    rw [← y3 idx hidx, hz]
    rfl
  · obtain ⟨y, y1, y2, y3⟩ := C41_idwt_axis_is_idwt_of_lines hw (mode := mode) (a := c.zerosLike)
      (d := c) hax rfl hl
    refine ⟨y, y1, y2, fun idx hidx => ?_⟩
    rw [← y3 idx hidx, hz]
    rfl

/-- An axis outside the array is rejected by `dwt` and `idwt`; `idwt` without any coefficients is
rejected. -/
theorem C41_bad_axis_rejected (w : Wavelet R) (mode : Mode) (x : Arr M) (axis : ℤ)
    (h : axis < -(x.ndim : ℤ) ∨ (x.ndim : ℤ) ≤ axis) (d : Option (Arr M)) :
    dwtA w mode axis x = .error .axis ∧ idwtA w mode axis (some x) d = .error .axis ∧
    idwtA w mode axis none (some x) = .error .axis ∧
    idwtA w mode axis none (none : Option (Arr M)) = .error .value := by
  have hn : normAxis x.ndim axis = .error .axis := by
    unfold normAxis
    simp only
    rw [if_neg]
    split <;> omega
  have hn' : normAxis x.zerosLike.ndim axis = .error .axis := hn
  refine ⟨?_, ?_, ?_, rfl⟩
  · unfold dwtA; rw [hn]; rfl
  · cases d <;> simp only [idwtA, idwtPair, hn] <;> rfl
  · simp only [idwtA, idwtPair, hn']
    rfl

end

/-- Two lines of three samples, transformed along the last axis. -/
example : AxisIs (⟨[2, 3], [1, 2, 3, 4, 5, 6], rfl⟩ : Arr ℚ).ndim (-1) 1 ∧
    LenOk .reflect ((⟨[2, 3], [1, 2, 3, 4, 5, 6], rfl⟩ : Arr ℚ).shape.getD 1 0) := by
  refine ⟨⟨by decide, by decide⟩, by decide⟩

example : ¬ LenOk .reflect ((⟨[2, 1], [1, 2], rfl⟩ : Arr ℚ).shape.getD 1 0) := by decide

example : 1 ≤ synthLen .symmetric ((⟨[2, 3], [1, 2, 3, 4, 5, 6], rfl⟩ : Arr ℚ).shape.getD 1 0)
    legallQ.rec_len := by decide

example : (dwtA haarQ .symmetric (-1) (⟨[2, 3], [1, 2, 3, 4, 5, 6], rfl⟩ : Arr ℚ)) =
    .ok (⟨[2, 2], [3/2, 3, 9/2, 6], rfl⟩, ⟨[2, 2], [-1/2, 0, -1/2, 0], rfl⟩) := by decide +kernel

section
variable {R M : Type} [Ring R] [AddCommGroup M] [Module R M]

/-! ### C43: the multilevel transform along an axis -/

/-- `wavedec(x, w, mode, level, axis)` with an explicit level: `level + 1` arrays; every one has the
shape of `x` except along the axis, and their lines are what 1-D `wavedec` returns for the lines of
`x`. -/
theorem C43_wavedec_lines {w : Wavelet R} (hw : w.Ok) {mode : Mode} {x : Arr M} {axis : ℤ} {ax : ℕ}
    (hax : AxisIs x.ndim axis ax) {n : ℕ} (hl : LevelsOk mode w.dec_len (x.shape.getD ax 0) n) :
    ∃ cs, wavedecA w mode (some (n : ℤ)) axis x = .ok cs ∧ cs.length = n + 1 ∧
      (∀ c ∈ cs, SameBut ax c.shape x.shape) ∧
      cs.map (fun c => c.shape.getD ax 0) = approxLen mode w.dec_len (x.shape.getD ax 0) n ::
        ((List.range n).map fun j => approxLen mode w.dec_len (x.shape.getD ax 0) (j + 1)).reverse ∧
      ∀ idx, OffAxis x ax idx →
        wavedec w mode (some (n : ℤ)) (x.line ax idx) = .ok (cs.map fun c => c.line ax idx) := by
  have hF : 2 ≤ w.dec_len := hw.1
  have hax' : ax < x.shape.length := hax.2
  refine ⟨x.cascadeAlong ax mode w.dec_lo w.dec_hi n, ?_, by simp [Arr.cascadeAlong], ?_, ?_, ?_⟩
  · unfold wavedecA
    simp only [AxisIs.pyIndex (shape := x.shape) hax, checkLevel_one hF]
    rw [if_neg (by omega)]
    simp only [Py_bind_ok, Int.toNat_natCast]
    rw [wavedecALoop_ok hw n x [] hax hl]
    simp
  · intro c hc
    simp only [Arr.cascadeAlong, List.mem_cons, List.mem_reverse, List.mem_map] at hc
    rcases hc with rfl | ⟨j, _, rfl⟩ <;> exact SameBut.set _ _
  · simp only [Arr.cascadeAlong, List.map_cons, List.map_reverse, List.map_map, Function.comp_def,
      Arr.shape_along]
    have e : ∀ m, (x.shape.set ax m).getD ax 0 = m := by
      intro m; rw [getD_set hax', if_pos rfl]
    simp only [e]
    rfl
  · intro idx hidx
    rw [cascadeAlong_lines hw.2.2.1 hax' hidx]
    unfold wavedec
    rw [checkLevel_one hF]
    simp only
    rw [if_neg (by omega)]
    simp only [Py_bind_ok, Int.toNat_natCast]
    rw [wavedecLoop_ok hw _ _ _ (by rw [Arr.line_length]; exact hl)]
    simp

/-- A level that 1-D `wavedec` rejects for lines of this length is rejected, as are negative levels
and axes outside the array. -/
theorem C43_wavedec_rejects {w : Wavelet R} (hw : w.Ok) {mode : Mode} {x : Arr M} {axis : ℤ} :
    (∀ ax n, AxisIs x.ndim axis ax → ¬ LevelsOk mode w.dec_len (x.shape.getD ax 0) n →
      wavedecA w mode (some (n : ℤ)) axis x = .error .value) ∧
    (∀ ax l, AxisIs x.ndim axis ax → l < 0 → wavedecA w mode (some l) axis x = .error .value) ∧
    (∀ level, (¬ ∃ ax, AxisIs x.ndim axis ax) → wavedecA w mode level axis x = .error .axis) := by
  have hF : 2 ≤ w.dec_len := hw.1
  refine ⟨?_, ?_, ?_⟩
  · intro ax n hax hl
    unfold wavedecA
    simp only [AxisIs.pyIndex (shape := x.shape) hax, checkLevel_one hF]
    rw [if_neg (by omega)]
    simp only [Py_bind_ok, Int.toNat_natCast]
    exact wavedecALoop_err hw n x [] hax hl
  · intro ax l hax hl
    unfold wavedecA
    simp only [AxisIs.pyIndex (shape := x.shape) hax, checkLevel_one hF, if_pos hl]
    rfl
  · intro level h
    unfold wavedecA
    rw [pyIndex_none (shape := x.shape) h]
    rfl

/-- `level=None` means `dwt_max_level` of the length along the axis. -/
theorem C43_wavedec_default_level {w : Wavelet R} (hw : w.Ok) (mode : Mode) {x : Arr M} {axis : ℤ}
    {ax : ℕ} (hax : AxisIs x.ndim axis ax) :
    ∃ L, dwtMaxLevel (x.shape.getD ax 0) w.dec_len = .ok L ∧
      wavedecA w mode none axis x = wavedecA w mode (some (L : ℤ)) axis x := by
  have hF : 2 ≤ w.dec_len := hw.1
  refine ⟨dwtMaxLevelC (x.shape.getD ax 0) w.dec_len, ?_, ?_⟩
  · unfold dwtMaxLevel; rw [if_neg (by omega)]
  · unfold wavedecA
    simp only [AxisIs.pyIndex (shape := x.shape) hax, checkLevel_one hF]
    rw [if_neg (by omega)]
    simp

/-- `waverec` along an axis for arbitrary coefficient arrays that agree on the other axes and have
compatible lengths along the axis: every line of the result is what 1-D `waverec` returns for the
lines of the coefficients. -/
theorem C43_waverec_lines {w : Wavelet R} (hw : w.Ok) {mode : Mode} {a : Arr M} {ds : List (Arr M)}
    {axis : ℤ} {ax : ℕ} (hax : AxisIs a.ndim axis ax) (hs : ∀ d ∈ ds, SameBut ax d.shape a.shape)
    (hr : RecOk mode w.rec_len (a.shape.getD ax 0) (ds.map fun d => d.shape.getD ax 0)) :
    ∃ y, waverecA w mode axis (some a :: ds.map some) = .ok (some y) ∧
      y.shape = a.shape.set ax (recLen mode w.rec_len (a.shape.getD ax 0)
        (ds.map fun d => d.shape.getD ax 0)) ∧
      ∀ idx, OffAxis a ax idx →
        waverec w mode (some (a.line ax idx) :: ds.map fun d => some (d.line ax idx)) =
          .ok (some (y.line ax idx)) := by
  obtain ⟨y, y1, y2, y3⟩ := waverecALoop_ok hw ds a hax hs hr
  refine ⟨y, ?_, y2, fun idx hidx => ?_⟩
  · rw [← y1]
    cases ds <;> rfl
  · rw [y3 idx hidx]
    have key : waverec w mode (some (a.line ax idx) :: ds.map fun d => some (d.line ax idx)) =
        waverecLoop w mode (some (a.line ax idx)) (ds.map fun d => some (d.line ax idx)) := by
      cases ds <;> rfl
    rw [key]
    have gen : ∀ (ds : List (Arr M)) (l : List M),
        RecOk mode w.rec_len l.length (ds.map fun d => d.shape.getD ax 0) →
        waverecLoop w mode (some l) (ds.map fun d => some (d.line ax idx)) =
          .ok (some (recombine mode w.rec_lo w.rec_hi l (ds.map fun d => d.line ax idx))) := by
      intro ds
      induction ds with
      | nil => intro l _; rfl
      | cons d ds ih =>
        intro l hr
        obtain ⟨r1, r2, r3⟩ := hr
        simp only at r1 r2 r3
        have hld : (d.line ax idx).length = d.shape.getD ax 0 := Arr.line_length _ _ _
        have ht : (l.take (d.line ax idx).length).length = (d.line ax idx).length := by
          rw [List.length_take, hld]; omega
        have htrim : waverecTrim (some l) (some (d.line ax idx)) =
            .ok (some (l.take (d.line ax idx).length)) := by
          unfold waverecTrim
          rcases r1 with r1 | r1
          · rw [List.take_of_length_le (by omega)]
            simp only [hld, r1]
            rw [if_neg (by omega), if_neg (by omega)]
          · simp only [hld, r1, if_true]
        simp only [List.map_cons, waverecLoop, htrim, Py_bind_ok]
        rw [idwt_ok hw ht (by rw [ht, hld]; exact r2)]
        simp only [Py_bind_ok]
        rw [ih]
        · rfl
        · rw [synthesis_length, ht, hld]; exact r3
    exact gen ds _ (by rw [Arr.line_length]; exact hr)

/-- `waverec` inverts `wavedec` along every axis: the result has the shape of `x`, except that an odd
length along the axis grows by one, and its lines start with the lines of `x`. -/
theorem C43_round_trip {w : Wavelet R} (hw : w.Ok)
    (hpr : PR w.dec_lo w.dec_hi w.rec_lo w.rec_hi) {mode : Mode} {level : Option ℤ} {x : Arr M}
    {axis : ℤ} {ax : ℕ} (hax : AxisIs x.ndim axis ax) {cs : List (Arr M)}
    (h : wavedecA w mode level axis x = .ok cs) :
    ∃ y, waverecA w mode axis (cs.map some) = .ok (some y) ∧
      y.shape = x.shape.set ax (x.shape.getD ax 0 +
        if cs.length = 1 then 0 else x.shape.getD ax 0 % 2) ∧
      ∀ idx, InB x.shape idx → y.get idx = x.get idx := by
  have hax' : ax < x.shape.length := hax.2
  have hrl : w.rec_len = w.dec_len := hw.2.2.2.1
  have key : ∀ n : ℕ, wavedecALoop w mode axis n x [] = .ok cs →
      cs = x.cascadeAlong ax mode w.dec_lo w.dec_hi n ∧
      LevelsOk mode w.dec_len (x.shape.getD ax 0) n := by
    intro n hn
    by_cases hlv : LevelsOk mode w.dec_len (x.shape.getD ax 0) n
    · rw [wavedecALoop_ok hw n x [] hax hlv] at hn
      simp only [Except.ok.injEq, List.reverse_nil, List.append_nil] at hn
      exact ⟨hn.symm, hlv⟩
    · rw [wavedecALoop_err hw n x [] hax hlv] at hn
      simp at hn
  obtain ⟨n, hcs, hlv⟩ : ∃ n : ℕ, cs = x.cascadeAlong ax mode w.dec_lo w.dec_hi n ∧
      LevelsOk mode w.dec_len (x.shape.getD ax 0) n := by
    have hF : 2 ≤ w.dec_len := hw.1
    unfold wavedecA at h
    simp only [AxisIs.pyIndex (shape := x.shape) hax, checkLevel_one hF] at h
    cases level with
    | none => exact ⟨_, key _ h⟩
    | some l =>
      simp only at h
      split at h
      · simp at h
      · exact ⟨_, key _ h⟩
  subst hcs
  have e : ∀ m, (x.shape.set ax m).getD ax 0 = m := by
    intro m; rw [getD_set hax', if_pos rfl]
  obtain ⟨r1, r2⟩ := recOk_cascade (mode := mode) (F := w.dec_len) (N := x.shape.getD ax 0) hw.1
    hw.2.1 n (approxLen mode w.dec_len (x.shape.getD ax 0) n) hlv (.inl rfl)
  obtain ⟨y, y1, y2, y3⟩ := waverecALoop_ok hw (mode := mode) (axis := axis) (ax := ax)
    ((List.range n).map fun j => x.along ax
      (approxLen mode w.dec_lo.length (x.shape.getD ax 0) (j + 1))
        (detail mode w.dec_lo w.dec_hi j)).reverse
    (x.along ax (approxLen mode w.dec_lo.length (x.shape.getD ax 0) n) (approx mode w.dec_lo n))
    (by simpa [Arr.ndim, Arr.shape_along] using hax)
    (by
      intro d hd
      simp only [List.mem_reverse, List.mem_map] at hd
      obtain ⟨j, _, rfl⟩ := hd
      exact (SameBut.set _ _).trans (SameBut.set _ _).symm)
    (by
      simp only [List.map_reverse, List.map_map, Function.comp_def, Arr.shape_along, e, hrl]
      exact r1)
  simp only [List.map_reverse, List.map_map, Function.comp_def, Arr.shape_along, e, hrl] at y2
  refine ⟨y, ?_, ?_, ?_⟩
  · rw [← y1, Arr.cascadeAlong, List.map_cons]
    generalize ((List.range n).map fun j => x.along ax
      (approxLen mode w.dec_lo.length (x.shape.getD ax 0) (j + 1))
        (detail mode w.dec_lo w.dec_hi j)).reverse = ds
    cases ds <;> rfl
  · rw [y2, List.set_set]
    refine congrArg _ (r2.trans ?_)
    cases n with
    | zero => simp [Arr.cascadeAlong, approxLen]
    | succ n => simp [Arr.cascadeAlong]
  · intro idx hidx
    have hoff : ∀ k < x.shape.length, k ≠ ax → idx k < x.shape.getD k 0 := fun k hk _ => hidx k hk
    have hl := y3 idx (by
      intro k hk hka
      rw [Arr.shape_along] at hk ⊢
      rw [getD_set hax', if_neg hka]
      exact hidx k (by simpa using hk))
    have hlines := cascadeAlong_lines (mode := mode) (lo := w.dec_lo) (hi := w.dec_hi) (n := n)
      hw.2.2.1 hax' hoff
    simp only [Arr.cascadeAlong, cascade, List.map_cons, List.cons.injEq] at hlines
    rw [hlines.1, hlines.2] at hl
    have hrec := recombine_cascade hw hpr (mode := mode) (x := x.line ax idx) n
      (approx mode w.dec_lo n (x.line ax idx)) (by rw [Arr.line_length]; exact hlv) (by simp)
    rw [← hl] at hrec
    have hlx : idx ax < (x.line ax idx).length := by rw [Arr.line_length]; exact hidx ax hax'
    have := congrArg (fun l : List M => l.getD (idx ax) 0) hrec
    have hly : idx ax < (y.line ax idx).length := by
      have := congrArg List.length hrec
      rw [List.length_take] at this
      omega
    rw [List.getD_eq_getElem (hn := by rw [List.length_take]; omega),
      List.getD_eq_getElem (hn := hlx), List.getElem_take, Arr.line_getElem, Arr.line_getElem,
      Function.update_eq_self] at this
    exact this

/-- Incompatible lengths along the axis are rejected: the approximation must be as long as the
detail or one longer. -/
theorem C43_waverec_rejects_lengths (w : Wavelet R) (mode : Mode) {axis : ℤ} {ax : ℕ} {a d : Arr M}
    (ha : AxisIs a.ndim axis ax) (hd : AxisIs d.ndim axis ax)
    (h : a.shape.getD ax 0 ≠ d.shape.getD ax 0) (h' : a.shape.getD ax 0 ≠ d.shape.getD ax 0 + 1)
    (ds : List (Option (Arr M))) :
    waverecA w mode axis (some a :: some d :: ds) = .error .value := by
  simp only [waverecA, waverecALoop, trimA, AxisIs.pyIndex (shape := a.shape) ha,
    AxisIs.pyIndex (shape := d.shape) hd]
  rw [if_neg h', if_pos h]
  rfl

/-- A missing detail array is treated as zeros of the shape of the approximation. -/
theorem C43_waverec_none (w : Wavelet R) (mode : Mode) {axis : ℤ} {ax : ℕ} {a : Arr M}
    (ha : AxisIs a.ndim axis ax) (ds : List (Option (Arr M))) :
    waverecA w mode axis (some a :: none :: ds) =
      waverecA w mode axis (some a :: some a.zerosLike :: ds) := by
  have e : trimA axis (some a) (some a.zerosLike) = .ok (some a) := by
    have : a.zerosLike.shape = a.shape := rfl
    simp only [trimA, this, AxisIs.pyIndex (shape := a.shape) ha]
    rw [if_neg (by omega), if_neg (by omega)]
    rfl
  simp only [waverecA, waverecALoop, e]
  simp [trimA, idwtA, Py_pure]

end

/-- The hypotheses hold for two lines of five samples, transformed along the last axis in two
levels. -/
example : AxisIs 2 (-1) 1 ∧ LevelsOk .reflect legallQ.dec_len 5 2 ∧ ¬ LevelsOk .reflect 2 1 1 ∧
    ¬ (∃ ax, AxisIs 2 (-3) ax) ∧ RecOk .symmetric 6 5 [4, 3] ∧ ¬ RecOk .symmetric 6 5 [3] := by
  refine ⟨⟨by decide, by decide⟩, by decide, by decide, ?_, by decide, by decide⟩
  rintro ⟨ax, h, h'⟩
  rw [if_pos (by decide)] at h
  omega

example : wavedecA haarQ .symmetric none 0 (⟨[5, 2], [1, 2, 3, 4, 5, 6, 7, 8, 9, 10], rfl⟩ : Arr ℚ) =
    .ok [⟨[2, 2], [4, 5, 9, 10], rfl⟩, ⟨[2, 2], [-2, -2, 0, 0], rfl⟩,
      ⟨[3, 2], [-1, -1, -1, -1, 0, 0], rfl⟩] := by decide +kernel

end Pywt
