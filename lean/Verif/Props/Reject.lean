import Verif.Props.Dwt
import Verif.Props.Swt
import Verif.Proof.Reject
import Verif.Proof.Pack
import Verif.Proof.Examples

/-!
# C36: invalid calls raise, all other calls return

The theorems decide, for every combination of arguments, whether a call returns or raises.  The
exceptions are: `downcoef`, which enters an endless loop where `dwt` raises
(`C36_downcoef_endless`), and `dwtn`, which does not check its axes (`C36_dwtn_axis_unchecked`).
-/

namespace Pywt

open Finset Spec

set_option autoImplicit false

variable {R M : Type} [Ring R] [AddCommGroup M] [Module R M]

/-- `dwt` raises `ValueError` for an empty signal and for a signal of one sample in the modes that
reflect about the edge samples; every other call returns. -/
theorem C36_dwt_decides {w : Wavelet R} (hw : w.Ok) (mode : Mode) (x : List M) :
    if x.length = 0 ∨ x.length = 1 ∧ (mode = .reflect ∨ mode = .antireflect) then
      dwt w mode x = .error .value
    else ∃ r, dwt w mode x = .ok r := by
  split
  · rename_i h
    apply dwt_err hw
    rintro ⟨h1, h2⟩
    rcases h with h | ⟨h, hm⟩
    · omega
    · have := h2 hm; omega
  · rename_i h
    push Not at h
    refine ⟨_, dwt_ok hw ⟨by omega, fun hm => ?_⟩⟩
    by_contra hc
    rcases hm with hm | hm
    · exact (h.2 (by omega)).1 hm
    · exact (h.2 (by omega)).2 hm

/-- `idwt` raises when both arrays are missing, when their lengths differ and when there are not
enough coefficients for the filters (fewer than `F/2` outside periodization mode, none in it);
every other call returns. -/
theorem C36_idwt_decides {w : Wavelet R} (hw : w.Ok) (mode : Mode) (cA cD : Option (List M)) :
    (∃ r, idwt w mode cA cD = .ok r) ∧
      (∃ n, 1 ≤ n ∧ (mode ≠ .periodization → w.rec_len ≤ 2 * n) ∧ (cA ≠ none ∨ cD ≠ none) ∧
        (∀ c ∈ cA, c.length = n) ∧ ∀ c ∈ cD, c.length = n) ∨
    (idwt w mode cA cD = .error .value ∨ idwt w mode cA cD = .error .alloc) ∧
      ¬ (∃ n, 1 ≤ n ∧ (mode ≠ .periodization → w.rec_len ≤ 2 * n) ∧ (cA ≠ none ∨ cD ≠ none) ∧
        (∀ c ∈ cA, c.length = n) ∧ ∀ c ∈ cD, c.length = n) := by
  obtain ⟨h1, h2, h3, h4, h5⟩ := hw
  have hw : w.Ok := ⟨h1, h2, h3, h4, h5⟩
  have hF : w.rec_len % 2 = 0 := by unfold Wavelet.rec_len; omega
  have hs : ∀ n, (1 ≤ n ∧ (mode ≠ .periodization → w.rec_len ≤ 2 * n)) ↔
      1 ≤ synthLen mode n w.rec_len := by
    intro n
    have : 2 ≤ w.rec_len := by unfold Wavelet.rec_len; omega
    unfold synthLen
    split
    · rename_i hm; simp [hm]; omega
    · rename_i hm
      constructor
      · rintro ⟨-, h⟩; have := h hm; omega
      · intro h; exact ⟨by omega, fun _ => by omega⟩
  have key : ∀ a d : List M, (∃ r, idwtSingle w mode a d = .ok r) ∧
      (∃ n, 1 ≤ n ∧ (mode ≠ .periodization → w.rec_len ≤ 2 * n) ∧ a.length = n ∧ d.length = n) ∨
      (idwtSingle w mode a d = .error .value ∨ idwtSingle w mode a d = .error .alloc) ∧
      ¬ (∃ n, 1 ≤ n ∧ (mode ≠ .periodization → w.rec_len ≤ 2 * n) ∧ a.length = n ∧
        d.length = n) := by
    intro a d
    rcases idwtSingle_total hw mode a d with ⟨e1, e2, e3⟩ | ⟨e1, e2⟩
    · obtain ⟨q1, q2⟩ := (hs _).mpr e2
      exact .inl ⟨⟨_, e3⟩, a.length, q1, q2, rfl, e1.symm⟩
    · refine .inr ⟨e2, ?_⟩
      · rintro ⟨n, q1, q2, rfl, q4⟩
        have := (hs _).mp ⟨q1, q2⟩
        rcases e1 with e1 | e1
        · exact e1 q4.symm
        · omega
  cases cA with
  | none =>
    cases cD with
    | none => simp [idwt]
    | some d => simpa [idwt] using key (zeros d.length) d
  | some a =>
    cases cD with
    | none => simpa [idwt] using key a (zeros a.length)
    | some d => simpa [idwt] using key a d

example : haarQ.Ok ∧ ∃ n, 1 ≤ n ∧ (Mode.zero ≠ .periodization → haarQ.rec_len ≤ 2 * n) ∧
    ((some [(1 : ℚ)] : Option (List ℚ)) ≠ none ∨ (none : Option (List ℚ)) ≠ none) ∧
    (∀ c ∈ some [(1 : ℚ)], c.length = n) ∧ ∀ c ∈ (none : Option (List ℚ)), c.length = n :=
  ⟨haarQ_ok, 1, by simp [Wavelet.rec_len, haarQ]⟩

/-- `downcoef`: an unknown part and a level below one raise `ValueError`, an empty signal raises
`RuntimeError`; when the signals of all levels are acceptable for `dwt` in this mode, the call
returns.  In the remaining case (a one-sample signal at some level, mode reflect or antireflect) the
C code does not terminate, see `C36_downcoef_endless`. -/
theorem C36_downcoef_decides_partial {w : Wavelet R} (hw : w.Ok) (part : String) (mode : Mode)
    (level : ℤ) (x : List M) :
    if part ∉ ["a", "d", "", "ad"] ∨ level < 1 then
      downcoef part w mode level x = .error .value
    else if x = [] then downcoef part w mode level x = .error .runtime
    else if LevelsOk mode w.dec_len x.length level.toNat then
      ∃ r, downcoef part w mode level x = .ok r
    else downcoef part w mode level x = .error (.c .fuel) := by
  have hp : partOk part = true ↔ part ∈ ["a", "d", "", "ad"] := by
    simp [partOk]; tauto
  have e1 : part ∉ ["a", "d", "", "ad"] ∨ level < 1 → downcoef part w mode level x = .error .value := by
    intro h
    unfold downcoef
    by_cases h1 : partOk part = true
    · rw [if_neg (not_not.mpr h1), if_pos (h.resolve_left (not_not.mpr (hp.mp h1)))]; rfl
    · rw [if_pos h1]; rfl
  have e2 : ¬ (part ∉ ["a", "d", "", "ad"] ∨ level < 1) → downcoef part w mode level x =
      downcoefLoop w mode (part = "a") level.toNat x := by
    intro h
    rw [not_or, not_not] at h
    unfold downcoef
    rw [if_neg (not_not.mpr (hp.mpr h.1)), if_neg h.2]
  split
  · rename_i h; exact e1 h
  rename_i h0
  rw [e2 h0]
  obtain ⟨n, hn⟩ : ∃ n, level.toNat = n + 1 := ⟨level.toNat - 1, by omega⟩
  rw [hn]
  split
  · rename_i h; subst h; exact downcoefLoop_nil _ _ _ _
  · rename_i h
    split
    · rename_i hl; exact ⟨_, downcoefLoop_ok hw _ n x hl⟩
    · rename_i hl
      exact downcoefLoop_hangs hw _ _ x (List.length_pos_iff.mpr h) hl

/-- **The guard of `dwt` is missing in `downcoef`.**  On a one-sample signal in the modes reflect and
antireflect the convolution runs forever: no number of loop iterations suffices. -/
theorem C36_downcoef_endless (fuel : ℕ) (v : M) (f : List R) (hf : 2 ≤ f.length) (out : List M)
    (mode : Mode) (hm : mode = .reflect ∨ mode = .antireflect) :
    dsConv fuel [v] f out 2 mode = .error .fuel := by
  rcases hm with rfl | rfl
  · exact dsConv_reflect_one _ _ _ _ hf
  · exact dsConv_antireflect_one _ _ _ _ hf

example : downcoef "a" haarQ .reflect 1 [(1 : ℚ)] = .error (.c .fuel) ∧
    dwt haarQ .reflect [(1 : ℚ)] = .error .value ∧
    downcoef "a" haarQ .reflect 2 [(1 : ℚ), 2] = .error (.c .fuel) := by decide +kernel

/-- The test of `part` lets two strings pass that are neither `'a'` nor `'d'`: they are treated as
`'d'`. -/
theorem C36_part_substring (w : Wavelet R) (mode : Mode) (level : ℤ) (take : ℕ) (x : List M) :
    ∀ part ∈ ["", "ad"], downcoef part w mode level x = downcoef "d" w mode level x ∧
      upcoef part w level take x = upcoef "d" w level take x := by
  intro part hp
  simp only [List.mem_cons, List.not_mem_nil, or_false] at hp
  rcases hp with rfl | rfl <;> exact ⟨rfl, rfl⟩

/-- `upcoef`: an unknown part and a level below one raise `ValueError`, an empty array raises
`RuntimeError`; every other call returns. -/
theorem C36_upcoef_decides {w : Wavelet R} (hw : w.Ok) (part : String) (level : ℤ) (take : ℕ)
    (c : List M) :
    if part ∉ ["a", "d", "", "ad"] ∨ level < 1 then
      upcoef part w level take c = .error .value
    else if c = [] then upcoef part w level take c = .error .runtime
    else ∃ r, upcoef part w level take c = .ok r := by
  have hp : partOk part = true ↔ part ∈ ["a", "d", "", "ad"] := by
    simp [partOk]; tauto
  have e1 : part ∉ ["a", "d", "", "ad"] ∨ level < 1 → upcoef part w level take c = .error .value := by
    intro h
    unfold upcoef
    by_cases h1 : partOk part = true
    · rw [if_neg (not_not.mpr h1), if_pos (h.resolve_left (not_not.mpr (hp.mp h1)))]; rfl
    · rw [if_pos h1]; rfl
  have e2 : ¬ (part ∉ ["a", "d", "", "ad"] ∨ level < 1) → upcoef part w level take c =
      (do let r ← upcoefLoop w (part = "a") level.toNat 0 c; pure (takeCentral take r)) := by
    intro h
    rw [not_or, not_not] at h
    unfold upcoef
    rw [if_neg (not_not.mpr (hp.mpr h.1)), if_neg h.2]
  split
  · rename_i h; exact e1 h
  rename_i h0
  rw [e2 h0]
  obtain ⟨n, hn⟩ : ∃ n, level.toNat = n + 1 := ⟨level.toNat - 1, by omega⟩
  rw [hn]
  split
  · rename_i h; subst h; rw [upcoefLoop_nil]; rfl
  · rename_i h
    rw [upcoefLoop_ok hw _ _ _ _ (List.length_pos_iff.mpr h)]
    exact ⟨_, rfl⟩

/-- `swt`: the call returns exactly when the level is at least one, the start level is not negative
and `2^(start_level+level)` divides the (positive) length; otherwise it raises `ValueError`, or
`OverflowError` for negative numbers. -/
theorem C36_swt_decides {w : Wavelet R} (hw : w.Ok) (l m : ℤ) (trim : Bool) (norm : Option R)
    (x : List M) :
    if l < 0 ∨ m < 0 then swt w (some l) m trim norm x = .error .overflow
    else if 1 ≤ l ∧ 1 ≤ x.length ∧ 2 ^ (m + l).toNat ∣ x.length then
      ∃ r, swt w (some l) m trim norm x = .ok r
    else swt w (some l) m trim norm x = .error .value := by
  split
  · rename_i h; exact C14_swt_negative w l m trim norm x h
  · rename_i h
    obtain ⟨l, rfl⟩ := Int.eq_ofNat_of_zero_le (show 0 ≤ l by omega)
    obtain ⟨m, rfl⟩ := Int.eq_ofNat_of_zero_le (show 0 ≤ m by omega)
    obtain ⟨h1, h2⟩ := C14_swt_accepts hw l m trim norm x
    rw [show ((m : ℤ) + (l : ℤ)).toNat = m + l by omega]
    split
    · rename_i h'; exact h1.mpr ⟨by omega, h'.2⟩
    · rename_i h'
      exact h2 fun hr => h' ⟨by have := (h1.mp hr).1; omega, (h1.mp hr).2⟩

/-- `idwt` along an axis raises when the arrays have different shapes. -/
theorem C36_idwt_shapes_rejected (w : Wavelet R) (mode : Mode) {axis : ℤ} {ax : ℕ}
    {a d : Arr M} (ha : AxisIs a.ndim axis ax) (h : a.shape ≠ d.shape) :
    idwtA w mode axis (some a) (some d) = .error .value ∨
      idwtA w mode axis (some a) (some d) = .error .runtime ∨
      idwtA w mode axis (some a) (some d) = .error .alloc := by
  simp only [idwtA, idwtPair, ha.normAxis, Py_bind_ok]
  by_cases h1 : a.ndim = 1
  · rw [if_pos h1]
    by_cases h2 : d.ndim ≠ 1
    · rw [if_pos h2]; exact .inl rfl
    · rw [if_neg h2]
      unfold idwtSingle
      rw [if_pos]
      · exact .inl rfl
      · intro he
        apply h
        obtain ⟨n, hn⟩ := List.length_eq_one_iff.mp h1
        obtain ⟨m, hm⟩ := List.length_eq_one_iff.mp (not_not.mp h2)
        have e1 := a.ok
        have e2 := d.ok
        rw [hn] at e1 ⊢
        rw [hm] at e2 ⊢
        simp only [List.prod_cons, List.prod_nil, mul_one] at e1 e2
        rw [← e1, ← e2, he]
  · rw [if_neg h1]
    have hlt : ¬ ax ≥ a.toMem.info.ndim := by
      have := ha.2
      simpa [Arr.toMem, Info.ndim, Arr.ndim] using this
    simp only [idwtAxis, idwtAxisMem, Option.map_some, Option.orElse_eq_orElse, Option.orElse_some]
    simp only [if_neg hlt]
    cases hb : idwtBufferLength (a.toMem.info.shape.getD ax 0) w.rec_len mode with
    | none => exact .inr (.inr rfl)
    | some n =>
      right; left
      simp only
      have := idwtAxisC_mismatch w mode ax h n (zeros (a.shape.set ax n).prod)
      simp only [Arr.toMem] at this ⊢
      rw [this]
      rfl

/-- `dwtn`: with axes inside the array, the call returns exactly when every array that is transformed
along the way is long enough for its mode, and raises `ValueError` otherwise. -/
theorem C36_dwtn_decides {x : Arr M} {wavelet : PerAxis (Wavelet R)} {mode : PerAxis Mode}
    {axes : Option (List ℤ)} {st : List (Stage R)} (hd : 1 ≤ x.ndim)
    (hr : Resolves x.ndim wavelet mode axes st) (hb : ∀ s ∈ st, s.1 < x.ndim ∧ s.2.1.Ok) :
    if StagesOk st x.shape then ∃ c, dwtn x wavelet mode axes = .ok c
    else dwtn x wavelet mode axes = .error .value := by
  split
  · rename_i h; exact ⟨_, dwtn_ok hd hr h⟩
  · rename_i h; exact dwtn_err hr hb h

/-- **`dwtn` does not check its axes.**  For an axis number beyond the dimension of the array the
compiled code reads and writes outside the arrays that hold the shapes; no exception is raised
beforehand. -/
theorem C36_dwtn_axis_unchecked {x : Arr M} (hd : 1 ≤ x.ndim) (w : Wavelet R) (mode : Mode)
    {axis : ℤ} (h : (x.ndim : ℤ) ≤ axis) :
    dwtn x (.one w) (.one mode) (some [axis]) = .error (.c .oob) := by
  have e1 : ¬ x.ndim < 1 := by omega
  have e2 : ¬ axis < 0 := by omega
  have e3 : axis.toNat ≥ x.toMem.info.ndim := by
    have : x.toMem.info.ndim = x.ndim := rfl
    omega
  simp [dwtn, e1, normAxes, PerAxis.expand, zipStages, dwtnLoop, dwtnStep, dwtAxisU, e2, dwtAxis,
    dwtAxisMem, e3]

example : (1 : ℕ) ≤ (⟨[2], [(1 : ℚ), 2], rfl⟩ : Arr ℚ).ndim ∧
    (((⟨[2], [(1 : ℚ), 2], rfl⟩ : Arr ℚ).ndim : ℤ)) ≤ 5 := by decide

/-- A negative axis number below `-ndim` raises. -/
theorem C36_dwtn_axis_negative {x : Arr M} (hd : 1 ≤ x.ndim) (w : Wavelet R) (mode : Mode)
    {axis : ℤ} (h : axis < -(x.ndim : ℤ)) :
    dwtn x (.one w) (.one mode) (some [axis]) = .error .overflow := by
  have e1 : ¬ x.ndim < 1 := by omega
  have e2 : axis < 0 := by omega
  have e3 : axis + (x.ndim : ℤ) < 0 := by omega
  simp [dwtn, e1, normAxes, PerAxis.expand, zipStages, dwtnLoop, dwtnStep, dwtAxisU, e2, e3]

/-- Lists of wavelets or modes that have neither one entry nor as many as there are axes are
rejected by `dwtn`. -/
theorem C36_dwtn_counts_rejected (x : Arr M) (wavelet : PerAxis (Wavelet R)) (mode : PerAxis Mode)
    (axes : List ℤ)
    (h : (∃ ws, wavelet = .many ws ∧ ws.length ≠ 1 ∧ ws.length ≠ axes.length) ∨
      ∃ ms, mode = .many ms ∧ ms.length ≠ 1 ∧ ms.length ≠ axes.length) :
    dwtn x wavelet mode (some axes) = .error .value := by
  have key : ∀ {α : Type} (l : List α), l.length ≠ 1 → l.length ≠ axes.length →
      (PerAxis.many l).expand axes.length = .error .value := by
    intro α l h1 h2
    unfold PerAxis.expand
    match l, h1, h2 with
    | [], _, h2 => simp only; rw [if_pos h2]
    | [_], h1, _ => simp at h1
    | _ :: _ :: _, _, h2 => simp only; rw [if_pos h2]
  have hex : ∀ {α : Type} (p : PerAxis α) (n : ℕ), (∃ r, p.expand n = .ok r) ∨
      p.expand n = .error .value := by
    intro α p n
    unfold PerAxis.expand
    split
    · exact .inl ⟨_, rfl⟩
    · exact .inl ⟨_, rfl⟩
    · split
      · exact .inr rfl
      · exact .inl ⟨_, rfl⟩
  unfold dwtn
  by_cases hd : x.ndim < 1
  · rw [if_pos hd]; rfl
  rw [if_neg hd]
  simp only [normAxes, List.length_map, Option.getD_some]
  rcases h with ⟨ws, rfl, h1, h2⟩ | ⟨ms, rfl, h1, h2⟩
  · rcases hex mode axes.length with ⟨r, hr⟩ | hr
    · rw [hr, key ws h1 h2]; rfl
    · rw [hr]; rfl
  · rw [key ms h1 h2]; rfl

/-- `wavedecn` and `wavedec2` reject repeated axes (`ValueError`) and axes outside the array
(`AxisError`). -/
theorem C36_multilevel_axes_rejected (x : Arr M) (wavelet : PerAxis (Wavelet R))
    (mode : PerAxis Mode) (level : Option ℤ) (axes : List ℤ) :
    (¬ axes.Nodup → wavedecn x wavelet mode level (some axes) = .error .value ∧
      wavedec2 x wavelet mode level axes = .error .value) ∧
    (axes.Nodup → (∃ a ∈ axes, ¬ ∃ k, AxisIs x.ndim a k) →
      (1 ≤ x.ndim → wavedecn x wavelet mode level (some axes) = .error .axis) ∧
      (2 ≤ x.ndim → axes.length = 2 → wavedec2 x wavelet mode level axes = .error .axis)) := by
  constructor
  · intro h
    constructor
    · unfold wavedecn prepAxes
      simp only [Option.getD_some]
      by_cases hd : x.shape.length < 1
      · rw [if_pos hd]; rfl
      · rw [if_neg hd, if_pos h]; rfl
    · unfold wavedec2
      by_cases hd : x.ndim < 2
      · rw [if_pos hd]; rfl
      · rw [if_neg hd]
        by_cases h2 : axes.length ≠ 2
        · rw [if_pos h2]; rfl
        · rw [if_neg h2, if_pos h]; rfl
  · intro hn h
    have hs := axesShapes_err (shape := x.shape) axes h
    constructor
    · intro hd
      unfold wavedecn prepAxes
      simp only [Option.getD_some]
      rw [if_neg (show ¬ x.shape.length < 1 by unfold Arr.ndim at hd; omega),
        if_neg (not_not.mpr hn), hs]
      rfl
    · intro hd h2
      unfold wavedec2
      rw [if_neg (show ¬ x.ndim < 2 by omega), if_neg (not_not.mpr h2), if_neg (not_not.mpr hn), hs]
      rfl

/-- An array without axes is rejected by the n-D transforms; `wavedec2` and `dwt2` want exactly two
axes. -/
theorem C36_too_few_dimensions (x : Arr M) (wavelet : PerAxis (Wavelet R)) (mode : PerAxis Mode)
    (level : Option ℤ) (axes : Option (List ℤ)) (axes2 : List ℤ) :
    (x.ndim = 0 → wavedecn x wavelet mode level axes = .error .value ∧
      dwtn x wavelet mode axes = .error .value) ∧
    (x.ndim < 2 → wavedec2 x wavelet mode level axes2 = .error .value) ∧
    (axes2.length ≠ 2 → wavedec2 x wavelet mode level axes2 = .error .value ∧
      dwt2 x wavelet mode axes2 = .error .value ∧
      ∀ c, idwt2 (M := M) c wavelet mode axes2 = .error .value) := by
  refine ⟨fun h => ⟨?_, ?_⟩, fun h => ?_, fun h => ⟨?_, ?_, fun c => ?_⟩⟩
  · unfold wavedecn prepAxes
    rw [if_pos (show x.shape.length < 1 by unfold Arr.ndim at h; omega)]
    rfl
  · unfold dwtn
    rw [if_pos (by omega)]; rfl
  · unfold wavedec2
    rw [if_pos h]; rfl
  · unfold wavedec2
    by_cases hd : x.ndim < 2
    · rw [if_pos hd]; rfl
    · rw [if_neg hd, if_pos h]; rfl
  · unfold dwt2
    rw [if_pos h]; rfl
  · simp only [idwt2]
    rw [if_pos h]; rfl

/-- **Repeated axes given by different numbers are not noticed.**  `axes=(0, -1)` names the only
axis of a 1-D array twice, and `wavedecn` transforms it twice. -/
theorem C36_wavedecn_alias_accepted :
    ∃ r, wavedecn (⟨[2], [(1 : ℚ), 3], rfl⟩ : Arr ℚ) (.one haarQ) (.one .periodization) (some 1)
      (some [0, -1]) = .ok r := by
  have : (wavedecn (⟨[2], [(1 : ℚ), 3], rfl⟩ : Arr ℚ) (.one haarQ) (.one .periodization) (some 1)
      (some [0, -1])).isOk = true := by decide +kernel
  revert this
  cases wavedecn (⟨[2], [(1 : ℚ), 3], rfl⟩ : Arr ℚ) (.one haarQ) (.one .periodization) (some 1)
      (some [0, -1]) with
  | ok r => exact fun _ => ⟨r, rfl⟩
  | error e => exact fun h => by cases h

/-- `idwtn` raises `ValueError` when no coefficient array is given, when a name has other letters
than `a` and `d`, when names have different lengths, and when the arrays have different shapes. -/
theorem C36_idwtn_rejects (c : CDict M) (wavelet : PerAxis (Wavelet R)) (mode : PerAxis Mode)
    (axes : Option (List ℤ))
    (h : (∀ p ∈ c, p.2 = none) ∨
      (∃ k v, (k, some v) ∈ c ∧ ∃ ch ∈ k, ch ≠ 'a' ∧ ch ≠ 'd') ∨
      (∃ k v k' v', (k, some v) ∈ c ∧ (k', some v') ∈ c ∧ k.length ≠ k'.length) ∨
      (∃ k v k' v', (k, some v) ∈ c ∧ (k', some v') ∈ c ∧ v.shape ≠ v'.shape)) :
    idwtn c wavelet mode axes = .error .value := by
  have hmem : ∀ k v, (k, some v) ∈ c → (k, v) ∈ dropNone c := by
    intro k v h
    unfold dropNone
    rw [List.mem_filterMap]
    exact ⟨_, h, rfl⟩
  unfold idwtn
  simp only
  by_cases hk : (!keysOk ((dropNone c).map (·.1))) = true
  · rw [if_pos hk]; rfl
  rw [if_neg hk]
  have hk' : keysOk ((dropNone c).map (·.1)) = true := by simpa using hk
  unfold keysOk at hk'
  rw [Bool.and_eq_true, List.all_eq_true, List.all_eq_true] at hk'
  obtain ⟨q1, q2⟩ := hk'
  rcases h with h | ⟨k, v, hkv, ch, hch, h1, h2⟩ | ⟨k, v, k', v', hkv, hkv', hne⟩ |
    ⟨k, v, k', v', hkv, hkv', hne⟩
  · have : dropNone c = [] := by
      unfold dropNone
      rw [List.filterMap_eq_nil_iff]
      intro p hp
      rw [h p hp]
      rfl
    rw [this]
    rfl
  · have := q1 k (List.mem_map.mpr ⟨_, hmem _ _ hkv, rfl⟩)
    rw [List.all_eq_true] at this
    have := this ch hch
    simp [h1, h2] at this
  · have e1 := q2 k (List.mem_map.mpr ⟨_, hmem _ _ hkv, rfl⟩)
    have e2 := q2 k' (List.mem_map.mpr ⟨_, hmem _ _ hkv', rfl⟩)
    simp only [decide_eq_true_eq] at e1 e2
    exact absurd (e1.trans e2.symm) hne
  · have m1 := hmem _ _ hkv
    have m2 := hmem _ _ hkv'
    cases hd : dropNone c with
    | nil => rw [hd] at m1; simp at m1
    | cons p rest =>
      obtain ⟨k0, v0⟩ := p
      rw [hd] at m1 m2
      simp only
      rw [if_pos]
      · rfl
      · rw [List.any_eq_true]
        by_cases hv : v.shape = v0.shape
        · exact ⟨_, m2, by simpa using fun e => hne (hv.trans e.symm)⟩
        · exact ⟨_, m1, by simpa using hv⟩

/-- `waverec` on arrays of different dimension: when the approximation is longer by one sample and
has fewer axes than the detail, cutting it raises `AxisError`. -/
theorem C36_waverec_fewer_axes_rejected (w : Wavelet R) (mode : Mode) {axis : ℤ} {i j : ℕ}
    {a d : Arr M} (ha : AxisIs a.ndim axis i) (hd : AxisIs d.ndim axis j)
    (hlen : a.shape.getD i 0 = d.shape.getD j 0 + 1) (h : a.ndim < d.ndim)
    (ds : List (Option (Arr M))) :
    waverecA w mode axis (some a :: some d :: ds) = .error .axis := by
  have e : trimTo a d = .error .axis := by
    unfold trimTo Arr.getSlices
    rw [if_pos (by unfold Arr.ndim at h ⊢; simpa using h)]
    rfl
  simp only [waverecA, waverecALoop, trimA, AxisIs.pyIndex (shape := a.shape) ha,
    AxisIs.pyIndex (shape := d.shape) hd]
  rw [if_pos hlen, e]
  rfl

example : AxisIs (⟨[3], [(1 : ℚ), 2, 3], rfl⟩ : Arr ℚ).ndim (-1) 0 ∧
    AxisIs (⟨[1, 2], [(1 : ℚ), 2], rfl⟩ : Arr ℚ).ndim (-1) 1 ∧
    (⟨[3], [(1 : ℚ), 2, 3], rfl⟩ : Arr ℚ).shape.getD 0 0 =
      (⟨[1, 2], [(1 : ℚ), 2], rfl⟩ : Arr ℚ).shape.getD 1 0 + 1 := by
  unfold AxisIs; decide

/-- `coeffs_to_array` rejects a number of axes different from the number of letters of the detail
names, and wants `axes` when the transform did not cover all axes. -/
theorem C36_coeffs_to_array_axes_rejected (a : Arr M) (k : Key) (v : Option (Arr M))
    (d : CDict M) (ds : List (Item M)) (padding : Option M) (axes : Option (List ℤ)) (junk : ℕ → M)
    (h : (axes = none ∧ k.length ≠ a.ndim) ∨ ∃ l, axes = some l ∧ l.length ≠ k.length) :
    coeffsToArray (.arr a :: .dict ((k, v) :: d) :: ds) padding axes junk = .error .value := by
  have hp : packAxes a.ndim k.length axes = .error .value := by
    unfold packAxes
    rcases h with ⟨rfl, h⟩ | ⟨l, rfl, h⟩
    · by_cases hlt : k.length < a.ndim
      · rw [if_pos ⟨rfl, hlt⟩]; rfl
      · rw [if_neg (fun h => hlt h.2), if_pos]
        · rfl
        · simp only [Option.getD_none, rangeAxes, List.length_map, List.length_range]; omega
    · rw [if_neg (by simp)]
      simp only [Option.getD_some]
      rw [if_pos h]; rfl
  unfold coeffsToArray
  simp only [headArr, Py_pure, Py_bind_ok, detailsToN, firstKeyLen, hp]
  rfl

example : (none : Option (List ℤ)) = none ∧ (['d'] : Key).length ≠
    (⟨[1, 2], [(1 : ℚ), 2], rfl⟩ : Arr ℚ).ndim := by decide

end Pywt
