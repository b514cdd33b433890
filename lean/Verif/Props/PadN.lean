import Verif.Proof.FilterN
import Verif.Proof.MultiDimTop
import Verif.Props.Pad

/-!
# Properties C33 and C44 for n-D arrays

`Verif.Spec.PadN`: `ExtLawsN modes x e` says that `e`, a function of integer coordinates, extends the array `x` and obeys
the documented laws of the mode of each axis along all lines parallel to that axis; `windowN` is a box of its values;
`filterN` filters and downsamples it along the axes of a list of stages.
-/

namespace Pywt

open Finset Spec

set_option autoImplicit false

variable {R M : Type} [Ring R] [AddCommGroup M] [Module R M]

/-- C44, n-D.  For all modes and every array whose axes are long enough, exactly one function of integer coordinates
extends the array. -/
theorem C44_extension_determined_nd {modes : ℕ → Mode} {x : Arr M} (hx : ShapeOk modes x.shape) :
    ∃ e, ExtLawsN modes x e ∧ ∀ e', ExtLawsN modes x e' → e' = e :=
  ⟨_, extN_extends hx, fun _ h => lawsN_unique hx h (extN_extends hx)⟩

/-- C44, n-D.  The coefficients of `dwtn` are the filtered and downsampled values of the extended array, for all
wavelets, modes and distinct axes. -/
theorem C44_dwtn_filters_extension {x : Arr M} {wavelet : PerAxis (Wavelet R)} {mode : PerAxis Mode}
    {axes : Option (List ℤ)} {st : List (Stage R)} (hd : 1 ≤ x.ndim) (hr : Resolves x.ndim wavelet mode axes st)
    (hst : StagesOk st x.shape) (hn : (st.map (·.1)).Nodup) {modes : ℕ → Mode} (hm : ∀ s ∈ st, modes s.1 = s.2.2)
    {e : (ℕ → ℤ) → M} (he : ExtLawsN modes x e) :
    ∃ c, dwtn x wavelet mode axes = .ok c ∧ c.length = 2 ^ st.length ∧
      ∀ p ∈ c, ∀ idx, InB p.2.shape idx → p.2.get idx = filterN st p.1 e fun k => (idx k : ℤ) := by
  refine ⟨_, dwtn_ok hd hr hst, by simp [words_length], ?_⟩
  intro p hp idx hidx
  obtain ⟨key, hk, rfl⟩ := List.mem_map.mp hp
  refine subband_filter (mem_words.mp hk).1 hst hn he.1 he.2.1 (fun s hs q => ?_) idx hidx
  have hb := stagesOk_mem hst hn s hs
  have := he.2.2 s.1 hb.1 q
  rwa [hm s hs] at this

/-- A 3×2 array, reflected along axis 0 and continued by straight lines along axis 1. -/
def exPad : Arr ℚ := ⟨[3, 2], [1, 2, 4, 8, 16, 32], rfl⟩

example : ShapeOk (fun k => if k = 0 then .reflect else .smooth) exPad.shape ∧
    StagesOk [(0, haarQ, .reflect), (1, legallQ, .smooth)] exPad.shape ∧
    extN (fun k => if k = 0 then .reflect else .smooth) exPad 2 (fun k => if k = 0 then -1 else 3) = 16 := by
  refine ⟨?_, by decide +kernel, by decide +kernel⟩
  intro k hk
  have : k = 0 ∨ k = 1 := by simp [exPad] at hk; omega
  rcases this with rfl | rfl <;> decide

theorem mapM_broadcastRow : ∀ {l : List (List ℤ)} {ps : List (ℤ × ℤ)}, l.mapM broadcastRow = .ok ps →
    ps.length = l.length ∧ (l.flatten = [] → l = []) := by
  intro l
  induction l with
  | nil =>
    intro ps h
    cases h
    exact ⟨rfl, fun _ => rfl⟩
  | cons a l ih =>
    intro ps h
    rw [List.mapM_cons] at h
    cases ha : broadcastRow a with
    | error err => rw [ha, Py_bind_error] at h; cases h
    | ok p =>
      rw [ha, Py_bind_ok] at h
      cases hl : l.mapM broadcastRow with
      | error err => rw [hl, Py_bind_error] at h; cases h
      | ok qs =>
        rw [hl, Py_bind_ok] at h
        cases h
        refine ⟨by simp [(ih hl).1], fun hf => ?_⟩
        cases a with
        | nil => cases ha
        | cons => simp at hf

theorem broadcast_len {pw : PadWidths} {n : ℕ} {ws : List (ℤ × ℤ)} (h : pw.broadcast n = .ok ws) : ws.length = n := by
  cases pw with
  | int k => cases h; simp
  | row l =>
    simp only [PadWidths.broadcast] at h
    cases hl : broadcastRow l with
    | error err => rw [hl, Py_bind_error] at h; cases h
    | ok p => rw [hl, Py_bind_ok] at h; cases h; simp
  | rows l =>
    simp only [PadWidths.broadcast] at h
    split_ifs at h with h1
    · cases h
    · cases hl : l.mapM broadcastRow with
      | error err => rw [hl] at h; cases h
      | ok ps =>
        rw [hl, Py_bind_ok] at h
        split at h
        · cases h; simp
        · split_ifs at h with h2
          cases h
          exact h2

theorem broadcast_length {pw : PadWidths} {n : ℕ} (hn : 1 ≤ n) {ws : List (ℤ × ℤ)} (h : pw.broadcast n = .ok ws) :
    ws.length = n ∧ pw.values ≠ [] := by
  cases pw with
  | int k => cases h; simp [PadWidths.values]
  | row l =>
    simp only [PadWidths.broadcast] at h
    cases hl : broadcastRow l with
    | error err => rw [hl, Py_bind_error] at h; cases h
    | ok p =>
      rw [hl, Py_bind_ok] at h
      cases h
      refine ⟨by simp, fun hv => ?_⟩
      simp only [PadWidths.values] at hv
      subst hv
      cases hl
  | rows l =>
    simp only [PadWidths.broadcast] at h
    split_ifs at h with h1
    · cases h
    · cases hl : l.mapM broadcastRow with
      | error err => rw [hl, Py_bind_error] at h; cases h
      | ok ps =>
        rw [hl, Py_bind_ok] at h
        have hm := mapM_broadcastRow hl
        have hne : ps ≠ [] := by
          rintro rfl
          simp only at h
          split_ifs at h with h2
          simp at h2
          omega
        refine ⟨?_, fun hv => ?_⟩
        · split at h
          · cases h; simp
          · split_ifs at h with h2
            cases h
            exact h2
        · have := hm.2 hv
          subst this
          exact hne (List.length_eq_zero_iff.1 hm.1)

theorem padN_eq {x : Arr M} (hd : 1 ≤ x.ndim) {pw : PadWidths} {ws : List (ℤ × ℤ)}
    (hw : pw.broadcast x.ndim = .ok ws) (h0 : ∀ v ∈ pw.values, 0 ≤ v) (s : String) :
    padN x pw s = padModeN x (pairs (fun k => ((ws.getD k (0, 0)).1.toNat, (ws.getD k (0, 0)).2.toNat)) x.ndim) s := by
  obtain ⟨h1, h2⟩ := broadcast_length hd hw
  unfold padN
  rw [if_neg h2]
  simp only [Py_pure, Py_bind_ok]
  rw [if_neg (by simpa using h0)]
  rw [hw, Py_bind_ok]
  congr 1
  unfold pairs
  apply List.ext_getElem (by simp [h1])
  intro i hi1 hi2
  simp only [List.length_map] at hi1
  rw [List.getElem_map, List.getElem_map, List.getElem_range, List.getD_eq_getElem _ _ hi1]

/-- C33, n-D.  In the modes other than smooth and antisymmetric `pad` returns the box of the extended array that
`pad_widths` asks for, whatever the dimension: for every array the mode is defined for and all widths. -/
theorem C33_padn_is_window {mode : Mode} (h1 : mode ≠ .smooth) (h2 : mode ≠ .antisymmetric) {x : Arr M}
    (hd : 1 ≤ x.ndim) (hx : ShapeOk (fun _ => mode) x.shape) {e : (ℕ → ℤ) → M} (he : ExtLawsN (fun _ => mode) x e)
    {pw : PadWidths} {ws : List (ℤ × ℤ)} (hw : pw.broadcast x.ndim = .ok ws) (h0 : ∀ v ∈ pw.values, 0 ≤ v) :
    padN x pw (modeName mode) = .ok (windowN e (fun k => (ws.getD k (0, 0)).1.toNat)
      ((List.range x.ndim).map fun k => (ws.getD k (0, 0)).1.toNat +
        (if mode = .periodization then x.shape.getD k 0 + x.shape.getD k 0 % 2 else x.shape.getD k 0) +
        (ws.getD k (0, 0)).2.toNat)) := by
  rw [padN_eq hd hw h0]
  exact padModeN_ok hd hx he _ (fun h => absurd h h1) (fun h => absurd h h2)

/-- C33, n-D, all modes.  The full claim would be the same for the smooth and antisymmetric modes; it is missing that the
width after an axis may be zero and, for the smooth mode, that an axis may have one element only.  Both are false
(`C33_right_width_zero_fails`, `C33_smooth_single_fails`, `C33_padn_right_width_zero_fails`). -/
theorem C33_padn_is_window_partial {mode : Mode} {x : Arr M} (hd : 1 ≤ x.ndim) (hx : ShapeOk (fun _ => mode) x.shape)
    {e : (ℕ → ℤ) → M} (he : ExtLawsN (fun _ => mode) x e)
    {pw : PadWidths} {ws : List (ℤ × ℤ)} (hw : pw.broadcast x.ndim = .ok ws) (h0 : ∀ v ∈ pw.values, 0 ≤ v)
    (hs : mode = .smooth ∨ mode = .antisymmetric → ∀ k < x.ndim, 1 ≤ (ws.getD k (0, 0)).2)
    (hs2 : mode = .smooth → ∀ k < x.ndim, 2 ≤ x.shape.getD k 0) :
    padN x pw (modeName mode) = .ok (windowN e (fun k => (ws.getD k (0, 0)).1.toNat)
      ((List.range x.ndim).map fun k => (ws.getD k (0, 0)).1.toNat +
        (if mode = .periodization then x.shape.getD k 0 + x.shape.getD k 0 % 2 else x.shape.getD k 0) +
        (ws.getD k (0, 0)).2.toNat)) := by
  rw [padN_eq hd hw h0]
  refine padModeN_ok hd hx he _ (fun h k hk => ⟨hs2 h k hk, ?_⟩) (fun h k hk => ?_)
  · have := hs (Or.inl h) k hk; omega
  · have := hs (Or.inr h) k hk; omega

example : padN (⟨[2, 2], [1, 2, 4, 8], rfl⟩ : Arr ℚ) (.rows [[1, 1], [0, 2]]) "smooth" =
      .ok ⟨[4, 4], [-2, -4, -6, -8, 1, 2, 3, 4, 4, 8, 12, 16, 7, 14, 21, 28], rfl⟩ ∧
    padN (⟨[2, 2], [1, 2, 4, 8], rfl⟩ : Arr ℚ) (.int 1) "antisymmetric" =
      .ok ⟨[4, 4], [1, -1, -2, 2, -1, 1, 2, -2, -4, 4, 8, -8, 4, -4, -8, 8], rfl⟩ ∧
    padN (⟨[1, 3], [1, 2, 4], rfl⟩ : Arr ℚ) (.rows [[0, 1]]) "periodization" =
      .ok ⟨[3, 5], [1, 2, 4, 4, 1, 1, 2, 4, 4, 1, 1, 2, 4, 4, 1], rfl⟩ := by
  refine ⟨?_, ?_, ?_⟩ <;> decide +kernel

/-- C33.  The forms of `pad_widths`: one number for all sides, a pair for all axes (given as a pair or as one row), one
row for each axis.  Anything else is rejected, as are negative widths. -/
theorem C33_padn_widths (x : Arr M) (n : ℕ) (a b : ℤ) (l : List ℤ) (rows : List (List ℤ)) (pw : PadWidths)
    (s : String) :
    PadWidths.broadcast n (.int a) = .ok (List.replicate n (a, a)) ∧
    PadWidths.broadcast n (.row [a]) = .ok (List.replicate n (a, a)) ∧
    PadWidths.broadcast n (.row [a, b]) = .ok (List.replicate n (a, b)) ∧
    PadWidths.broadcast n (.rows [[a, b]]) = .ok (List.replicate n (a, b)) ∧
    (∀ ps : List (ℤ × ℤ), ps.length = n → 2 ≤ n →
      PadWidths.broadcast n (.rows (ps.map fun p => [p.1, p.2])) = .ok ps) ∧
    (l.length ≠ 1 → l.length ≠ 2 → PadWidths.broadcast n (.row l) = .error .value) ∧
    (rows.length ≠ 1 → rows.length ≠ n → PadWidths.broadcast n (.rows rows) = .error .value) ∧
    ((∃ v ∈ pw.values, v < 0) → padN x pw s = .error .value) := by
  refine ⟨rfl, rfl, rfl, by simp [PadWidths.broadcast, broadcastRow, List.mapM_cons, Py_bind_ok, Py_pure], ?_, ?_, ?_, ?_⟩
  · intro ps hps hn
    simp only [PadWidths.broadcast]
    rw [if_neg (by cases ps <;> simp)]
    have hm : ∀ ps : List (ℤ × ℤ), (ps.map fun p => [p.1, p.2]).mapM broadcastRow = .ok ps := by
      intro ps
      induction ps with
      | nil => rfl
      | cons p ps ih =>
        rw [List.map_cons, List.mapM_cons, ih]
        rfl
    rw [hm, Py_bind_ok]
    split
    · simp at hps; omega
    · rw [if_pos hps]
  · intro h1 h2
    simp only [PadWidths.broadcast]
    match l, h1, h2 with
    | [], _, _ => rfl
    | [_], h1, _ => exact absurd rfl h1
    | [_, _], _, h2 => exact absurd rfl h2
    | _ :: _ :: _ :: _, _, _ => rfl
  · intro h1 hn
    simp only [PadWidths.broadcast]
    split_ifs with h
    · rfl
    · cases hl : rows.mapM broadcastRow with
      | error err =>
        have : err = .value := by
          clear h1 hn h
          induction rows generalizing err with
          | nil => cases hl
          | cons a rows ih =>
            rw [List.mapM_cons] at hl
            cases ha : broadcastRow a with
            | error e2 =>
              rw [ha, Py_bind_error] at hl
              cases hl
              match a, ha with
              | [], ha => cases ha; rfl
              | _ :: _ :: _ :: _, ha => cases ha; rfl
            | ok p =>
              rw [ha, Py_bind_ok] at hl
              cases hr : rows.mapM broadcastRow with
              | error e3 =>
                rw [hr, Py_bind_error] at hl
                cases hl
                exact ih _ hr
              | ok qs => rw [hr, Py_bind_ok] at hl; cases hl
        subst this
        rfl
      | ok ps =>
        have := (mapM_broadcastRow hl).1
        rw [Py_bind_ok]
        split
        · simp at this; omega
        · rw [if_neg (by omega)]
  · rintro ⟨v, hv, hneg⟩
    unfold padN
    rw [if_neg (fun h => by rw [h] at hv; simp at hv)]
    simp only [Py_pure, Py_bind_ok]
    rw [if_pos (by simpa using ⟨v, hv, hneg⟩)]
    rfl

/-- C33.  Modes that do not exist are rejected, and so are arrays without axes. -/
theorem C33_padn_rejects {x : Arr M} {pw : PadWidths} {ws : List (ℤ × ℤ)} (hw : pw.broadcast x.ndim = .ok ws)
    (h0 : ∀ v ∈ pw.values, 0 ≤ v) (hv : pw.values ≠ []) :
    (∀ s, (∀ mode, s ≠ modeName mode) → padN x pw s = .error .value) ∧
    (x.ndim = 0 → ∀ mode, padN x pw (modeName mode) = .error .type) := by
  have hp : ∀ s, padN x pw s = padModeN x (ws.map fun p => (p.1.toNat, p.2.toNat)) s := by
    intro s
    unfold padN
    rw [if_neg hv]
    simp only [Py_pure, Py_bind_ok]
    rw [if_neg (by simpa using h0)]
    rw [hw, Py_bind_ok]
  constructor
  · intro s h
    rw [hp]
    unfold padModeN
    have h1 := h .symmetric
    have h2 := h .reflect
    have h3 := h .periodic
    have h4 := h .periodization
    have h5 := h .zero
    have h6 := h .constant
    have h7 := h .smooth
    have h8 := h .antisymmetric
    have h9 := h .antireflect
    simp only [modeName, ne_eq] at h1 h2 h3 h4 h5 h6 h7 h8 h9
    simp only [h1, h2, h3, h4, h5, h6, h7, h8, h9, if_false]
  · intro hn mode
    have hs : x.shape = [] := List.length_eq_zero_iff.1 hn
    have hz := broadcast_len hw
    rw [hn] at hz
    have hws : ws = [] := List.length_eq_zero_iff.1 hz
    subst hws
    rw [hp]
    cases mode <;> simp [padModeN, modeName, npPadFun, npPadN, hs, Py_bind_error]

example : padN (⟨[], [5], rfl⟩ : Arr ℚ) (.int 1) "zero" = .error .type ∧
    padN (⟨[2], [5, 6], rfl⟩ : Arr ℚ) (.int 1) "mirror" = .error .value ∧
    padN (⟨[2], [5, 6], rfl⟩ : Arr ℚ) (.row [1, 2, 3]) "zero" = .error .value := by
  refine ⟨?_, ?_, ?_⟩ <;> decide +kernel

/-- C33, n-D, does not hold with width zero after an axis: the array is padded in neither mode, though the other axis
is fine. -/
theorem C33_padn_right_width_zero_fails :
    padN (⟨[2, 2], [1, 2, 4, 8], rfl⟩ : Arr ℚ) (.rows [[1, 1], [1, 0]]) "smooth" = .error .value ∧
    padN (⟨[2, 2], [1, 2, 4, 8], rfl⟩ : Arr ℚ) (.rows [[1, 1], [1, 0]]) "antisymmetric" = .error .value ∧
    padN (⟨[2, 2], [1, 2, 4, 8], rfl⟩ : Arr ℚ) (.rows [[1, 1], [1, 0]]) "symmetric" =
      .ok ⟨[4, 3], [1, 1, 2, 1, 1, 2, 4, 4, 8, 4, 4, 8], rfl⟩ := by
  refine ⟨?_, ?_, ?_⟩ <;> decide +kernel

end Pywt
