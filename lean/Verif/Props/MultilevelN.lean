import Verif.Proof.Waverec2
import Verif.Proof.Examples

/-!
# C20: multilevel n-D transforms

Specification: `Verif.Spec.MultilevelN`.  `x.approxN st n` is the all-low-pass subband taken `n`
times, `x.detailsN st j` the other subbands of `x.approxN st j`, `x.cascadeN st n` the list
`[approxN n, detailsN (n-1), …, detailsN 0]`; `LevelsOkN` says that each of the arrays transformed is
acceptable.  `Resolves` relates the arguments `wavelet`, `mode`, `axes` of a call to its stages.
-/

namespace Pywt

open Finset Spec

set_option autoImplicit false

section
variable {R M : Type} [Ring R] [AddCommGroup M] [Module R M]

/-- `wavedecn` with an explicit level on distinct axes: negative levels are rejected, levels at which
some axis is too short are rejected, and otherwise the result is the cascade. -/
theorem C20_wavedecn_explicit_level {x : Arr M} {wavelet : PerAxis (Wavelet R)}
    {mode : PerAxis Mode} {axes : Option (List ℤ)} {st : List (Stage R)} (hne : st ≠ [])
    (hr : Resolves x.ndim wavelet mode axes st) (hb : ∀ s ∈ st, s.1 < x.ndim ∧ s.2.1.Ok)
    (hn : (st.map (·.1)).Nodup) (l : ℤ) :
    wavedecn x wavelet mode (some l) axes =
      if l < 0 then .error .value
      else if LevelsOkN st x.shape l.toNat then .ok (x.cascadeN st l.toNat)
      else .error .value := by
  have hd : 1 ≤ x.ndim := by
    cases st with
    | nil => exact absurd rfl hne
    | cons s st => have := (hb s (by simp)).1; omega
  obtain ⟨L, -, h⟩ := wavedecn_eq hd hne hr hb hn
  rw [h]
  simp

/-- Without a level, `wavedecn` uses the largest `L` with `(F_s - 1)·2^L ≤ n_s` on every transformed
axis, and that level is always accepted. -/
theorem C20_wavedecn_default_level {x : Arr M} {wavelet : PerAxis (Wavelet R)}
    {mode : PerAxis Mode} {axes : Option (List ℤ)} {st : List (Stage R)} (hne : st ≠ [])
    (hr : Resolves x.ndim wavelet mode axes st) (hb : ∀ s ∈ st, s.1 < x.ndim ∧ s.2.1.Ok)
    (hn : (st.map (·.1)).Nodup) :
    ∃ L, (∀ l, l ≤ L ↔ ∀ s ∈ st, l = 0 ∨ (s.2.1.dec_len - 1) * 2 ^ l ≤ x.shape.getD s.1 0) ∧
      wavedecn x wavelet mode none axes = .ok (x.cascadeN st L) := by
  have hd : 1 ≤ x.ndim := by
    cases st with
    | nil => exact absurd rfl hne
    | cons s st => have := (hb s (by simp)).1; omega
  obtain ⟨L, h1, h⟩ := wavedecn_eq hd hne hr hb hn
  refine ⟨L, h1, ?_⟩
  rw [h]
  simp only [Option.any_none, Bool.false_eq_true, if_false, Option.map_none, Option.getD_none]
  rw [if_pos]
  exact levelsOkN_of_default hn hb (fun l hl s hs => (h1 l).mp hl s hs)

/-- `waverecn` inverts `wavedecn` whenever the latter returns: the result restricted to the shape of
`x` is `x`; if a level was computed, transformed axes of odd length come back one longer. -/
theorem C20_waverecn_wavedecn {x : Arr M} {wavelet : PerAxis (Wavelet R)}
    {mode : PerAxis Mode} {axes : Option (List ℤ)} {st : List (Stage R)} (hne : st ≠ [])
    (hr : Resolves x.ndim wavelet mode axes st) (hb : ∀ s ∈ st, s.1 < x.ndim ∧ s.2.1.Ok)
    (hn : (st.map (·.1)).Nodup)
    (hpr : ∀ s ∈ st, PR s.2.1.dec_lo s.2.1.dec_hi s.2.1.rec_lo s.2.1.rec_hi)
    {level : Option ℤ} {cs : List (Item M)} (h : wavedecn x wavelet mode level axes = .ok cs) :
    ∃ y, waverecn cs wavelet mode axes = .ok (.arr y) ∧ y.Extends x ∧
      (cs.length = 1 → y = x) ∧
      (2 ≤ cs.length → y.shape.length = x.shape.length ∧
        (∀ s ∈ st, y.shape.getD s.1 0 = x.shape.getD s.1 0 + x.shape.getD s.1 0 % 2) ∧
        (∀ j, j ∉ st.map (·.1) → y.shape.getD j 0 = x.shape.getD j 0)) := by
  have hd : 1 ≤ x.ndim := by
    cases st with
    | nil => exact absurd rfl hne
    | cons s st => have := (hb s (by simp)).1; omega
  obtain ⟨L, -, hall⟩ := wavedecn_eq hd hne hr hb hn
  rw [hall] at h
  split at h
  · simp at h
  split at h
  · rename_i hlv
    simp only [Except.ok.injEq] at h
    subst h
    obtain ⟨y, e1, e2, e3, e4⟩ := waverecn_cascade hr hne hn hpr hlv
    refine ⟨y, e1, e4, fun hl => e2 ?_, fun hl => e3 ?_⟩ <;>
      simp only [Arr.cascadeN, List.length_cons, List.length_reverse, List.length_map,
        List.length_range] at hl <;> omega
  · simp at h

/-- `wavedec2` on two distinct axes, with an explicit level. -/
theorem C20_wavedec2_explicit_level {x : Arr M} {wavelet : PerAxis (Wavelet R)}
    {mode : PerAxis Mode} {axes : List ℤ} {s t : Stage R}
    (hr : Resolves x.ndim wavelet mode (some axes) [s, t])
    (hb : ∀ u ∈ [s, t], u.1 < x.ndim ∧ u.2.1.Ok) (hst : s.1 ≠ t.1) (l : ℤ) :
    wavedec2 x wavelet mode (some l) axes =
      if l < 0 then .error .value
      else if LevelsOkN [s, t] x.shape l.toNat then .ok (x.cascade2 [s, t] l.toNat)
      else .error .value := by
  obtain ⟨L, -, h⟩ := wavedec2_eq hr hb hst
  rw [h]
  simp

/-- `waverec2` inverts `wavedec2` whenever the latter returns. -/
theorem C20_waverec2_wavedec2 {x : Arr M} {wavelet : PerAxis (Wavelet R)}
    {mode : PerAxis Mode} {axes : List ℤ} {s t : Stage R}
    (hr : Resolves x.ndim wavelet mode (some axes) [s, t])
    (hb : ∀ u ∈ [s, t], u.1 < x.ndim ∧ u.2.1.Ok) (hst : s.1 ≠ t.1)
    (hpr : ∀ u ∈ [s, t], PR u.2.1.dec_lo u.2.1.dec_hi u.2.1.rec_lo u.2.1.rec_hi)
    {level : Option ℤ} {cs : List (Item M)} (h : wavedec2 x wavelet mode level axes = .ok cs) :
    ∃ y, waverec2 cs wavelet mode axes = .ok (.arr y) ∧ y.Extends x ∧
      (cs.length = 1 → y = x) ∧
      (2 ≤ cs.length → y.shape.length = x.shape.length ∧
        (∀ u ∈ [s, t], y.shape.getD u.1 0 = x.shape.getD u.1 0 + x.shape.getD u.1 0 % 2) ∧
        (∀ j, j ∉ [s, t].map (·.1) → y.shape.getD j 0 = x.shape.getD j 0)) := by
  obtain ⟨L, -, hall⟩ := wavedec2_eq hr hb hst
  rw [hall] at h
  split at h
  · simp at h
  split at h
  · rename_i hlv
    simp only [Except.ok.injEq] at h
    subst h
    obtain ⟨y, e1, e2, e3, e4⟩ := waverec2_cascade hr hst hpr hlv
    refine ⟨y, e1, e4, fun hl => e2 ?_, fun hl => e3 ?_⟩ <;>
      simp only [Arr.cascade2, List.length_cons, List.length_reverse, List.length_map,
        List.length_range] at hl <;> omega
  · simp at h

/-- With an explicit level, `wavedec2` and `wavedecn` compute the same arrays: `cH`, `cV`, `cD` are
the entries `'da'`, `'ad'`, `'dd'`. -/
theorem C20_wavedec2_eq_wavedecn {x : Arr M} {wavelet : PerAxis (Wavelet R)}
    {mode : PerAxis Mode} {axes : List ℤ} {s t : Stage R}
    (hr : Resolves x.ndim wavelet mode (some axes) [s, t])
    (hb : ∀ u ∈ [s, t], u.1 < x.ndim ∧ u.2.1.Ok) (hst : s.1 ≠ t.1) (l : ℕ)
    {cs : List (Item M)} (h : wavedec2 x wavelet mode (some l) axes = .ok cs) :
    ∃ (a : Arr M) (ds : List (Arr M × Arr M × Arr M)), cs = .arr a :: ds.map Item.ofTriple ∧
      wavedecn x wavelet mode (some l) (some axes) = .ok (.arr a :: ds.map fun t =>
        .dict [(['a', 'd'], some t.2.1), (['d', 'a'], some t.1), (['d', 'd'], some t.2.2)]) := by
  rw [C20_wavedec2_explicit_level hr hb hst, if_neg (by omega), Int.toNat_natCast] at h
  split at h
  · rename_i hlv
    simp only [Except.ok.injEq] at h
    subst h
    refine ⟨x.approxN [s, t] l, ((List.range l).map fun j => x.triple [s, t] j).reverse, ?_, ?_⟩
    · rw [List.map_reverse, List.map_map]; rfl
    · rw [C20_wavedecn_explicit_level (st := [s, t]) (by simp) hr hb (by simpa using hst),
        if_neg (by omega), Int.toNat_natCast, if_pos hlv, List.map_reverse, List.map_map]
      rfl
  · simp at h

end

/-! A 5×3 array, two levels along both axes in reverse order with different wavelets and modes. -/

example : Resolves (R := ℚ) 2 (.many [legallQ, haarQ]) (.many [.reflect, .symmetric]) (some [-1, 0])
      [(1, legallQ, .reflect), (0, haarQ, .symmetric)] ∧
    (∀ s ∈ [((1 : ℕ), legallQ, Mode.reflect), (0, haarQ, .symmetric)], s.1 < 2 ∧ s.2.1.Ok) ∧
    ([((1 : ℕ), legallQ, Mode.reflect), (0, haarQ, .symmetric)].map (·.1)).Nodup ∧
    (∀ s ∈ [((1 : ℕ), legallQ, Mode.reflect), (0, haarQ, .symmetric)],
      PR s.2.1.dec_lo s.2.1.dec_hi s.2.1.rec_lo s.2.1.rec_hi) ∧
    LevelsOkN [(1, legallQ, .reflect), (0, haarQ, .symmetric)] [5, 3] 2 := by
  refine ⟨⟨rfl, rfl, rfl⟩, by decide, by decide, ?_, by decide⟩
  intro s hs
  simp only [List.mem_cons, List.not_mem_nil, or_false] at hs
  rcases hs with rfl | rfl
  · exact legallQ_PR
  · exact haarQ_PR

end Pywt
