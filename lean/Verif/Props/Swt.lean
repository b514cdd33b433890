import Verif.Proof.SwtTop
import Verif.Proof.Iswt
import Verif.Proof.Lin
import Verif.Proof.Examples
import Verif.Proof.Multi
import Mathlib.Analysis.Real.Sqrt
import Mathlib.RingTheory.Multiplicity
import Mathlib.Data.Nat.Multiplicity
import Mathlib.Tactic.IntervalCases
import Mathlib.LinearAlgebra.Complex.Module

/-!
# Properties C14–C17: the stationary transform, and energy

`Verif.Spec.Swt` contains the specification of the undecimated transform: `atrous f s x` is circular
filtering with taps `s` samples apart, `swtApprox`/`swtDetail` iterate it, `shift` is the circular
shift.
-/

namespace Pywt

set_option autoImplicit false

open Finset Spec

section Ring

variable {R M : Type} [Ring R] [AddCommGroup M] [Module R M]

/-- **C14.** `swt(x, w, level=l, start_level=m)` succeeds exactly when `l ≥ 1` and the (non-zero)
length is a multiple of `2^(m+l)`; otherwise it raises `ValueError`. -/
theorem C14_swt_accepts {w : Wavelet R} (hw : w.Ok) (l m : ℕ) (trim : Bool) (norm : Option R)
    (x : List M) :
    ((∃ r, swt w (some (l : ℤ)) (m : ℤ) trim norm x = .ok r) ↔
      1 ≤ l ∧ 1 ≤ x.length ∧ 2 ^ (m + l) ∣ x.length) ∧
    ((¬ ∃ r, swt w (some (l : ℤ)) (m : ℤ) trim norm x = .ok r) →
      swt w (some (l : ℤ)) (m : ℤ) trim norm x = .error .value) := by
  rw [swt_eq hw]
  by_cases h : 1 ≤ l ∧ 1 ≤ x.length ∧ 2 ^ (m + l) ∣ x.length
  · simp only [if_pos h]
    exact ⟨⟨fun _ => h, fun _ => ⟨_, rfl⟩⟩, fun h' => absurd ⟨_, rfl⟩ h'⟩
  · simp only [if_neg h]
    refine ⟨⟨fun ⟨r, hr⟩ => by simp at hr, fun h' => absurd h' h⟩, fun _ => trivial⟩

example : legallQ.Ok ∧ 1 ≤ 2 ∧ 1 ≤ [(1 : ℚ), 2, 3, 4].length ∧ 2 ^ (0 + 2) ∣ [(1 : ℚ), 2, 3, 4].length
    := by decide

/-- **C14.** Negative levels are rejected. -/
theorem C14_swt_negative (w : Wavelet R) (l m : ℤ) (trim : Bool) (norm : Option R) (x : List M)
    (h : l < 0 ∨ m < 0) : swt w (some l) m trim norm x = .error .overflow := by
  unfold swt
  by_cases hl : l < 0
  · simp only [if_pos hl]; rfl
  · have hm : m < 0 := by omega
    simp only [if_neg hl, if_pos hm]; rfl

example : (-1 : ℤ) < 0 ∨ (0 : ℤ) < 0 := by decide

/-- **C14.** What `swt` returns: with `A 0 = x`, every level filters the previous approximation
circularly with the two filters whose taps are spread `2^(m+j)` samples apart; every array has the
length of `x`; the arrays are listed from the coarsest level on, with all approximations or
(`trim_approx`) only the last one. -/
theorem C14_swt_values {w : Wavelet R} (hw : w.Ok) {l m : ℕ} {trim : Bool} {x : List M}
    {r : SwtCoeffs (List M)} (h : swt w (some (l : ℤ)) (m : ℤ) trim none x = .ok r) :
    ∃ A D : ℕ → List M, A 0 = x ∧
      (∀ j < l, (A (j + 1)).length = x.length ∧ (D j).length = x.length ∧
        ∀ n < x.length,
          (A (j + 1)).getD n 0 = ∑ i ∈ range w.dec_len, w.dec_lo.getD i 0 •
            (A j).getD (((n : ℤ) + 2 ^ (m + j) * ((w.dec_len / 2 : ℕ) - i)) % x.length).toNat 0 ∧
          (D j).getD n 0 = ∑ i ∈ range w.dec_len, w.dec_hi.getD i 0 •
            (A j).getD (((n : ℤ) + 2 ^ (m + j) * ((w.dec_len / 2 : ℕ) - i)) % x.length).toNat 0) ∧
      r = if trim then .trimmed (A l :: ((List.range l).map D).reverse)
        else .pairs ((List.range l).map fun j => (A (j + 1), D j)).reverse := by
  rw [swt_eq hw] at h
  split at h
  swap
  · simp at h
  simp only [Except.ok.injEq, Wavelet.normed] at h
  refine ⟨swtApprox w.dec_lo m x, swtDetail w.dec_lo w.dec_hi m x, rfl, ?_, ?_⟩
  · intro j _
    refine ⟨by simp, by simp, ?_⟩
    intro n hn
    have h3 : w.dec_hi.length = w.dec_lo.length := hw.2.2.1
    constructor
    · rw [swtApprox, List.getD_eq_getElem (hn := by simpa using hn)]
      simp [atrous, at', Wavelet.dec_len]
    · rw [swtDetail, List.getD_eq_getElem (hn := by simpa using hn)]
      simp [atrous, at', Wavelet.dec_len, h3]
  · rw [← h]; rfl

example : swt haarQ (some 2) 0 true none [(1 : ℚ), 2, 3, 6] =
    .ok (.trimmed [[3, 3, 3, 3], [-3 / 2, -1 / 2, 3 / 2, 1 / 2], [-1 / 2, -1 / 2, -3 / 2, 5 / 2]])
    := by decide +kernel

/-- **C14.** `norm=True` is the transform with both analysis filters multiplied by the factor, and
`level=None` is the maximal level. -/
theorem C14_swt_norm_and_default {w : Wavelet R} (m : ℤ) (trim : Bool) (sf : R)
    (level : Option ℤ) (x : List M) (hx : x ≠ []) :
    swt w level m trim (some sf) x =
      swt { w with dec_lo := w.dec_lo.map (· * sf), dec_hi := w.dec_hi.map (· * sf) }
        level m trim none x ∧
    swt w none m trim none x = swt w (some (multiplicity 2 x.length : ℤ)) m trim none x := by
  have hdec : ∀ (w1 w2 : Wavelet R), w1.dec_lo = w2.dec_lo → w1.dec_hi = w2.dec_hi →
      ∀ (n i : ℕ) (d : List M) (ret : List (List M × List M)),
        swtLoop w1 n i d ret = swtLoop w2 n i d ret := by
    intro w1 w2 h1 h2 n
    induction n with
    | zero => intros; rfl
    | succ n ih =>
      intro i d ret
      simp only [swtLoop, swt_a, swt_d, h1, h2, ih]
  have hN := List.length_pos_iff.mpr hx
  constructor
  · unfold swt swtC
    simp only [Wavelet.normed]
    rw [funext fun n => funext fun i => funext fun d => funext fun ret =>
      hdec (w.rescale sf) { w with dec_lo := w.dec_lo.map (· * sf), dec_hi := w.dec_hi.map (· * sf) }
        rfl rfl n i d ret]
  · have he : swtMaxLevelC x.length = multiplicity 2 x.length := by
      have hfin : FiniteMultiplicity 2 x.length := Nat.finiteMultiplicity_iff.mpr ⟨by omega, hN⟩
      apply le_antisymm
      · exact hfin.le_multiplicity_of_pow_dvd ((le_swtMaxLevelC hN).mp le_rfl)
      · exact (le_swtMaxLevelC hN).mpr (pow_multiplicity_dvd _ _)
    rcases lt_or_ge m 0 with hm | hm
    · have : swtMaxLevel x.length = .ok (swtMaxLevelC x.length) := by
        unfold swtMaxLevel
        rw [if_neg (by omega)]
      rw [C14_swt_negative w _ m trim none x (.inr hm)]
      unfold swt
      simp only [this, Py_bind_ok, if_pos hm]
      rfl
    · obtain ⟨m, rfl⟩ := Int.eq_ofNat_of_zero_le hm
      rw [← he]
      exact swt_none_eq m trim none hN

example : [(1 : ℚ), 2] ≠ [] := by decide

/-- **C03 (SWT).** Whatever `swt` is called with, it returns or raises `ValueError` or
`OverflowError`; the C code never misbehaves. -/
theorem C03_swt_never_misbehaves {w : Wavelet R} (hw : w.Ok) (level : Option ℤ) (m : ℤ) (trim : Bool)
    (norm : Option R) (x : List M) :
    (∃ r, swt w level m trim norm x = .ok r) ∨ swt w level m trim norm x = .error .value ∨
      swt w level m trim norm x = .error .overflow := by
  have key : ∀ l : ℤ, (∃ r, swt w (some l) m trim norm x = .ok r) ∨
      swt w (some l) m trim norm x = .error .value ∨
      swt w (some l) m trim norm x = .error .overflow := by
    intro l
    by_cases hneg : l < 0 ∨ m < 0
    · exact .inr (.inr (C14_swt_negative w l m trim norm x hneg))
    · obtain ⟨l, rfl⟩ := Int.eq_ofNat_of_zero_le (show 0 ≤ l by omega)
      obtain ⟨m, rfl⟩ := Int.eq_ofNat_of_zero_le (show 0 ≤ m by omega)
      have := (C14_swt_accepts hw l m trim norm x).2
      by_cases h : ∃ r, swt w (some (l : ℤ)) (m : ℤ) trim norm x = .ok r
      · exact .inl h
      · exact .inr (.inl (this h))
  cases level with
  | some l => exact key l
  | none =>
    rcases Nat.eq_zero_or_pos x.length with h0 | h0
    · right; left
      have : swtMaxLevel x.length = .error .value := by
        unfold swtMaxLevel
        rw [if_pos (by omega)]
      unfold swt
      rw [this]
      rfl
    · have : swtMaxLevel x.length = .ok (swtMaxLevelC x.length) := by
        unfold swtMaxLevel
        rw [if_neg (by omega)]
      have := key (swtMaxLevelC x.length)
      rcases lt_or_ge m 0 with hm | hm
      · right; right
        unfold swt
        simp only [‹swtMaxLevel x.length = _›, Py_bind_ok, if_pos hm]
        rfl
      · obtain ⟨m, rfl⟩ := Int.eq_ofNat_of_zero_le hm
        rw [swt_none_eq m trim norm h0]
        exact this

example : legallQ.Ok := legallQ_ok

/-- **C16.** Circularly shifting the input of `swt` shifts every output array by the same amount,
whatever the level, start level, normalization and output convention. -/
theorem C16_swt_shift_equivariant {w : Wavelet R} (hw : w.Ok) {l m : ℕ} {trim : Bool}
    {norm : Option R} (c : ℤ) {x : List M} {r : SwtCoeffs (List M)}
    (h : swt w (some (l : ℤ)) (m : ℤ) trim norm x = .ok r) :
    swt w (some (l : ℤ)) (m : ℤ) trim norm (shift c x) = .ok (match r with
      | .pairs ps => .pairs (ps.map fun p => (shift c p.1, shift c p.2))
      | .trimmed as => .trimmed (as.map (shift c))) := by
  rw [swt_eq hw] at h ⊢
  rw [shift_length]
  split at h
  swap
  · simp at h
  rename_i hc
  rw [if_pos hc]
  simp only [Except.ok.injEq] at h ⊢
  subst h
  unfold swtResult
  simp only [swtApprox_shift, swtDetail_shift]
  cases trim <;> simp [Function.comp_def]

example : swt haarQ (some 1) 0 false none [(1 : ℚ), 2, 3, 6] =
    .ok (.pairs [([3 / 2, 5 / 2, 9 / 2, 7 / 2], [-1 / 2, -1 / 2, -3 / 2, 5 / 2])]) ∧
    shift 1 [(1 : ℚ), 2, 3, 6] = [6, 1, 2, 3] := by decide +kernel

/-- **C15.** What `iswt` computes for arbitrary coefficients `[cA, cD_n, …, cD_1]` of one length:
starting with `cA`, each level adds the circularly filtered current approximation and detail and
halves the sum; at the level with `k` levels done the taps are `2^(n-1-k)` samples apart. -/
theorem C15_iswt_values [Invertible (2 : R)] {w : Wavelet R} (hw : w.Ok) {a : List M}
    {ds : List (List M)} (ha : a ≠ []) (hl : ∀ d ∈ ds, d.length = a.length)
    (hd : 2 ^ ds.length ∣ a.length) :
    ∃ O : ℕ → List M, O 0 = a ∧ iswt w none (.trimmed (a :: ds)) = .ok (O ds.length) ∧
      ∀ k < ds.length, (O (k + 1)).length = a.length ∧ ∀ n < a.length,
        (O (k + 1)).getD n 0 = (⅟2 : R) • (∑ l ∈ range w.rec_len,
          (w.rec_lo.getD l 0 • (O k).getD (((n : ℤ) + 2 ^ (ds.length - 1 - k) *
            ((w.rec_len / 2 : ℕ) - 1 - l)) % a.length).toNat 0 +
          w.rec_hi.getD l 0 • (ds.getD k []).getD (((n : ℤ) + 2 ^ (ds.length - 1 - k) *
            ((w.rec_len / 2 : ℕ) - 1 - l)) % a.length).toNat 0)) := by
  have ha1 := List.length_pos_iff.mpr ha
  have hhl : w.rec_hi.length = w.rec_lo.length := by
    have h4 : w.rec_lo.length = w.dec_lo.length := hw.2.2.2.1
    have h5 : w.rec_hi.length = w.dec_lo.length := hw.2.2.2.2
    omega
  have key : ∀ ds : List (List M), ∀ a : List M, (∀ d ∈ ds, d.length = a.length) →
      ∃ O : ℕ → List M, O 0 = a ∧ iswtCascade w.rec_lo w.rec_hi ds a = O ds.length ∧
        ∀ k < ds.length, (O (k + 1)).length = a.length ∧ (O k).length = a.length ∧
          O (k + 1) = iswtStep w.rec_lo w.rec_hi (2 ^ (ds.length - 1 - k)) (O k) (ds.getD k []) := by
    intro ds
    induction ds with
    | nil => intro a _; exact ⟨fun _ => a, rfl, rfl, fun k hk => absurd hk (by simp)⟩
    | cons d ds ih =>
      intro a hl
      have hdl := hl d (by simp)
      have hsl := iswtStep_length w.rec_lo w.rec_hi (2 ^ ds.length) hdl
      obtain ⟨O, o1, o2, o3⟩ := ih (iswtStep w.rec_lo w.rec_hi (2 ^ ds.length) a d)
        fun e he => by rw [hsl]; exact hl e (by simp [he])
      refine ⟨fun k => match k with | 0 => a | k + 1 => O k, rfl, ?_, ?_⟩
      · simpa [iswtCascade] using o2
      · intro k hk
        cases k with
        | zero => simp [o1, hsl]
        | succ k =>
          obtain ⟨h1, h2, h3⟩ := o3 k (by simpa using hk)
          rw [hsl] at h1 h2
          refine ⟨h1, h2, ?_⟩
          simp only [h3, List.length_cons, List.getD_cons_succ]
          congr 2
          omega
  obtain ⟨O, o1, o2, o3⟩ := key ds a hl
  refine ⟨O, o1, ?_, fun k hk => ?_⟩
  · rw [← o2]
    exact iswtLoop_gen hw ds a ha1 hd hl
  · obtain ⟨h1, h2, h3⟩ := o3 k hk
    refine ⟨h1, fun n hn => ?_⟩
    have hkl : (ds.getD k []).length = (O k).length := by
      rw [List.getD_eq_getElem (hn := hk), h2]
      exact hl _ (List.getElem_mem hk)
    rw [h3, iswtStep_getD hkl (by omega), hkl, h2, hhl, ← sum_add_distrib]
    simp only [at', Wavelet.rec_len, Nat.cast_pow, Nat.cast_ofNat]

example : iswt haarQ none (.trimmed [[(1 : ℚ), 0, 0, 5], [0, 2, 0, 0], [1, 0, 0, 0]]) =
    .ok [3/2, 3/2, 2, 1] := by decide +kernel

/-- **C15.** With the other output convention `iswt` uses the approximation of the coarsest level and
all details. -/
theorem C15_iswt_pairs [Invertible (2 : R)] (w : Wavelet R) (norm : Option R) (a d : List M)
    (ps : List (List M × List M)) :
    iswt w norm (.pairs ((a, d) :: ps)) = iswt w norm (.trimmed (a :: d :: ps.map (·.2))) := rfl

/-- **C15.** `iswt` inverts `swt` (with `start_level=0`) for every level, in both output
conventions. -/
theorem C15_iswt_swt [Invertible (2 : R)] {w : Wavelet R} (hw : w.Ok)
    (hpr : PR w.dec_lo w.dec_hi w.rec_lo w.rec_hi) {level : Option ℤ} {trim : Bool} {x : List M}
    {r : SwtCoeffs (List M)} (h : swt w level 0 trim none x = .ok r) :
    iswt w none r = .ok x := by
  have hx : x ≠ [] := by
    rintro rfl
    cases level with
    | none => exact absurd h (by simp [swt, swtMaxLevel])
    | some l =>
      rcases lt_or_ge l 0 with hl | hl
      · rw [C14_swt_negative w l 0 trim none _ (.inl hl)] at h
        simp at h
      · obtain ⟨l, rfl⟩ := Int.eq_ofNat_of_zero_le hl
        have := swt_eq hw l 0 trim none ([] : List M)
        simp only [Nat.cast_zero] at h this
        rw [this] at h
        simp at h
  have hN := List.length_pos_iff.mpr hx
  have key : ∀ l : ℕ, swt w (some (l : ℤ)) ((0 : ℕ) : ℤ) trim none x = .ok r →
      iswt w none r = .ok x := by
    intro l h
    rw [swt_eq hw] at h
    split at h
    swap
    · simp at h
    rename_i hc
    simp only [Except.ok.injEq, Wavelet.normed] at h
    have h4 : w.rec_lo.length = w.dec_lo.length := hw.2.2.2.1
    have hloop := iswtLoop_eq hw hpr (x := x) h4.symm (by rw [Wavelet.rec_len, h4]; exact hw.2.2.1)
      hN l (by simpa using hc.2.2)
    rw [← h]
    cases trim with
    | true => exact hloop
    | false =>
      obtain ⟨k, rfl⟩ : ∃ k, l = k + 1 := ⟨l - 1, by omega⟩
      unfold iswt swtResult
      rw [List.range_succ] at hloop ⊢
      simp only [Bool.false_eq_true, if_false, List.map_append, List.map_cons, List.map_nil,
        List.reverse_append, List.reverse_cons, List.reverse_nil, List.nil_append,
        List.cons_append] at hloop ⊢
      rw [← hloop]
      congr 1
      rw [← List.map_reverse, ← List.map_reverse, List.map_map]
      rfl
  cases level with
  | none =>
    rw [show (0 : ℤ) = ((0 : ℕ) : ℤ) from rfl, swt_none_eq 0 trim none hN] at h
    exact key _ h
  | some l =>
    rcases lt_or_ge l 0 with hl | hl
    · rw [C14_swt_negative w l 0 trim none _ (.inl hl)] at h
      simp at h
    · obtain ⟨l, rfl⟩ := Int.eq_ofNat_of_zero_le hl
      exact key l h

example : legallQ.Ok ∧ PR legallQ.dec_lo legallQ.dec_hi legallQ.rec_lo legallQ.rec_hi ∧
    swt haarQ none 0 true none [(1 : ℚ), 2, 3, 6] =
    .ok (.trimmed [[3, 3, 3, 3], [-3 / 2, -1 / 2, 3 / 2, 1 / 2], [-1 / 2, -1 / 2, -3 / 2, 5 / 2]])
    := ⟨legallQ_ok, legallQ_PR, by decide +kernel⟩

end Ring

section CommRing

variable {R M : Type} [CommRing R] [AddCommGroup M] [Module R M]

/-- **C15 (norm).** With `norm=True` on both sides: `swt` multiplies the filters by `s`, `iswt` by
`s'`, and `s·s' = 1`. -/
theorem C15_iswt_swt_norm [Invertible (2 : R)] {w : Wavelet R} (hw : w.Ok)
    (hpr : PR w.dec_lo w.dec_hi w.rec_lo w.rec_hi) {s s' : R} (hs : s * s' = 1)
    {level : Option ℤ} {trim : Bool} {x : List M} {r : SwtCoeffs (List M)}
    (h : swt w level 0 trim (some s) x = .ok r) : iswt w (some s') r = .ok x := by
  let w' : Wavelet R :=
    { dec_lo := w.dec_lo.map (· * s), dec_hi := w.dec_hi.map (· * s),
      rec_lo := w.rec_lo.map (· * s'), rec_hi := w.rec_hi.map (· * s') }
  have hw' : w'.Ok := by simpa [Wavelet.Ok, w'] using hw
  by_cases hx : x = []
  · subst hx
    exfalso
    have hno : ∀ lv, ¬ ∃ r, swt w lv 0 trim (some s) ([] : List M) = .ok r := by
      intro lv
      cases lv with
      | none => rintro ⟨r, hr⟩; simp [swt, swtMaxLevel] at hr
      | some l =>
        rcases lt_or_ge l 0 with hl | hl
        · rw [C14_swt_negative w l 0 trim (some s) _ (.inl hl)]; simp
        · obtain ⟨l, rfl⟩ := Int.eq_ofNat_of_zero_le hl
          have := (C14_swt_accepts hw l 0 trim (some s) ([] : List M)).1
          simp only [Nat.cast_zero] at this ⊢
          rw [this]
          simp
    exact hno level ⟨_, h⟩
  have h1 := (C14_swt_norm_and_default (w := w) 0 trim s level x hx).1
  rw [h1] at h
  have hsame : ∀ (w1 w2 : Wavelet R), w1.dec_lo = w2.dec_lo → w1.dec_hi = w2.dec_hi →
      swt w1 level 0 trim none x = swt w2 level 0 trim none x := by
    intro w1 w2 e1 e2
    have hl : ∀ (n i : ℕ) (d : List M) (ret : List (List M × List M)),
        swtLoop w1 n i d ret = swtLoop w2 n i d ret := by
      intro n
      induction n with
      | zero => intros; rfl
      | succ n ih =>
        intro i d ret
        simp only [swtLoop, swt_a, swt_d, e1, e2, ih]
    unfold swt swtC
    simp only [Wavelet.normed, hl]
  have h : swt w' level 0 trim none x = .ok r := by
    rw [← h]
    exact hsame _ _ rfl rfl
  have h2 := C15_iswt_swt hw' (PR_scale hpr hs) h
  have hidwt : ∀ (w1 w2 : Wavelet R), w1.rec_lo = w2.rec_lo → w1.rec_hi = w2.rec_hi →
      ∀ r : SwtCoeffs (List M), iswt w1 none r = iswt w2 none r := by
    intro w1 w2 e1 e2 r
    have hi : ∀ a d : List M, idwtSingle w1 .periodization a d = idwtSingle w2 .periodization a d := by
      intro a d
      unfold idwtSingle idwtC Wavelet.rec_len
      rw [e1, e2]
    have hl : ∀ (ds : List (List M)) (o : List M), iswtLoop w1 ds o = iswtLoop w2 ds o := by
      intro ds
      induction ds with
      | nil => intro o; rfl
      | cons d ds ih =>
        intro o
        simp only [iswtLoop, ih]
        congr 2
        funext cD first
        simp only [iswtPhase, hi]
    unfold iswt
    simp only [Wavelet.normed]
    rcases r with ((_ | ⟨⟨a, d⟩, t⟩) | (_ | ⟨a, t⟩)) <;> simp only [hl]
  rw [hidwt w' (w.rescale s') rfl rfl] at h2
  exact h2

noncomputable instance : Invertible (2 : ℝ) := invertibleOfNonzero two_ne_zero

/-- **C15 (norm).** The actual factors: `1/√2` and `√2`, over the reals (and, since samples live in
any real vector space, over the complex numbers). -/
theorem C15_iswt_swt_sqrt2 {M : Type} [AddCommGroup M] [Module ℝ M] {w : Wavelet ℝ} (hw : w.Ok)
    (hpr : PR w.dec_lo w.dec_hi w.rec_lo w.rec_hi) {level : Option ℤ} {trim : Bool} {x : List M}
    {r : SwtCoeffs (List M)} (h : swt w level 0 trim (some (1 / Real.sqrt 2)) x = .ok r) :
    iswt w (some (Real.sqrt 2)) r = .ok x :=
  C15_iswt_swt_norm hw hpr (by
    rw [one_div, inv_mul_cancel₀]
    exact (Real.sqrt_pos.mpr two_pos).ne') h

/-- **C15 (limit of the claim).** `iswt` has no `start_level` parameter and always assumes 0: with
`start_level=1` the round trip does not return the signal. -/
theorem C15_start_level_not_inverted :
    ∃ r, swt haarQ (some 1) 1 true none [(1 : ℚ), 2, 3, 6] = .ok r ∧
      iswt haarQ none r ≠ .ok [(1 : ℚ), 2, 3, 6] := by
  refine ⟨.trimmed [[2, 4, 2, 4], [-1, -2, 1, 2]], ?_, ?_⟩ <;> decide +kernel

/-- Energy of a sequence. -/
def energy (x : List R) : R := (x.map fun v => v * v).sum

/-- Energy of a complex sequence. -/
noncomputable def energyC (x : List ℂ) : ℝ := (x.map Complex.normSq).sum

/-- **C17 (DWT).** For a bank whose synthesis filters are the time-reversed analysis filters
(orthogonal), `dwt` in periodization mode preserves the energy of every signal of even length. -/
theorem C17_dwt_energy {w : Wavelet R} (hw : w.Ok)
    (horth : w.rec_lo = w.dec_lo.reverse ∧ w.rec_hi = w.dec_hi.reverse)
    (hpr : PR w.dec_lo w.dec_hi w.rec_lo w.rec_hi) {x cA cD : List R} (hev : x.length % 2 = 0)
    (h : dwt w .periodization x = .ok (cA, cD)) : energy cA + energy cD = energy x := by
  obtain ⟨h1, h2, h3, h4, h5⟩ := hw
  have hw : w.Ok := ⟨h1, h2, h3, h4, h5⟩
  have hx : SignalOk .periodization x := by
    by_contra hx
    rw [dwt_err hw hx] at h
    simp at h
  rw [dwt_ok hw hx] at h
  simp only [Except.ok.injEq, Prod.mk.injEq] at h
  obtain ⟨rfl, rfl⟩ := h
  obtain ⟨L, hL⟩ : ∃ L, x.length = 2 * L := ⟨x.length / 2, by omega⟩
  have hx1 := hx.1
  have hev' : evenPad x = x := by unfold evenPad; rw [if_neg (by omega)]
  have hext : Spec.ext .periodization x = Spec.ext .periodic x := by
    funext k
    simp only [Spec.ext, hev']
  have key : ∀ f : List R, f.length = w.dec_lo.length → energy (analysis .periodization f x) =
      ∑ n ∈ range (2 * L), x.getD n 0 * conv f.reverse
        (upsample (Spec.ext .periodic (analysis .periodization f x)))
        ((n : ℤ) + ((f.length / 2 : ℕ) - 1)) := by
    intro f hf
    have hlen : (analysis .periodization f x).length = L := by
      rw [analysis_length]; simp [coeffLen]; omega
    rw [← analysis_adjoint (by omega) hL hlen, energy, list_sum_sq, hlen]
    apply sum_congr rfl
    intro o ho
    rw [mem_range] at ho
    congr 1
    rw [List.getD_eq_getElem (hn := by omega)]
    simp only [analysis, List.getElem_map, List.getElem_range, hext]
  rw [key _ rfl, key _ h3, ← sum_add_distrib, energy, list_sum_sq, hL]
  have hsyn := synthesis_analysis (mode := .periodization) hpr h3 h4 h5 h1 h2 hx.1
  have hlen : (analysis .periodization w.dec_lo x).length = L := by
    rw [analysis_length]; simp [coeffLen]; omega
  apply sum_congr rfl
  intro n hn
  rw [mem_range] at hn
  rw [← mul_add]
  congr 1
  have := congrArg (fun l => l.getD n 0) hsyn
  rw [List.getD_eq_getElem (hn := by rw [synthesis_length]; simp [synthLen]; omega),
    List.getD_eq_getElem (hn := by simp; omega)] at this
  simp only [synthesis, List.getElem_map, List.getElem_range, ext_in x .periodization
    (show n < x.length by omega)] at this
  rw [horth.1, horth.2, List.length_reverse] at this
  rw [h3]
  exact this

/-- **C17 (SWT).** With the analysis filters multiplied by `s`, `2s² = 1` (`norm=True`), the arrays
`swt` returns with `trim_approx=True` together have the energy of the input. -/
theorem C17_swt_energy {w : Wavelet R} (hw : w.Ok)
    (hpr : PR w.dec_lo w.dec_hi w.dec_lo.reverse w.dec_hi.reverse) {s : R} (hs : 2 * (s * s) = 1)
    {l m : ℕ} {x : List R} {arrs : List (List R)}
    (h : swt w (some (l : ℤ)) (m : ℤ) true (some s) x = .ok (.trimmed arrs)) :
    (arrs.map energy).sum = energy x := by
  rw [swt_eq hw] at h
  split at h
  swap
  · simp at h
  simp only [Except.ok.injEq, swtResult, if_true, SwtCoeffs.trimmed.injEq, Wavelet.normed] at h
  have := swt_energy hpr hw.2.2.1 (by have := hw.1; omega) hs m x l
  rw [← h]
  simp only [List.map_cons, List.sum_cons, List.map_reverse, List.sum_reverse, List.map_map,
    energy, Function.comp_def, Wavelet.rescale]
  exact this

/-- An orthogonal bank with rational taps (a rotation by the angle with cosine 3/5, length 2). -/
def rotQ : Wavelet ℚ where
  dec_lo := [3/5, 4/5]
  dec_hi := [-4/5, 3/5]
  rec_lo := [4/5, 3/5]
  rec_hi := [3/5, -4/5]

theorem rotQ_PR : PR rotQ.dec_lo rotQ.dec_hi rotQ.rec_lo rotQ.rec_hi :=
  PR_of_bounded rfl rfl rfl (by decide) (by decide +kernel)

example : rotQ.Ok ∧ (rotQ.rec_lo = rotQ.dec_lo.reverse ∧ rotQ.rec_hi = rotQ.dec_hi.reverse) ∧
    PR rotQ.dec_lo rotQ.dec_hi rotQ.rec_lo rotQ.rec_hi ∧
    dwt rotQ .periodization [(5 : ℚ), 10] = .ok ([10], [-5]) :=
  ⟨by decide, by decide +kernel, rotQ_PR, by decide +kernel⟩

/-- The Haar bank with real taps. -/
noncomputable def haarR : Wavelet ℝ where
  dec_lo := [1 / Real.sqrt 2, 1 / Real.sqrt 2]
  dec_hi := [-(1 / Real.sqrt 2), 1 / Real.sqrt 2]
  rec_lo := [1 / Real.sqrt 2, 1 / Real.sqrt 2]
  rec_hi := [1 / Real.sqrt 2, -(1 / Real.sqrt 2)]

theorem inv_sqrt2_sq : 2 * ((1 / Real.sqrt 2) * (1 / Real.sqrt 2)) = 1 := by
  have : Real.sqrt 2 * Real.sqrt 2 = 2 := Real.mul_self_sqrt (by norm_num)
  rw [one_div, ← mul_inv, this]
  norm_num

theorem haarR_ok : haarR.Ok := by simp [Wavelet.Ok, haarR]

theorem haarR_PR : PR haarR.dec_lo haarR.dec_hi haarR.rec_lo haarR.rec_hi := by
  have h := inv_sqrt2_sq
  refine PR_of_bounded (a := haarR.dec_lo) (b := haarR.dec_hi) (c := haarR.rec_lo)
    (d := haarR.rec_hi) rfl rfl rfl (by simp [haarR]) ?_
  intro p hp s hs
  have hs : s < 4 := hs
  interval_cases p <;> interval_cases s <;>
    simp [parityCoeff, haarR, sum_range_succ] at h ⊢ <;> linarith

example : haarR.Ok ∧ PR haarR.dec_lo haarR.dec_hi haarR.dec_lo.reverse haarR.dec_hi.reverse ∧
    2 * ((1 / Real.sqrt 2) * (1 / Real.sqrt 2)) = 1 ∧
    ∃ r, swt haarR (some ((2 : ℕ) : ℤ)) ((0 : ℕ) : ℤ) true (some (1 / Real.sqrt 2))
      [(1 : ℝ), 2, 3, 4] = .ok r :=
  ⟨haarR_ok, by simpa [haarR] using haarR_PR, inv_sqrt2_sq,
    (C14_swt_accepts haarR_ok 2 0 true _ _).1.mpr (by decide)⟩

theorem energyC_eq (x : List ℂ) :
    energyC x = energy (x.map Complex.reLm) + energy (x.map Complex.imLm) := by
  unfold energyC energy
  induction x with
  | nil => simp
  | cons a x ih =>
    simp only [List.map_cons, List.sum_cons, ih, Complex.normSq_apply, Complex.reLm_coe,
      Complex.imLm_coe]
    ring

/-- **C17 (complex data).** The same for complex signals. -/
theorem C17_dwt_energy_complex {w : Wavelet ℝ} (hw : w.Ok)
    (horth : w.rec_lo = w.dec_lo.reverse ∧ w.rec_hi = w.dec_hi.reverse)
    (hpr : PR w.dec_lo w.dec_hi w.rec_lo w.rec_hi) {x cA cD : List ℂ} (hev : x.length % 2 = 0)
    (h : dwt w .periodization x = .ok (cA, cD)) : energyC cA + energyC cD = energyC x := by
  have hx : SignalOk .periodization x := by
    by_contra hx
    rw [dwt_err hw hx] at h
    simp at h
  rw [dwt_ok hw hx] at h
  simp only [Except.ok.injEq, Prod.mk.injEq] at h
  obtain ⟨rfl, rfl⟩ := h
  simp only [energyC_eq, ← analysis_map]
  have hre := C17_dwt_energy hw horth hpr (x := x.map Complex.reLm) (by simpa using hev)
    (dwt_ok hw ((signalOk_map _ _ _).mpr hx))
  have him := C17_dwt_energy hw horth hpr (x := x.map Complex.imLm) (by simpa using hev)
    (dwt_ok hw ((signalOk_map _ _ _).mpr hx))
  rw [← hre, ← him]
  ring

example : haarR.Ok ∧ (haarR.rec_lo = haarR.dec_lo.reverse ∧ haarR.rec_hi = haarR.dec_hi.reverse) ∧
    PR haarR.dec_lo haarR.dec_hi haarR.rec_lo haarR.rec_hi ∧
    ∃ r, dwt haarR .periodization [Complex.I, 2] = .ok r :=
  ⟨haarR_ok, by simp [haarR], haarR_PR, ⟨_, dwt_ok haarR_ok (by decide)⟩⟩

end CommRing

end Pywt
