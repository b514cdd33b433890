import Verif.Proof.Lin
import Verif.Spec.Multi
import Verif.Model.Multilevel
import Mathlib.Data.List.Basic

/-! The multilevel 1-D transforms, `downcoef` and `upcoef`. -/

namespace Pywt

open Finset Spec

set_option linter.unusedSectionVars false

variable {R M : Type} [Ring R] [AddCommGroup M] [Module R M]

theorem approx_length (mode : Mode) (lo : List R) (n : ℕ) (x : List M) :
    (approx mode lo n x).length = approxLen mode lo.length x.length n := by
  induction n with
  | zero => rfl
  | succ n ih =>
    unfold approx approxLen at ih ⊢
    rw [Function.iterate_succ_apply', Function.iterate_succ_apply', analysis_length, ih]

theorem approx_succ (mode : Mode) (lo : List R) (n : ℕ) (x : List M) :
    approx mode lo (n + 1) x = analysis mode lo (approx mode lo n x) := by
  unfold approx
  rw [Function.iterate_succ_apply']

theorem approx_succ' (mode : Mode) (lo : List R) (n : ℕ) (x : List M) :
    approx mode lo (n + 1) x = approx mode lo n (analysis mode lo x) := rfl

theorem detail_succ' (mode : Mode) (lo hi : List R) (n : ℕ) (x : List M) :
    detail mode lo hi (n + 1) x = detail mode lo hi n (analysis mode lo x) := rfl

theorem detail_length (mode : Mode) (lo hi : List R) (h : hi.length = lo.length) (n : ℕ)
    (x : List M) :
    (detail mode lo hi n x).length = (approx mode lo (n + 1) x).length := by
  unfold detail
  rw [analysis_length, approx_succ, analysis_length, h]

theorem approxLen_succ' (mode : Mode) (F N n : ℕ) :
    approxLen mode F N (n + 1) = approxLen mode F (coeffLen mode N F) n := rfl

theorem levelsOk_succ {mode : Mode} {F N n : ℕ} :
    LevelsOk mode F N (n + 1) ↔ LenOk mode N ∧ LevelsOk mode F (coeffLen mode N F) n := by
  unfold LevelsOk
  constructor
  · intro h
    exact ⟨h 0 (by omega), fun j hj => h (j + 1) (by omega)⟩
  · rintro ⟨h0, h⟩ j hj
    cases j with
    | zero => exact h0
    | succ j => exact h j (by omega)

theorem wavedecLoop_ok {w : Wavelet R} (hw : w.Ok) {mode : Mode} (n : ℕ) :
    ∀ (x : List M) (acc : List (List M)), LevelsOk mode w.dec_len x.length n →
      wavedecLoop w mode n x acc =
        .ok (cascade mode w.dec_lo w.dec_hi n x ++ acc.reverse) := by
  induction n with
  | zero => intro x acc _; simp [wavedecLoop, cascade, approx]
  | succ n ih =>
    intro x acc h
    obtain ⟨h0, h1⟩ := levelsOk_succ.mp h
    have hl : (analysis mode w.dec_lo x).length = coeffLen mode x.length w.dec_len :=
      analysis_length _ _ _
    simp only [wavedecLoop]
    rw [dwt_ok hw h0]
    simp only [Py_bind_ok]
    rw [ih _ _ (by rw [hl]; exact h1)]
    simp only [cascade, List.range_succ_eq_map, List.map_cons, List.map_map, List.reverse_cons,
      List.reverse_append, List.append_assoc, List.cons_append, List.nil_append, List.reverse_nil]
    rfl

theorem wavedecLoop_err {w : Wavelet R} (hw : w.Ok) {mode : Mode} (n : ℕ) :
    ∀ (x : List M) (acc : List (List M)), ¬ LevelsOk mode w.dec_len x.length n →
      wavedecLoop w mode n x acc = .error .value := by
  induction n with
  | zero => intro x acc h; exact absurd (fun j hj => absurd hj (by omega)) h
  | succ n ih =>
    intro x acc h
    have hl : (analysis mode w.dec_lo x).length = coeffLen mode x.length w.dec_len :=
      analysis_length _ _ _
    simp only [wavedecLoop]
    by_cases h0 : SignalOk mode x
    · rw [dwt_ok hw h0]
      simp only [Py_bind_ok]
      apply ih
      rw [hl]
      intro h1
      exact h (levelsOk_succ.mpr ⟨h0, h1⟩)
    · rw [dwt_err hw h0]
      rfl

theorem sizeLog2_le {x L : ℕ} (hx : 1 ≤ x) : L ≤ sizeLog2 x ↔ 2 ^ L ≤ x := by
  induction x using Nat.strong_induction_on generalizing L with
  | _ x ih =>
    unfold sizeLog2
    split
    · have : x = 1 := by omega
      subst this
      cases L with
      | zero => simp
      | succ L =>
        have : 1 ≤ 2 ^ L := Nat.one_le_two_pow
        rw [pow_succ]
        omega
    · cases L with
      | zero => simp; omega
      | succ L =>
        rw [Nat.add_le_add_iff_right, ih _ (by omega) (by omega), pow_succ]
        omega

theorem dwtMaxLevelC_le {n F L : ℕ} (hF : 2 ≤ F) :
    L ≤ dwtMaxLevelC n F ↔ L = 0 ∨ (F - 1) * 2 ^ L ≤ n := by
  unfold dwtMaxLevelC
  split
  · rename_i h
    have : 1 ≤ 2 ^ L := Nat.one_le_two_pow
    have : (F - 1) * 1 ≤ (F - 1) * 2 ^ L := Nat.mul_le_mul_left _ this
    omega
  · rw [sizeLog2_le (Nat.div_pos (by omega) (by omega)), Nat.le_div_iff_mul_le (by omega), mul_comm]
    constructor
    · intro h; exact .inr h
    · rintro (rfl | h)
      · rw [pow_zero, mul_one]; omega
      · exact h

theorem checkLevel_one {N F : ℕ} (hF : 2 ≤ F) (level : Option Int) :
    checkLevel [N] [F] level =
      match level with
      | none => .ok (dwtMaxLevelC N F)
      | some l => if l < 0 then .error .value else .ok l.toNat := by
  have : dwtMaxLevel N F = .ok (dwtMaxLevelC N F) := by
    unfold dwtMaxLevel; rw [if_neg (by omega)]
  simp [checkLevel, this]
  cases level <;> rfl

/-! ### Reconstruction -/

theorem waverecLoop_cascade {w : Wavelet R} (hw : w.Ok)
    (hpr : PR w.dec_lo w.dec_hi w.rec_lo w.rec_hi) {mode : Mode} {x : List M} (n : ℕ) :
    ∀ r : List M, LevelsOk mode w.dec_len x.length n →
      (r = approx mode w.dec_lo n x ∨ ∃ e, r = approx mode w.dec_lo n x ++ [e]) →
      ∃ r', waverecLoop w mode (some r)
          ((((List.range n).map fun j => detail mode w.dec_lo w.dec_hi j x).reverse).map some) =
          .ok (some r') ∧ (r' = x ∨ (n = 0 → r ≠ x) ∧ (1 ≤ n → x.length % 2 = 1) ∧
            ∃ e, r' = x ++ [e]) := by
  obtain ⟨h1, h2, h3, h4, h5⟩ := hw
  have hw : w.Ok := ⟨h1, h2, h3, h4, h5⟩
  induction n with
  | zero =>
    intro r _ hr
    refine ⟨r, by simp [waverecLoop], ?_⟩
    rcases hr with rfl | ⟨e, rfl⟩
    · exact .inl rfl
    · right
      refine ⟨fun _ => ?_, by omega, e, rfl⟩
      intro h
      have := congrArg List.length h
      simp [approx] at this
  | succ n ih =>
    intro r h hr
    have hx : SignalOk mode (approx mode w.dec_lo n x) := by
      unfold SignalOk; rw [approx_length]; exact h n (by omega)
    have hl : (approx mode w.dec_lo (n + 1) x).length =
        (detail mode w.dec_lo w.dec_hi n x).length := (detail_length _ _ _ h3 _ _).symm
    have htrim : waverecTrim (some r) (some (detail mode w.dec_lo w.dec_hi n x)) =
        .ok (some (approx mode w.dec_lo (n + 1) x)) := by
      unfold waverecTrim
      rcases hr with rfl | ⟨e, rfl⟩
      · simp [hl]
      · simp [hl]
    have hsyn := synthesis_analysis hpr h3 h4 h5 h1 h2 (mode := mode)
      (x := approx mode w.dec_lo n x) hx.1
    simp only [List.range_succ, List.map_append, List.map_cons, List.map_nil, List.reverse_append,
      List.reverse_cons, List.reverse_nil, List.nil_append, List.cons_append, waverecLoop, htrim,
      Py_bind_ok]
    have hlen := synthLen_coeffLen (mode := mode) (N := (approx mode w.dec_lo n x).length) h2 h1
    have hidwt := idwt_ok hw (mode := mode) hl (by
      rw [approx_succ, analysis_length, Wavelet.rec_len, h4, hlen]; have := hx.1; omega)
    rw [hidwt]
    simp only [Py_bind_ok]
    rw [approx_succ]
    unfold detail
    rw [hsyn]
    obtain ⟨r', hr', hor⟩ := ih ((List.range ((approx mode w.dec_lo n x).length +
        (approx mode w.dec_lo n x).length % 2)).map fun k : ℕ =>
        Spec.ext mode (approx mode w.dec_lo n x) k) (fun j hj => h j (by omega)) (by
      have hpre : (List.range ((approx mode w.dec_lo n x).length)).map
          (fun k : ℕ => Spec.ext mode (approx mode w.dec_lo n x) k) = approx mode w.dec_lo n x := by
        apply List.ext_getElem (by simp)
        intro k hk1 hk2
        simp only [List.getElem_map, List.getElem_range]
        rw [ext_in _ mode hk2, List.getD_eq_getElem _ _ hk2]
      rcases Nat.mod_two_eq_zero_or_one (approx mode w.dec_lo n x).length with h0 | h0
      · left; rw [h0, add_zero, hpre]
      · right
        rw [h0, List.range_succ, List.map_append, hpre]
        exact ⟨_, rfl⟩)
    refine ⟨r', hr', ?_⟩
    rcases hor with h | ⟨h6, h7, h8⟩
    · exact .inl h
    · refine .inr ⟨by omega, fun _ => ?_, h8⟩
      by_cases hn : n = 0
      · by_contra hodd
        apply h6 hn
        subst hn
        have hx0 : x.length % 2 = 0 := by omega
        simp only [approx, Function.iterate_zero, id_eq, hx0, add_zero]
        apply List.ext_getElem (by simp)
        intro k hk1 hk2
        simp only [List.getElem_map, List.getElem_range]
        rw [ext_in _ mode hk2, List.getD_eq_getElem _ _ hk2]
      · exact h7 (by omega)

/-! ### `downcoef` -/

theorem downcoefLoop_ok {w : Wavelet R} (hw : w.Ok) {mode : Mode} (doA : Bool) (n : ℕ) :
    ∀ x : List M, LevelsOk mode w.dec_len x.length (n + 1) →
      downcoefLoop w mode doA (n + 1) x =
        .ok (if doA then approx mode w.dec_lo (n + 1) x else detail mode w.dec_lo w.dec_hi n x) := by
  have hF : 2 ≤ w.dec_len := hw.1
  induction n with
  | zero =>
    intro x h
    have hx : SignalOk mode x := h 0 (by omega)
    have := coeffLen_pos hx.1 hF mode
    rw [downcoefLoop, dwtBufferLength_eq hx.1 (by omega), dec_a_eq hw hx rfl, dec_d_eq hw hx rfl]
    rw [if_neg (by omega)]
    cases doA <;> simp [downcoefLoop, approx, detail]
  | succ n ih =>
    intro x h
    obtain ⟨hx, h1⟩ := levelsOk_succ.mp h
    have hl : (analysis mode w.dec_lo x).length = coeffLen mode x.length w.dec_len :=
      analysis_length _ _ _
    have := coeffLen_pos hx.1 hF mode
    rw [downcoefLoop, dwtBufferLength_eq hx.1 (by omega), dec_a_eq hw hx rfl]
    rw [if_neg (by omega), if_pos (.inr (by omega))]
    simp only [Py_bind_ok]
    rw [ih _ (by rw [hl]; exact h1)]
    rfl

/-! ### `upcoef` -/

theorem upConvFull_length (f : List R) (c : List M) :
    (upConvFull f c).length = 2 * c.length + f.length - 2 := by simp [upConvFull]

theorem rec_eq {w : Wavelet R} {f : List R} {c : List M} {n : ℕ} (hc : 1 ≤ c.length)
    (hF : 2 ≤ f.length) (hF2 : f.length % 2 = 0) (hn : n = 2 * c.length + f.length - 2)
    (hw : w.rec_len = f.length) :
    callC (if (zeros n : List M).length ≠ reconstructionBufferLength c.length w.rec_len then pure none
      else usFull (kfuel c.length w.rec_len) c f (zeros n)) = .ok (upConvFull f c) := by
  rw [if_neg, usFull_eq hc hF hF2 (by simp [hn]) (by unfold kfuel; omega)]
  · simp only [callC, zeros_length]
    rw [zipWith_zeros _ _ (by simp), hn]
    rfl
  · rw [zeros_length, hn, reconstructionBufferLength, hw, if_neg (by omega)]
    simp

theorem rec_a_eq {w : Wavelet R} (hw : w.Ok) {c : List M} {n : ℕ} (hc : 1 ≤ c.length)
    (hn : n = 2 * c.length + w.rec_len - 2) :
    callC (rec_a w c (zeros n)) = .ok (upConvFull w.rec_lo c) := by
  obtain ⟨h1, h2, h3, h4, h5⟩ := hw
  exact rec_eq hc (by omega) (by omega) hn rfl

theorem rec_d_eq {w : Wavelet R} (hw : w.Ok) {c : List M} {n : ℕ} (hc : 1 ≤ c.length)
    (hn : n = 2 * c.length + w.rec_len - 2) :
    callC (rec_d w c (zeros n)) = .ok (upConvFull w.rec_hi c) := by
  obtain ⟨h1, h2, h3, h4, h5⟩ := hw
  have h6 : w.rec_hi.length = w.rec_len := by unfold Wavelet.rec_len; omega
  exact rec_eq hc (by omega) (by omega) (by omega) h6.symm

theorem upcoefLoop_ok {w : Wavelet R} (hw : w.Ok) (doA : Bool) (n : ℕ) :
    ∀ (i : ℕ) (c : List M), 1 ≤ c.length →
      upcoefLoop w doA n i c =
        .ok (match n with
          | 0 => c
          | n + 1 => (upConvFull w.rec_lo)^[n]
              (upConvFull (if doA ∨ 0 < i then w.rec_lo else w.rec_hi) c)) := by
  obtain ⟨h1, h2, h3, h4, h5⟩ := hw
  have hw : w.Ok := ⟨h1, h2, h3, h4, h5⟩
  have hrl : w.rec_len = w.dec_len := h4
  have hF : 2 ≤ w.dec_len := h1
  induction n with
  | zero => intro i c _; rfl
  | succ n ih =>
    intro i c hc
    rw [upcoefLoop]
    have hb : reconstructionBufferLength c.length w.dec_len = 2 * c.length + w.rec_len - 2 := by
      unfold reconstructionBufferLength; rw [if_neg (by omega), hrl]
    simp only [hb]
    rw [if_neg (by omega), rec_a_eq hw hc rfl, rec_d_eq hw hc rfl]
    have hpos : ∀ f : List R, f.length = w.rec_len → 1 ≤ (upConvFull f c).length := by
      intro f hf
      rw [upConvFull_length, hf]
      omega
    have h6 : w.rec_hi.length = w.rec_len := by unfold Wavelet.rec_len; omega
    split
    · simp only [Py_bind_ok]
      rw [ih _ _ (hpos _ rfl)]
      cases n <;> simp
    · simp only [Py_bind_ok]
      rw [ih _ _ (hpos _ h6)]
      cases n <;> simp

theorem takeCentral_eq {take : ℕ} {r : List M} (h0 : 0 < take) (h : take ≤ r.length) :
    takeCentral take r = (r.drop ((r.length - take) / 2)).take take := by
  unfold takeCentral
  by_cases h1 : take < r.length
  · rw [if_pos ⟨h0, h1⟩]
    simp only
    split
    · rw [show r.length - ((r.length - take) / 2 + 1) - (r.length - take) / 2 = take by omega]
    · rw [show r.length - ((r.length - take) / 2) - (r.length - take) / 2 = take by omega]
  · rw [if_neg (by omega)]
    have : take = r.length := by omega
    subst this
    simp

theorem swtMaxLevelC_spec (n : ℕ) (hn : 1 ≤ n) (j : ℕ) :
    ∃ L, swtMaxLevelC n j = j + L ∧ ∀ l, l ≤ L ↔ 2 ^ l ∣ n := by
  induction n using Nat.strong_induction_on generalizing j with
  | _ n ih =>
    unfold swtMaxLevelC
    rw [if_pos (by omega)]
    split
    · rename_i h
      refine ⟨0, by omega, fun l => ?_⟩
      constructor
      · intro hl
        have : l = 0 := by omega
        subst this
        simp
      · intro hd
        by_contra hl
        have : 2 ∣ 2 ^ l := dvd_pow_self 2 (by omega)
        have := this.trans hd
        omega
    · rename_i h
      obtain ⟨L, hL, hs⟩ := ih (n / 2) (by omega) (by omega) (j + 1)
      refine ⟨L + 1, by omega, fun l => ?_⟩
      obtain ⟨m, rfl⟩ : ∃ m, n = 2 * m := ⟨n / 2, by omega⟩
      rw [show 2 * m / 2 = m by omega] at hs
      cases l with
      | zero => simp
      | succ l =>
        rw [Nat.add_le_add_iff_right, hs, pow_succ, mul_comm (2 ^ l) 2]
        exact (Nat.mul_dvd_mul_iff_left (by omega)).symm

theorem approxLen_ge {mode : Mode} {F : ℕ} (hF : 2 ≤ F) (j : ℕ) {n : ℕ}
    (h : (F - 1) * 2 ^ (j + 1) ≤ n) : 2 * (F - 1) ≤ approxLen mode F n j := by
  induction j generalizing n with
  | zero => simp [approxLen]; rw [pow_one] at h; omega
  | succ j ih =>
    rw [approxLen_succ']
    apply ih
    have : (F - 1) * 2 ^ (j + 1 + 1) = 2 * ((F - 1) * 2 ^ (j + 1)) := by ring
    unfold coeffLen
    split <;> omega

end Pywt
