import Verif.Proof.Hang
import Verif.Proof.AxisMulti
import Verif.Proof.Waverec2

/-! Helper lemmas for the rejection of invalid calls. -/

namespace Pywt

open Finset Spec

set_option linter.unusedSectionVars false

variable {R M : Type} [Ring R] [AddCommGroup M] [Module R M]

theorem downcoefLoop_hangs {w : Wavelet R} (hw : w.Ok) {mode : Mode} (doA : Bool) (n : ℕ) :
    ∀ x : List M, 1 ≤ x.length → ¬ LevelsOk mode w.dec_len x.length n →
      downcoefLoop w mode doA n x = .error (.c .fuel) := by
  have hF : 2 ≤ w.dec_len := hw.1
  induction n with
  | zero => intro x _ h; exact absurd (fun j hj => absurd hj (by omega)) h
  | succ n ih =>
    intro x hx h
    have hpos := coeffLen_pos hx hF mode
    by_cases hs : LenOk mode x.length
    · have h' : ¬ LevelsOk mode w.dec_len (coeffLen mode x.length w.dec_len) n :=
        fun h1 => h (levelsOk_succ.mpr ⟨hs, h1⟩)
      have hn : 0 < n := by
        rcases Nat.eq_zero_or_pos n with rfl | h0
        · exact absurd (fun j hj => absurd hj (by omega)) h'
        · exact h0
      rw [downcoefLoop, dwtBufferLength_eq hx (by omega), dec_a_eq hw hs rfl]
      rw [if_neg (by omega), if_pos (.inr hn)]
      simp only [Py_bind_ok]
      have hl : (analysis mode w.dec_lo x).length = coeffLen mode x.length w.dec_len :=
        analysis_length _ _ _
      exact ih _ (by omega) (by rw [hl]; exact h')
    · have hm : mode = .reflect ∨ mode = .antireflect := by
        by_contra hm
        exact hs ⟨hx, fun h => absurd h hm⟩
      have h1 : x.length = 1 := by
        by_contra h1
        exact hs ⟨hx, fun _ => by omega⟩
      obtain ⟨ha, hd⟩ := decStep_one hw hm h1 _ rfl
      rw [downcoefLoop]
      simp only
      rw [dwtBufferLength_eq hx (by omega)] at *
      rw [if_neg (by omega), ha, hd]
      split <;> rfl

theorem downcoefLoop_nil (w : Wavelet R) (mode : Mode) (doA : Bool) (n : ℕ) :
    downcoefLoop w mode doA (n + 1) ([] : List M) = .error .runtime := by
  rw [downcoefLoop]
  simp only [List.length_nil]
  rw [if_pos]
  · rfl
  · cases mode <;> simp [dwtBufferLength]

theorem upcoefLoop_nil (w : Wavelet R) (doA : Bool) (n i : ℕ) :
    upcoefLoop w doA (n + 1) i ([] : List M) = .error .runtime := by
  rw [upcoefLoop]
  simp only [List.length_nil, reconstructionBufferLength]
  rw [if_pos (by simp)]
  rfl

theorem axesShapes_err {shape : List ℕ} : ∀ l : List ℤ,
    (∃ a ∈ l, ¬ ∃ k, AxisIs shape.length a k) → axesShapes shape l = .error .axis := by
  intro l
  induction l with
  | nil => simp
  | cons a l ih =>
    intro h
    unfold axesShapes
    by_cases ha : ∃ k, AxisIs shape.length a k
    · obtain ⟨k, hk⟩ := ha
      rw [AxisIs.pyIndex (shape := shape) hk]
      simp only
      rw [ih]
      · rfl
      · obtain ⟨b, hb, hb'⟩ := h
        rcases List.mem_cons.mp hb with rfl | hb
        · exact absurd ⟨k, hk⟩ hb'
        · exact ⟨b, hb, hb'⟩
    · rw [pyIndex_none (shape := shape) ha]
      rfl

theorem idwtAxisC_mismatch (w : Wavelet R) (mode : Mode) (ax : ℕ) {a d : Arr M}
    (h : a.shape ≠ d.shape) (n : ℕ) (out : List M) :
    idwtAxisC w ax mode (some a.toMem) (some d.toMem) out
      ⟨a.shape.set ax n, cstrides (a.shape.set ax n)⟩ = .ok none := by
  unfold idwtAxisC
  simp only [haveOk, Arr.toMem, Info.ndim, List.length_set]
  by_cases hn : d.shape.length = a.shape.length
  swap
  · simp [hn, C_pure]
  by_cases hax : ax < a.shape.length
  swap
  · simp [hn, C_pure, Nat.not_lt.mp hax]
  simp only [hn, decide_true, Bool.not_true, Bool.or_self, Bool.false_eq_true, if_false,
    if_neg (Nat.not_le.mpr hax)]
  by_cases he : a.shape.getD ax 0 = d.shape.getD ax 0
  swap
  · simp only [ne_eq, he, not_false_eq_true, if_true]; rfl
  simp only [ne_eq, he, not_true_eq_false, if_false]
  split
  · rfl
  · rw [if_pos]
    · rfl
    · rw [List.any_eq_true]
      by_contra hc
      push Not at hc
      apply h
      apply List.ext_getElem hn.symm
      intro i h1 h2
      by_cases hi : i = ax
      · subst hi
        rw [List.getD_eq_getElem _ _ h1, List.getD_eq_getElem _ _ h2] at he
        exact he
      · have := hc i (by simpa using h1)
        simp [hi, List.getElem?_eq_getElem h1, List.getElem?_eq_getElem h2] at this
        exact this.1.trans this.2.symm

end Pywt
