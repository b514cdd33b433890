import Verif.Model.Warn
import Verif.Spec.EdgeFree
import Verif.Proof.Moments
import Verif.Proof.MultilevelN
import Verif.Props.Moments
import Verif.Props.Shapes

/-!
# Proofs for C73
-/

namespace Pywt

open Finset Spec

set_option autoImplicit false
set_option linter.unusedSectionVars false

/-- The warning compares the level with the level that `None` stands for. -/
theorem checkLevelWarn_eq (sizes dec_lens : List ℕ) (level : Option ℤ) :
    checkLevelWarn sizes dec_lens level = (do
      let m ← checkLevel sizes dec_lens none
      let l ← checkLevel sizes dec_lens level
      pure (l, level.any fun l => decide ((m : ℤ) < l))) := by
  unfold checkLevelWarn checkLevel
  cases (sizes.zip dec_lens).mapM fun p => dwtMaxLevel p.1 p.2 with
  | error e => rfl
  | ok ls =>
    simp only [Py_bind_ok]
    cases ls.min? with
    | none => rfl
    | some m =>
      simp only
      cases level with
      | none => rfl
      | some l =>
        simp only [Py_pure, Py_bind_ok]
        by_cases hl : l < 0
        · rw [if_pos hl, if_pos hl]
          rfl
        · rw [if_neg hl, if_neg hl]
          simp only [Py_bind_ok, Option.any_some]
          by_cases h2 : l > m
          · rw [if_pos h2]
            have : decide ((m : ℤ) < l) = true := by simpa using h2
            rw [this]
          · rw [if_neg h2]
            have : decide ((m : ℤ) < l) = false := by simpa using h2
            rw [this]

/-- When some coefficient of level `j` looks only at samples of the signal. -/
theorem exists_interior {mode : Mode} (hm : mode ≠ .periodization) {F N j : ℕ} :
    (∃ k, Interior mode F N j k) ↔ (F - 1) * (2 ^ j - 1) < 2 ^ j * (N / 2 ^ j) := by
  have hp : 0 < 2 ^ j := by positivity
  unfold Interior windowEnd
  simp only [if_neg hm]
  constructor
  · rintro ⟨k, h1, h2⟩
    have h3 : 2 ^ j * (k + 1) ≤ N := by omega
    have h4 : k + 1 ≤ N / 2 ^ j := by
      rw [Nat.le_div_iff_mul_le hp, mul_comm]
      exact h3
    have h5 : 2 ^ j * (k + 1) ≤ 2 ^ j * (N / 2 ^ j) := Nat.mul_le_mul_left _ h4
    have h6 : 0 < 2 ^ j * (k + 1) := by positivity
    omega
  · intro h
    have h1 : 0 < N / 2 ^ j := by
      rcases Nat.eq_zero_or_pos (N / 2 ^ j) with h0 | h0
      · rw [h0] at h; omega
      · exact h0
    refine ⟨N / 2 ^ j - 1, ?_⟩
    have h2 : N / 2 ^ j - 1 + 1 = N / 2 ^ j := by omega
    have h3 : 2 ^ j * (N / 2 ^ j) ≤ N := Nat.mul_div_le N (2 ^ j)
    rw [h2]
    omega

section
variable {R M : Type} [Ring R] [AddCommGroup M] [Module R M]

theorem edgeFree_of_interior {w : Wavelet R} (hw : w.Ok) {n j k : ℕ} (hj : 1 ≤ j) (hk : Interior .zero w.dec_len n j k) :
    EdgeFree M w n j k := by
  intro x m1 m2 cs ds hx hm1 hm2 h1 h2
  subst hx
  have hF : 2 ≤ w.dec_lo.length := hw.1
  obtain ⟨i, rfl⟩ : ∃ i, j = i + 1 := ⟨j - 1, by omega⟩
  have hint : ∀ {m : Mode}, m ≠ .periodization → Interior m w.dec_len x.length (i + 1) k := by
    intro m hm
    unfold Interior windowEnd at hk ⊢
    rw [if_neg hm]
    exact hk
  obtain ⟨p1, p2, p3⟩ := C58_wavedec_local (s := 0) hw (by simp [hm1, hm2]) h1 h2 (j := i + 1) (k := k) (by omega) le_rfl le_rfl
    (hint hm1) (hint hm2) (fun n _ => by simp)
  obtain ⟨-, rfl⟩ := wavedec_cascade hw h1
  obtain ⟨-, rfl⟩ := wavedec_cascade hw h2
  obtain ⟨q1, q2⟩ := approx_interior (mode := m1) (lo := w.dec_lo) (x := x) (e := fun n : ℤ => x.getD n.toNat 0) hF (i + 1) k
    (hint hm1) (fun n _ => by simp)
  obtain ⟨r1, r2⟩ := approx_interior (mode := m2) (lo := w.dec_lo) (x := x) (e := fun n : ℤ => x.getD n.toNat 0) hF (i + 1) k
    (hint hm2) (fun n _ => by simp)
  have e : apxZ m1 w.dec_lo (fun n : ℤ => x.getD n.toNat 0) (i + 1) = apxZ m2 w.dec_lo (fun n : ℤ => x.getD n.toNat 0) (i + 1) :=
    apxZ_modes (by simp [hm1, hm2]) w.dec_lo _ (i + 1)
  have p4 := List.getElem?_eq_getElem p1
  have p5 := List.getElem?_eq_getElem p2
  rw [← p3] at p5
  have p6 : ∃ d, ((cascade m1 w.dec_lo w.dec_hi (i + 1) x).getD (i + 1 + 1 - (i + 1)) [])[k]? = some d ∧
      ((cascade m2 w.dec_lo w.dec_hi (i + 1) x).getD (i + 1 + 1 - (i + 1)) [])[k]? = some d := ⟨_, p4, p5⟩
  rw [show i + 1 + 1 - (i + 1) = 1 by omega] at p6
  obtain ⟨d, p7, p8⟩ := p6
  refine ⟨(approx m1 w.dec_lo (i + 1) x)[k], d, List.getElem?_eq_getElem q1, ?_, p7, p8⟩
  show (approx m2 w.dec_lo (i + 1) x)[k]? = _
  rw [List.getElem?_eq_getElem r1]
  rw [List.getD_eq_getElem (hn := q1)] at q2
  rw [List.getD_eq_getElem (hn := r1)] at r2
  rw [q2, r2, e]

/-- The level that the warning compares with, axis by axis. -/
theorem warn_iff {st : List (Stage R)} {x : Arr M} (hb : ∀ s ∈ st, s.1 < x.ndim ∧ s.2.1.Ok) {L : ℕ}
    (hL2 : ∀ l, l ≤ L ↔ ∀ s ∈ st, l = 0 ∨ (s.2.1.dec_len - 1) * 2 ^ l ≤ x.shape.getD s.1 0) (level : Option ℤ) :
    (level.any fun l => decide ((L : ℤ) < l)) = true ↔
      ∃ l : ℕ, level = some (l : ℤ) ∧ ∃ s ∈ st, ∃ L, dwtMaxLevel (x.shape.getD s.1 0) s.2.1.dec_len = .ok L ∧ L < l := by
  have key : ∀ l : ℕ, L < l ↔ ∃ s ∈ st, ∃ L, dwtMaxLevel (x.shape.getD s.1 0) s.2.1.dec_len = .ok L ∧ L < l := by
    intro l
    have hmax : ∀ s ∈ st, dwtMaxLevel (x.shape.getD s.1 0) s.2.1.dec_len =
        .ok (dwtMaxLevelC (x.shape.getD s.1 0) s.2.1.dec_len) := by
      intro s hs
      have : 2 ≤ s.2.1.dec_len := (hb s hs).2.1
      unfold dwtMaxLevel
      rw [if_neg (by omega)]
    rw [← not_le, hL2 l]
    constructor
    · intro h
      by_contra h2
      refine h fun s hs => ?_
      have : 2 ≤ s.2.1.dec_len := (hb s hs).2.1
      refine (dwtMaxLevelC_le this).mp ?_
      by_contra h3
      exact h2 ⟨s, hs, _, hmax s hs, by omega⟩
    · rintro ⟨s, hs, L', h1, h2⟩ h3
      rw [hmax s hs] at h1
      have h5 : 2 ≤ s.2.1.dec_len := (hb s hs).2.1
      have h4 := (dwtMaxLevelC_le h5).mpr (h3 s hs)
      have := Except.ok.inj h1
      omega
  cases level with
  | none => simp
  | some l =>
    simp only [Option.any_some, decide_eq_true_eq, Option.some.injEq]
    constructor
    · intro h
      refine ⟨l.toNat, by omega, (key _).mp (by omega)⟩
    · rintro ⟨l', rfl, h⟩
      have := (key l').mpr h
      omega

end

end Pywt
