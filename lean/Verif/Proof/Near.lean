import Verif.Spec.Float
import Verif.Proof.SimUp
import Mathlib.Tactic.Linarith
import Mathlib.Tactic.Positivity
import Mathlib.Tactic.GCongr
import Mathlib.Algebra.Order.BigOperators.Group.Finset

/-!
# Propagation of rounding errors through the kernels
-/

set_option linter.unusedSectionVars false
set_option autoImplicit false

namespace Pywt

open Finset Spec Sim

variable {fl : ℝ → ℝ} {u κ Ω : ℝ}

/-- The exact value `s'` is at most `B` in magnitude and the computed value `s` is off by `e` and `n` roundings. -/
def FlNear (u : ℝ) (n : ℕ) (B e s s' : ℝ) : Prop :=
  |s'| ≤ B ∧ 0 ≤ e ∧ |s - s'| ≤ (1 + u) ^ n * (B + e) - B

theorem FlNear.nonneg {n : ℕ} {B e s s' : ℝ} (h : FlNear u n B e s s') : 0 ≤ B := (abs_nonneg _).trans h.1

theorem FlNear.nonneg2 {n : ℕ} {B e s s' : ℝ} (h : FlNear u n B e s s') : 0 ≤ B + e :=
  add_nonneg h.nonneg h.2.1

theorem pow_ge_one (hu : 0 ≤ u) (n : ℕ) : 1 ≤ (1 + u) ^ n := one_le_pow₀ (by linarith)

theorem FlNear.mono (hu : 0 ≤ u) {n m : ℕ} {B B' e e' s s' : ℝ} (h : FlNear u n B e s s') (hn : n ≤ m)
    (hB : B ≤ B') (he : e ≤ e') : FlNear u m B' e' s s' := by
  have h0 := h.nonneg
  have he0 := h.2.1
  refine ⟨h.1.trans hB, he0.trans he, h.2.2.trans ?_⟩
  have h1 := pow_ge_one hu n
  have h2 : (1 + u) ^ n ≤ (1 + u) ^ m := pow_le_pow_right₀ (by linarith) hn
  have h3 := pow_ge_one hu m
  have h4 : (1 + u) ^ n * (B + e) ≤ (1 + u) ^ m * (B + e) :=
    mul_le_mul_of_nonneg_right h2 (by linarith)
  have h5 : (1 + u) ^ m * (B' + e') - B' - ((1 + u) ^ m * (B + e) - B) =
      ((1 + u) ^ m - 1) * (B' - B) + (1 + u) ^ m * (e' - e) := by ring
  have h6 : 0 ≤ ((1 + u) ^ m - 1) * (B' - B) := mul_nonneg (by linarith) (by linarith)
  have h7 : 0 ≤ (1 + u) ^ m * (e' - e) := mul_nonneg (by linarith) (by linarith)
  linarith

theorem FlNear.abs_le {n : ℕ} {B e s s' : ℝ} (h : FlNear u n B e s s') : |s| ≤ (1 + u) ^ n * (B + e) := by
  have : |s| ≤ |s - s'| + |s'| := by
    have := abs_add_le (s - s') s'
    rwa [sub_add_cancel] at this
  have h1 := h.1
  have h2 := h.2.2
  linarith

theorem FlNear.refl (hu : 0 ≤ u) (n : ℕ) {B e s : ℝ} (h : |s| ≤ B) (he : 0 ≤ e) : FlNear u n B e s s := by
  refine ⟨h, he, ?_⟩
  rw [sub_self, abs_zero]
  have h0 : 0 ≤ B := (abs_nonneg _).trans h
  have h1 := pow_ge_one hu n
  nlinarith

theorem FlNear.neg {n : ℕ} {B e s s' : ℝ} (h : FlNear u n B e s s') : FlNear u n B e (-s) (-s') := by
  refine ⟨by rw [abs_neg]; exact h.1, h.2.1, ?_⟩
  rw [← neg_sub', abs_neg]; exact h.2.2

theorem FlNear.add {n : ℕ} {B e C g s s' t t' : ℝ} (h : FlNear u n B e s s') (h' : FlNear u n C g t t') :
    FlNear u n (B + C) (e + g) (s + t) (s' + t') := by
  refine ⟨(abs_add_le _ _).trans (add_le_add h.1 h'.1), add_nonneg h.2.1 h'.2.1, ?_⟩
  calc |s + t - (s' + t')| = |(s - s') + (t - t')| := by ring_nf
    _ ≤ |s - s'| + |t - t'| := abs_add_le _ _
    _ ≤ ((1 + u) ^ n * (B + e) - B) + ((1 + u) ^ n * (C + g) - C) := add_le_add h.2.2 h'.2.2
    _ = _ := by ring

theorem FlNear.sub {n : ℕ} {B e C g s s' t t' : ℝ} (h : FlNear u n B e s s') (h' : FlNear u n C g t t') :
    FlNear u n (B + C) (e + g) (s - t) (s' - t') := by
  rw [sub_eq_add_neg, sub_eq_add_neg]
  exact h.add h'.neg

theorem FlNear.mul {n : ℕ} {B e s s' : ℝ} (h : FlNear u n B e s s') (a : ℝ) :
    FlNear u n (|a| * B) (|a| * e) (a * s) (a * s') := by
  refine ⟨by rw [abs_mul]; exact mul_le_mul_of_nonneg_left h.1 (abs_nonneg _),
    mul_nonneg (abs_nonneg _) h.2.1, ?_⟩
  rw [← mul_sub, abs_mul]
  calc |a| * |s - s'| ≤ |a| * ((1 + u) ^ n * (B + e) - B) :=
        mul_le_mul_of_nonneg_left h.2.2 (abs_nonneg _)
    _ = _ := by ring

/-- One rounding. -/
theorem FlNear.round (H : Rounds fl u κ Ω) {n : ℕ} {B e s s' : ℝ} (h : FlNear u n B e s s')
    (hΩ : (1 + u) ^ n * (B + e) ≤ Ω) : FlNear u (n + 1) (B + κ) e (fl s) s' := by
  have hu := H.u_nonneg
  have hκ := H.κ_nonneg
  have hB := h.nonneg
  have he := h.2.1
  have h1 := H.err s (h.abs_le.trans hΩ)
  refine ⟨h.1.trans (by linarith), he, ?_⟩
  have h2 := h.abs_le
  have h4 : u ≤ (1 + u) ^ (n + 1) - 1 := by
    have := one_add_mul_le_pow (show (-2 : ℝ) ≤ u by linarith) (n + 1)
    have h5 : (0 : ℝ) ≤ n := Nat.cast_nonneg n
    push_cast at this
    nlinarith
  calc |fl s - s'| = |(fl s - s) + (s - s')| := by ring_nf
    _ ≤ |fl s - s| + |s - s'| := abs_add_le _ _
    _ ≤ u * (|s| + κ) + ((1 + u) ^ n * (B + e) - B) := add_le_add h1 h.2.2
    _ ≤ u * ((1 + u) ^ n * (B + e) + κ) + ((1 + u) ^ n * (B + e) - B) := by gcongr
    _ = (1 + u) ^ (n + 1) * (B + e) - B + u * κ := by ring
    _ ≤ (1 + u) ^ (n + 1) * (B + e) - B + ((1 + u) ^ (n + 1) - 1) * κ := by gcongr
    _ = _ := by ring

/-- The data of an error analysis: the rounding, the magnitudes `c l` of the taps in `all`, samples that are at most
`Xb` and off by `Xe` and `dx` roundings, extended samples that are at most `By` and off by `Ye` and `dy` roundings. -/
structure Ctx (fl : ℝ → ℝ) (u κ Ω : ℝ) where
  rounds : Rounds fl u κ Ω
  c : ℕ → ℝ
  c_nonneg : ∀ l, 0 ≤ c l
  all : Finset ℕ
  kmax : ℕ
  dx : ℕ
  Xb : ℝ
  Xe : ℝ
  dy : ℕ
  By : ℝ
  Ye : ℝ
  Xb_nonneg : 0 ≤ Xb
  Xe_nonneg : 0 ≤ Xe
  hd : dx ≤ dy
  hB : Xb ≤ By
  he : Xe ≤ Ye
  hs : (1 + u) ^ (dy + 1 + all.card + kmax) *
    ((∑ l ∈ all, (c l * By + 2 * κ) + kmax * κ) + ∑ l ∈ all, c l * Ye) ≤ Ω

namespace Ctx

variable (K : Ctx fl u κ Ω)

/-- Bound on a sum over the taps in `A`, of `k` sums. -/
noncomputable def bound (k : ℕ) (A : Finset ℕ) : ℝ := ∑ l ∈ A, (K.c l * K.By + 2 * κ) + k * κ

/-- Bound on the error inherited by it. -/
noncomputable def err (A : Finset ℕ) : ℝ := ∑ l ∈ A, K.c l * K.Ye

theorem By_nonneg : 0 ≤ K.By := K.Xb_nonneg.trans K.hB

theorem Ye_nonneg : 0 ≤ K.Ye := K.Xe_nonneg.trans K.he

theorem term_nonneg (l : ℕ) : 0 ≤ K.c l * K.By + 2 * κ :=
  add_nonneg (mul_nonneg (K.c_nonneg l) K.By_nonneg) (by have := K.rounds.κ_nonneg; linarith)

theorem bound_mono {k k' : ℕ} {A B : Finset ℕ} (hk : k ≤ k') (hA : A ⊆ B) :
    K.bound k A ≤ K.bound k' B := by
  unfold bound
  have h1 := sum_le_sum_of_subset_of_nonneg (f := fun l => K.c l * K.By + 2 * κ) hA
    fun l _ _ => K.term_nonneg l
  have h2 : (k : ℝ) * κ ≤ k' * κ :=
    mul_le_mul_of_nonneg_right (Nat.cast_le.mpr hk) K.rounds.κ_nonneg
  linarith

theorem err_mono {A B : Finset ℕ} (hA : A ⊆ B) : K.err A ≤ K.err B :=
  sum_le_sum_of_subset_of_nonneg hA fun l _ _ => mul_nonneg (K.c_nonneg l) K.Ye_nonneg

/-- Results up to the final bound are in range. -/
theorem range_ok {n : ℕ} {B e : ℝ} (hB0 : 0 ≤ B + e) (hn : n ≤ K.dy + 1 + K.all.card + K.kmax)
    (hB : B ≤ K.bound K.kmax K.all) (he : e ≤ K.err K.all) : (1 + u) ^ n * (B + e) ≤ Ω := by
  have hu := K.rounds.u_nonneg
  refine le_trans ?_ K.hs
  have h1 : (1 + u) ^ n ≤ (1 + u) ^ (K.dy + 1 + K.all.card + K.kmax) :=
    pow_le_pow_right₀ (by linarith) hn
  exact mul_le_mul h1 (add_le_add hB he) hB0
    (by linarith [pow_ge_one hu (K.dy + 1 + K.all.card + K.kmax)])

/-- The link between the machine arithmetic and the exact one. -/
noncomputable def link : Link (Fl fl) ℝ where
  X x x' := FlNear u K.dx K.Xb K.Xe x.val x'
  Y y y' := FlNear u K.dy K.By K.Ye y.val y'
  T l p p' := FlNear u (K.dy + 1) (K.c l * K.By + κ) (K.c l * K.Ye) p.val p'
  S k A s s' := A ⊆ K.all ∧ k ≤ K.kmax ∧
    FlNear u (K.dy + 1 + A.card + k) (K.bound k A) (K.err A) s.val s'
  all := K.all
  kmax := K.kmax
  zero := ⟨empty_subset _, Nat.zero_le _,
    FlNear.refl K.rounds.u_nonneg _ (by simp [bound, Fl.val_zero]) (by simp [err])⟩
  mono := by
    intro k k' A B s s' hA hB hk hk' h
    refine ⟨hB, hk', h.2.2.mono K.rounds.u_nonneg ?_ (K.bound_mono hk hA) (K.err_mono hA)⟩
    have := card_le_card hA
    omega
  add := by
    intro k A l s s' p p' hl hl' hs hp
    obtain ⟨hA, hk, hs⟩ := hs
    have hi : insert l A ⊆ K.all := insert_subset hl' hA
    refine ⟨hi, hk, ?_⟩
    have hp' := hp.mono (m := K.dy + 1 + A.card + k) K.rounds.u_nonneg (by omega) le_rfl le_rfl
    have hb : K.bound k (insert l A) = K.bound k A + (K.c l * K.By + κ) + κ := by
      unfold bound
      rw [sum_insert hl]
      ring
    have hee : K.err (insert l A) = K.err A + K.c l * K.Ye := by
      unfold err
      rw [sum_insert hl, add_comm]
    have hκ := K.rounds.κ_nonneg
    have hadd := hs.add hp'
    have hcard := card_le_card hi
    rw [card_insert_of_notMem hl] at hcard ⊢
    have h := hadd.round K.rounds (K.range_ok hadd.nonneg2 (by omega) (by
      have := K.bound_mono hk hi
      rw [hb] at this
      linarith) (by rw [← hee]; exact K.err_mono hi))
    rw [hb, hee]
    exact h.mono K.rounds.u_nonneg (by omega) le_rfl le_rfl
  merge := by
    intro k m A B s s' t t' hd hkm hs ht
    obtain ⟨hA, hk, hs⟩ := hs
    obtain ⟨hB, hm, ht⟩ := ht
    have hi : A ∪ B ⊆ K.all := union_subset hA hB
    refine ⟨hi, hkm, ?_⟩
    have hu := K.rounds.u_nonneg
    have hκ := K.rounds.κ_nonneg
    have hc : (A ∪ B).card = A.card + B.card := card_union_of_disjoint hd
    have hcard := card_le_card hi
    have hb : K.bound (k + m + 1) (A ∪ B) = K.bound k A + K.bound m B + κ := by
      unfold bound
      rw [sum_union hd]
      push_cast
      ring
    have hee : K.err (A ∪ B) = K.err A + K.err B := by
      unfold err
      rw [sum_union hd]
    have hs' := hs.mono (m := K.dy + 1 + A.card + B.card + k + m) hu (by omega) le_rfl le_rfl
    have ht' := ht.mono (m := K.dy + 1 + A.card + B.card + k + m) hu (by omega) le_rfl le_rfl
    have hadd := hs'.add ht'
    have h := hadd.round K.rounds (K.range_ok hadd.nonneg2 (by omega) (by
      have := K.bound_mono hkm hi
      rw [hb] at this
      linarith) (by rw [← hee]; exact K.err_mono hi))
    rw [hb, hee]
    exact h.mono hu (by omega) le_rfl le_rfl
  neg := fun h => h.neg
  sample := fun h => h.mono K.rounds.u_nonneg K.hd K.hB K.he

/-- A single product is in range. -/
theorem ht {l : ℕ} (hl : l ∈ K.all) : (1 + u) ^ K.dy * (K.c l * K.By + K.c l * K.Ye) ≤ Ω := by
  have hκ := K.rounds.κ_nonneg
  have h0 := mul_nonneg (K.c_nonneg l) K.By_nonneg
  have h0' := mul_nonneg (K.c_nonneg l) K.Ye_nonneg
  refine K.range_ok (by linarith) (by omega) ?_ ?_
  · have h1 : K.bound 0 {l} ≤ K.bound K.kmax K.all :=
      K.bound_mono (Nat.zero_le _) (singleton_subset_iff.mpr hl)
    have h2 : K.bound 0 {l} = K.c l * K.By + 2 * κ := by simp [bound]
    linarith
  · have h1 : K.err {l} ≤ K.err K.all := K.err_mono (singleton_subset_iff.mpr hl)
    have h2 : K.err {l} = K.c l * K.Ye := by simp [err]
    linarith

/-- The coefficients of the filter. -/
theorem taps {off : ℕ} {f : List ℝ} (hmem : ∀ l < f.length, off + l ∈ K.all)
    (hc : ∀ l a, f[l]? = some a → K.c (off + l) = |a|) :
    Taps K.link off (f.map (Fl.mk (fl := fl))) f where
  len := by simp
  mem := hmem
  mul := by
    intro l a a' y y' ha ha' hy
    rw [List.getElem?_map, ha'] at ha
    cases ha
    obtain ⟨hl, -⟩ := List.getElem?_eq_some_iff.mp ha'
    have h := (hy.mul a').round K.rounds (by
      rw [← hc l a' ha']
      exact K.ht (hmem l hl))
    show FlNear u (K.dy + 1) (K.c (off + l) * K.By + κ) (K.c (off + l) * K.Ye) (fl (a' * y.val)) (a' * y')
    rw [hc l a' ha']
    exact h

/-- The values computed past the edges. -/
noncomputable def edge {F : ℕ} (hF1 : 1 ≤ F) (hdy : K.dx + F + 3 ≤ K.dy)
    (hBy : (2 * F + 1) * K.Xb + (2 * F + 2) * κ ≤ K.By) (hYe : (2 * F + 1) * K.Xe ≤ K.Ye)
    (hy : (1 + u) ^ K.dy * (K.By + K.Ye) ≤ Ω) : Edge K.link F := by
  have hu := K.rounds.u_nonneg
  have hκ := K.rounds.κ_nonneg
  have hX := K.Xb_nonneg
  have hE := K.Xe_nonneg
  have hin : ∀ {n : ℕ} {B e : ℝ}, 0 ≤ B + e → n ≤ K.dy → B ≤ K.By → e ≤ K.Ye →
      (1 + u) ^ n * (B + e) ≤ Ω := by
    intro n B e hB0 hn hB he
    refine le_trans ?_ hy
    have h1 : (1 + u) ^ n ≤ (1 + u) ^ K.dy := pow_le_pow_right₀ (by linarith) hn
    exact mul_le_mul h1 (add_le_add hB he) hB0 (by linarith [pow_ge_one hu K.dy])
  have hmul : ∀ {r : ℕ}, r ≤ F → (r : ℝ) * K.Xb ≤ F * K.Xb ∧ (r : ℝ) * κ ≤ F * κ ∧
      (r : ℝ) * K.Xe ≤ F * K.Xe := fun h =>
    ⟨mul_le_mul_of_nonneg_right (Nat.cast_le.mpr h) hX,
      mul_le_mul_of_nonneg_right (Nat.cast_le.mpr h) hκ,
      mul_le_mul_of_nonneg_right (Nat.cast_le.mpr h) hE⟩
  have hF : 0 ≤ (F : ℝ) * K.Xb ∧ 0 ≤ (F : ℝ) * κ ∧ 0 ≤ (F : ℝ) * K.Xe :=
    ⟨mul_nonneg (Nat.cast_nonneg _) hX, mul_nonneg (Nat.cast_nonneg _) hκ,
      mul_nonneg (Nat.cast_nonneg _) hE⟩
  refine
    { E := fun r e e' => r ≤ F →
        FlNear u (K.dx + 1 + r) ((2 * r + 1) * K.Xb + 2 * r * κ) ((2 * r + 1) * K.Xe) e.val e'
      zero := fun _ => FlNear.refl hu _ (by simpa [Fl.val_zero] using hX) (by simpa using hE)
      edge := fun h _ => FlNear.mono hu h (by omega) (by push_cast; linarith) (by push_cast; linarith)
      sub := ?_
      add := ?_
      value := ?_
      smooth := ?_ }
  · intro r e e' b b' c c' he hb hc hr
    have he := he (by omega)
    have h1 := hmul hr
    push_cast at h1
    have hbc : FlNear u K.dx (K.Xb + K.Xb) (K.Xe + K.Xe) (b.val - c.val) (b' - c') := FlNear.sub hb hc
    have hbc' := hbc.round K.rounds (hin hbc.nonneg2 (by omega) (by nlinarith) (by nlinarith))
    have hd := he.sub (hbc'.mono (m := K.dx + 1 + r) hu (by omega) le_rfl le_rfl)
    have hd' := hd.round K.rounds (hin hd.nonneg2 (by omega) (by nlinarith) (by nlinarith))
    refine FlNear.mono hu hd' (by omega) (le_of_eq ?_) (le_of_eq ?_) <;> (push_cast; ring)
  · intro r e e' b b' c c' he hb hc hr
    have he := he (by omega)
    have h1 := hmul hr
    push_cast at h1
    have hbc : FlNear u K.dx (K.Xb + K.Xb) (K.Xe + K.Xe) (b.val - c.val) (b' - c') := FlNear.sub hb hc
    have hbc' := hbc.round K.rounds (hin hbc.nonneg2 (by omega) (by nlinarith) (by nlinarith))
    have hd := he.add (hbc'.mono (m := K.dx + 1 + r) hu (by omega) le_rfl le_rfl)
    have hd' := hd.round K.rounds (hin hd.nonneg2 (by omega) (by nlinarith) (by nlinarith))
    refine FlNear.mono hu hd' (by omega) (le_of_eq ?_) (le_of_eq ?_) <;> (push_cast; ring)
  · intro r e e' hr he
    have h1 := hmul hr
    exact FlNear.mono hu (he hr) (by omega) (by nlinarith) (by nlinarith)
  · intro k a a' b b' hk ha hb
    have h1 := hmul hk
    have hk0 : (0 : ℝ) ≤ k := Nat.cast_nonneg k
    have hkX : 0 ≤ (k : ℝ) * K.Xb := mul_nonneg hk0 hX
    have hkκ : 0 ≤ (k : ℝ) * κ := mul_nonneg hk0 hκ
    have hF' : (1 : ℝ) ≤ F := by exact_mod_cast hF1
    have hab : FlNear u K.dx (K.Xb + K.Xb) (K.Xe + K.Xe) (a.val - b.val) (a' - b') := FlNear.sub ha hb
    have hab1 := hab.round K.rounds (hin hab.nonneg2 (by omega) (by nlinarith) (by nlinarith))
    have hm := hab1.mul (k : ℝ)
    rw [abs_of_nonneg hk0] at hm
    have hm1 := hm.round K.rounds (hin hm.nonneg2 (by omega) (by nlinarith) (by nlinarith))
    have hs := (FlNear.mono (m := K.dx + 1 + 1) hu ha (by omega) le_rfl le_rfl).add hm1
    have hs1 := hs.round K.rounds (hin hs.nonneg2 (by omega) (by nlinarith) (by nlinarith))
    have : (a' + k • (a' - b') : ℝ) = a' + (k : ℝ) * (a' - b') := by rw [nsmul_eq_mul]
    show FlNear u K.dy K.By K.Ye (fl (a.val + fl ((k : ℝ) * fl (a.val - b.val)))) (a' + k • (a' - b'))
    rw [this]
    exact FlNear.mono hu hs1 (by omega) (by nlinarith) (by nlinarith)

end Ctx

end Pywt
