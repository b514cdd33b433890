import Verif.Proof.RoundTrip
import Verif.Proof.Ieee
import Verif.Proof.SimHom
import Verif.Proof.BuiltinNorm
import Verif.Proof.BuiltinTop

/-!
# Consequences of the rounding analysis
-/

set_option linter.unusedSectionVars false
set_option autoImplicit false

namespace Pywt

open Finset Spec Sim

variable {fl : ℝ → ℝ} {u κ Ω : ℝ}

theorem toFl_accurate (hu : 0 ≤ u) {x : List ℝ} {X : ℝ} (hX : ∀ v ∈ x, |v| ≤ X) :
    Accurate u 0 X 0 (toFl fl x) x := by
  unfold Accurate toFl
  rw [List.forall₂_map_left_iff, List.forall₂_same]
  intro v hv
  exact FlNear.refl hu 0 (hX v hv) le_rfl

theorem dwtBound_zero (mode : Mode) (f : List ℝ) : dwtBound mode f 0 0 = 0 := by
  simp [dwtBound, extBound]

theorem idwtBound_zero (w : Wavelet ℝ) : idwtBound w 0 0 = 0 := by simp [idwtBound]

theorem dwtBound_nonneg {mode : Mode} {f : List ℝ} {X : ℝ} (hκ : 0 ≤ κ) (hX : 0 ≤ X) :
    0 ≤ dwtBound mode f κ X := by
  unfold dwtBound
  have h1 := l1_nonneg f
  have h2 : 0 ≤ extBound mode f.length κ X := hX.trans (le_extBound hκ hX)
  positivity

/-- An error bound sample by sample. -/
theorem Accurate.sample {n : ℕ} {B : ℝ} {x' : List (Fl fl)} {x : List ℝ} (h : Accurate u n B 0 x' x)
    (i : ℕ) (hi : i < x.length) : |(x'.getD i 0).val - x.getD i 0| ≤ ((1 + u) ^ n - 1) * B := by
  unfold Accurate at h
  rw [List.forall₂_iff_get] at h
  have := (h.2 i (by rw [h.1]; exact hi) hi).2.2
  rw [List.getD_eq_getElem _ _ hi, List.getD_eq_getElem _ _ (by rw [h.1]; exact hi)]
  refine le_trans this (le_of_eq ?_)
  ring

/-- One level there and back. -/
theorem roundtrip_one (H : Rounds fl u κ Ω) {w : Wavelet ℝ} (hw : w.Ok) {ε : ℝ}
    (hpr : PRWithin ε w.dec_lo w.dec_hi w.rec_lo w.rec_hi) {mode : Mode} {x : List ℝ}
    (hx : SignalOk mode x) {X : ℝ} (hX : ∀ v ∈ x, |v| ≤ X) (hd : DwtFits u κ Ω mode w 0 X 0)
    {B : ℝ} (hB1 : dwtBound mode w.dec_lo κ X ≤ B) (hB2 : dwtBound mode w.dec_hi κ X ≤ B)
    (hr : IdwtFits u κ Ω w (dwtDepth mode w.dec_len) B 0) :
    ∃ cA cD y, dwt (w.toFl fl) mode (toFl fl x) = .ok (cA, cD) ∧
      idwt (w.toFl fl) mode (some cA) (some cD) = .ok y ∧ y.length = x.length + x.length % 2 ∧
      ∀ n < x.length, |(y.getD n 0).val - x.getD n 0| ≤ ε * extMax mode w.dec_len X +
        ((1 + u) ^ (dwtDepth mode w.dec_len + idwtDepth w) - 1) * idwtBound w κ B := by
  have hu := H.u_nonneg
  have hN := hx.1
  have hX0 : 0 ≤ X := (abs_nonneg _).trans (hX (x[0]'(by omega)) (List.getElem_mem _))
  obtain ⟨cA, cD, y, h1, h2, h3, h4⟩ := idwt_dwt_within (M := ℝ) hw hpr hx
    (B := extMax mode w.dec_len X) fun p hp1 hp2 => ext_le_near hx hX0 hX hp1 hp2
  obtain ⟨⟨a', d'⟩, g1, ga, gd⟩ := dwt_near H hw hX0 le_rfl hd (toFl_accurate hu hX) _ h1
  simp only [dwtBound_zero, Nat.zero_add] at ga gd
  have hB0 : 0 ≤ B := (dwtBound_nonneg H.κ_nonneg hX0).trans hB1
  obtain ⟨r, hr', hacc⟩ := idwt_near H hB0 le_rfl hr (.some (Accurate.mono hu ga le_rfl hB1 le_rfl))
    (.some (Accurate.mono hu gd le_rfl hB2 le_rfl)) y h2
  rw [idwtBound_zero] at hacc
  refine ⟨a', d', r, g1, hr', hacc.length_eq.trans h3, fun n hn => ?_⟩
  have e1 := Accurate.sample hacc n (by omega)
  have e2 := h4 n hn
  rw [Real.norm_eq_abs] at e2
  have := abs_sub_le ((r.getD n 0).val) (y.getD n 0) (x.getD n 0)
  linarith

theorem pow310 (hu : 0 ≤ u) (hu' : u ≤ 2⁻¹ ^ 24) {n : ℕ} (hn : n ≤ 310) : (1 + u) ^ n - 1 ≤ 320 * u := by
  have h1 : (1 + u) ^ n ≤ (1 + u) ^ 310 := pow_le_pow_right₀ (by linarith) hn
  have h2 := gamma_le hu (n := 310) (by norm_num at hu' ⊢; linarith)
  have h3 : ((310 : ℕ) : ℝ) * u / (1 - (310 : ℕ) * u) ≤ 320 * u := by
    rw [div_le_iff₀ (by norm_num at hu' ⊢; linarith)]
    norm_num at hu' ⊢
    nlinarith
  linarith

/-- The built-in wavelets. -/
theorem builtin_roundtrip (H : Rounds fl u κ Ω) (hu : u ≤ 2⁻¹ ^ 24) {single : Bool} {name : String} {fam : Family}
    {order : ℕ} (h : (name, fam, order) ∈ wnameToCode) (hd : fam.isDiscrete = true) {mode : Mode}
    (hm : Repeats mode) {x : List ℝ} (hx : SignalOk mode x) {X : ℝ} (hX : ∀ v ∈ x, |v| ≤ X)
    (hΩ : 64 * (X + 64 * κ) ≤ Ω) :
    ∃ o cA cD y, waveletNamed single name = .ok o ∧
      dwt ((realBank o.w).toFl fl) mode (toFl fl x) = .ok (cA, cD) ∧
      idwt ((realBank o.w).toFl fl) mode (some cA) (some cD) = .ok y ∧ y.length = x.length + x.length % 2 ∧
      ∀ n < x.length, |(y.getD n 0).val - x.getD n 0| ≤
        ((tolerance single fam).1 : ℝ) / (tolerance single fam).2 * X + 10240 * u * (X + 64 * κ) := by
  obtain ⟨o, h1, h2, h3, -, -, -, h4⟩ := builtin_ok (single := single) h hd
  obtain ⟨n0, n1, n2, n3, n4⟩ := builtin_norm h hd h2
  have hok := realBank_ok h3
  have hu0 := H.u_nonneg
  have hκ := H.κ_nonneg
  have hN := hx.1
  have hX0 : 0 ≤ X := (abs_nonneg _).trans (hX (x[0]'(by omega)) (List.getElem_mem _))
  have hl : (realBank o.w).dec_len = o.w.dec_len := by simp [realBank, Wavelet.dec_len]
  have hns : ¬ (mode = .smooth ∨ mode = .antireflect) := by
    cases mode <;> simp_all [Repeats]
  have hF : (realBank o.w).dec_lo.length ≤ 102 := by
    have : (realBank o.w).dec_lo.length = (realBank o.w).dec_len := rfl
    omega
  obtain ⟨-, -, l1', l2', l3'⟩ := hok
  change (realBank o.w).dec_hi.length = (realBank o.w).dec_lo.length at l1'
  change (realBank o.w).rec_lo.length = (realBank o.w).dec_lo.length at l2'
  change (realBank o.w).rec_hi.length = (realBank o.w).dec_lo.length at l3'
  have hok := realBank_ok h3
  generalize hW : realBank o.w = W at *
  have hFr : (W.dec_lo.length : ℝ) ≤ 102 := by exact_mod_cast hF
  have hF0 : (0 : ℝ) ≤ W.dec_lo.length := Nat.cast_nonneg _
  have hdb : ∀ f : List ℝ, f.length = W.dec_lo.length → l1 f ≤ 4 → dwtBound mode f κ X ≤ 4 * X + 204 * κ := by
    intro f hf h
    unfold dwtBound extBound
    rw [if_neg hns, hf]
    have := mul_le_mul_of_nonneg_right h hX0
    have := mul_le_mul_of_nonneg_right hFr hκ
    linarith
  have hib : idwtBound W κ (4 * X + 204 * κ) ≤ 32 * X + 2042 * κ := by
    unfold idwtBound
    rw [l2', l3']
    have h5 : (l1 W.rec_lo + l1 W.rec_hi) * (4 * X + 204 * κ) ≤ 8 * (4 * X + 204 * κ) :=
      mul_le_mul_of_nonneg_right (by linarith) (by linarith)
    have := mul_le_mul_of_nonneg_right hFr hκ
    linarith
  have hdep : dwtDepth mode W.dec_len + idwtDepth W ≤ 310 := by
    unfold dwtDepth idwtDepth extDepth Wavelet.dec_len
    rw [if_neg hns, l2', l3']
    omega
  have hpw : ∀ n ≤ 310, (1 + u) ^ n ≤ 2 := by
    intro n hn
    have := pow310 hu0 hu hn
    norm_num at hu
    linarith
  have hpw0 : ∀ n, 0 ≤ (1 + u) ^ n := fun n => pow_nonneg (by linarith) n
  have hb0 : 0 ≤ 4 * X + 204 * κ := by linarith
  have hfits : ∀ n ≤ 310, ∀ b, b ≤ 32 * X + 2042 * κ → 0 ≤ 32 * X + 2042 * κ → (1 + u) ^ n * b ≤ Ω := by
    intro n hn b hb hb0
    have a1 := hpw n hn
    have a2 := hpw0 n
    have a3 : (1 + u) ^ n * b ≤ (1 + u) ^ n * (32 * X + 2042 * κ) := mul_le_mul_of_nonneg_left hb a2
    have a4 := mul_le_mul_of_nonneg_right a1 hb0
    linarith
  have hfd : DwtFits u κ Ω mode W 0 X 0 := by
    unfold DwtFits
    rw [dwtBound_zero, dwtBound_zero]
    have e0 : extBound mode W.dec_len 0 0 = 0 := by simp [extBound]
    rw [e0]
    simp only [add_zero]
    refine ⟨hfits _ ?_ _ ?_ (by linarith), hfits _ ?_ _ ?_ (by linarith), hfits _ ?_ _ ?_ (by linarith)⟩
    · unfold dwtDepth at hdep; omega
    · unfold extBound; rw [if_neg hns]; linarith
    · omega
    · have := hdb W.dec_lo rfl n1; linarith
    · omega
    · have := hdb W.dec_hi l1' n2; linarith
  have hfi : IdwtFits u κ Ω W (dwtDepth mode W.dec_len) (4 * X + 204 * κ) 0 := by
    unfold IdwtFits
    rw [idwtBound_zero, add_zero]
    exact hfits _ hdep _ hib (by linarith)
  obtain ⟨cA, cD, y, r1, r2, r3, r4⟩ := roundtrip_one H hok h4 hx hX hfd (hdb _ rfl n1) (hdb _ l1' n2) hfi
  refine ⟨o, cA, cD, y, h1, by rw [hW]; exact r1, by rw [hW]; exact r2, r3, fun n hn => (r4 n hn).trans ?_⟩
  have e1 : extMax mode W.dec_len X = X := by unfold extMax; rw [if_neg hns]
  rw [e1]
  have e2 := pow310 hu0 hu hdep
  have e3 : 0 ≤ (1 + u) ^ (dwtDepth mode W.dec_len + idwtDepth W) - 1 := by
    have := one_le_pow₀ (M₀ := ℝ) (show 1 ≤ 1 + u by linarith) (n := dwtDepth mode W.dec_len + idwtDepth W)
    linarith
  have e4 : ((1 + u) ^ (dwtDepth mode W.dec_len + idwtDepth W) - 1) * idwtBound W κ (4 * X + 204 * κ) ≤
      320 * u * (32 * X + 2042 * κ) :=
    (mul_le_mul_of_nonneg_left hib e3).trans (mul_le_mul_of_nonneg_right e2 (by linarith))
  have e5 := mul_nonneg hu0 hκ
  have e6 := mul_nonneg hu0 hX0
  nlinarith

/-! ### Maps that commute with the arithmetic -/

section hom

variable {R R' M M' : Type} [Zero R] [Zero M] [Add M] [Neg M] [Sub M] [SMul ℕ M] [SMul R M]
  [Zero R'] [Zero M'] [Add M'] [Neg M'] [Sub M'] [SMul ℕ M'] [SMul R' M']

theorem forall₂_fun {φ : M' → M} {xs : List M} {ys : List M'} :
    List.Forall₂ (fun a b => a = φ b) xs ys ↔ xs = ys.map φ := by
  rw [← List.forall₂_eq_eq_eq, List.forall₂_map_right_iff]

theorem oRel_fun {φ : M' → M} {x : Option (List M)} {y : Option (List M')} :
    ORel (fun a b => a = φ b) x y ↔ x = y.map (List.map φ) := by
  constructor
  · intro h
    cases h with
    | none => rfl
    | some h => rw [Option.map_some, forall₂_fun.mp h]
  · rintro rfl
    cases y with
    | none => exact .none
    | some y => exact .some (forall₂_fun.mpr rfl)

theorem forall₂_oRel_fun {φ : M' → M} {x : List (Option (List M))} {y : List (Option (List M'))} :
    List.Forall₂ (ORel fun a b => a = φ b) x y ↔ x = y.map (Option.map (List.map φ)) := by
  rw [← List.forall₂_eq_eq_eq, List.forall₂_map_right_iff]
  constructor
  · exact fun h => h.imp fun a b h => oRel_fun.mp h
  · exact fun h => h.imp fun a b h => oRel_fun.mpr h

theorem forall₂_forall₂_fun {φ : M' → M} {x : List (List M)} {y : List (List M')} :
    List.Forall₂ (List.Forall₂ fun a b => a = φ b) x y ↔ x = y.map (List.map φ) := by
  rw [← List.forall₂_eq_eq_eq, List.forall₂_map_right_iff]
  constructor
  · exact fun h => h.imp fun a b h => forall₂_fun.mp h
  · exact fun h => h.imp fun a b h => forall₂_fun.mpr h

theorem bankRel_refl (w : Wavelet R) : BankRel (fun a b : R => a = b) w w := by
  constructor <;> exact List.forall₂_same.mpr fun _ _ => rfl

variable [SMul R M'] {φ : M' → M} (h : Respects R R (fun a b => a = φ b) (fun a b : R => a = b))

include h

theorem dwt_map {w : Wavelet R} {mode : Mode} {x : List M'} {a d : List M'} (hr : dwt w mode x = .ok (a, d)) :
    dwt w mode (x.map φ) = .ok (a.map φ, d.map φ) := by
  obtain ⟨⟨a', d'⟩, h1, h2, h3⟩ := dwt_hom h (bankRel_refl w) (forall₂_fun.mpr rfl) _ hr
  rw [forall₂_fun] at h2 h3
  simp only at h2 h3
  rw [h1, h2, h3]

theorem idwt_map {w : Wavelet R} {mode : Mode} {a d : Option (List M')} {y : List M'}
    (hr : idwt w mode a d = .ok y) :
    idwt w mode (a.map (List.map φ)) (d.map (List.map φ)) = .ok (y.map φ) := by
  obtain ⟨y', h1, h2⟩ := idwt_hom h (bankRel_refl w) (oRel_fun.mpr rfl) (oRel_fun.mpr rfl) _ hr
  rw [h1, forall₂_fun.mp h2]

theorem wavedec_map {w : Wavelet R} {mode : Mode} {level : Option Int} {x : List M'} {cs : List (List M')}
    (hr : wavedec w mode level x = .ok cs) :
    wavedec w mode level (x.map φ) = .ok (cs.map (List.map φ)) := by
  obtain ⟨y', h1, h2⟩ := wavedec_hom h (bankRel_refl w) (forall₂_fun.mpr rfl) _ hr
  rw [h1, forall₂_forall₂_fun.mp h2]

theorem waverec_map {w : Wavelet R} {mode : Mode} {cs : List (Option (List M'))} {y : Option (List M')}
    (hr : waverec w mode cs = .ok y) :
    waverec w mode (cs.map (Option.map (List.map φ))) = .ok (y.map (List.map φ)) := by
  obtain ⟨y', h1, h2⟩ := waverec_hom h (bankRel_refl w) (forall₂_oRel_fun.mpr rfl) _ hr
  rw [h1, oRel_fun.mp h2]

end hom

theorem respects_re : Respects (Fl fl) (Fl fl) (fun (a : Fl fl) (b : CFl fl) => a = b.1) (fun a b => a = b) where
  zero := rfl
  add := by rintro _ _ _ _ rfl rfl; rfl
  sub := by rintro _ _ _ _ rfl rfl; rfl
  neg := by rintro _ _ rfl; rfl
  nsmul := by rintro _ _ _ rfl; rfl
  smul := by rintro _ _ _ _ rfl rfl; rfl

theorem respects_im : Respects (Fl fl) (Fl fl) (fun (a : Fl fl) (b : CFl fl) => a = b.2) (fun a b => a = b) where
  zero := rfl
  add := by rintro _ _ _ _ rfl rfl; rfl
  sub := by rintro _ _ _ _ rfl rfl; rfl
  neg := by rintro _ _ rfl; rfl
  nsmul := by rintro _ _ _ rfl; rfl
  smul := by rintro _ _ _ _ rfl rfl; rfl

theorem respects_scale {c : ℝ} (hc : ∀ t, fl (c * t) = c * fl t) :
    Respects (Fl fl) (Fl fl) (fun (a : Fl fl) (b : Fl fl) => a = b.scale c) (fun a b => a = b) where
  zero := by ext; simp [Fl.scale, Fl.val_zero]
  add := by
    rintro _ a _ b rfl rfl
    ext
    show fl (c * a.val + c * b.val) = c * fl (a.val + b.val)
    rw [← hc]; ring_nf
  sub := by
    rintro _ a _ b rfl rfl
    ext
    show fl (c * a.val - c * b.val) = c * fl (a.val - b.val)
    rw [← hc]; ring_nf
  neg := by
    rintro _ a rfl
    ext
    show -(c * a.val) = c * -a.val
    ring
  nsmul := by
    rintro k _ a rfl
    ext
    show fl (k * (c * a.val)) = c * fl (k * a.val)
    rw [← hc]; ring_nf
  smul := by
    rintro _ r _ a rfl rfl
    ext
    show fl (_ * (c * a.val)) = c * fl (_ * a.val)
    rw [← hc]; ring_nf

theorem respects_true {R R' M M' : Type} [Zero M] [Add M] [Neg M] [Sub M] [SMul ℕ M] [SMul R M]
    [Zero M'] [Add M'] [Neg M'] [Sub M'] [SMul ℕ M'] [SMul R' M'] :
    Respects R R' (fun (_ : M) (_ : M') => True) (fun _ _ => True) where
  zero := trivial
  add := fun _ _ => trivial
  sub := fun _ _ => trivial
  neg := fun _ => trivial
  nsmul := fun _ => fun _ => trivial
  smul := fun _ _ => trivial

theorem forall₂_true {α β : Type} {x : List α} {y : List β} :
    List.Forall₂ (fun _ _ => True) x y ↔ x.length = y.length := by
  rw [List.forall₂_iff_get]
  simp

end Pywt
