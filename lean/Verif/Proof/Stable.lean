import Verif.Props.Moments
import Verif.Props.Float
import Verif.Spec.Edit

/-!
# Proofs for C63: stability, from the rounding analysis with exact arithmetic
-/

namespace Pywt

open Finset Spec Sim

set_option autoImplicit false
set_option linter.unusedSectionVars false

theorem rounds_id (Ω : ℝ) : Rounds id 0 0 Ω := ⟨le_rfl, le_rfl, fun t _ => by simp⟩

theorem respects_id : Respects ℝ (Fl id) (fun (a : ℝ) (b : Fl id) => a = b.val) (fun (a : ℝ) (b : Fl id) => a = b.val) where
  zero := rfl
  add := by rintro _ _ _ _ rfl rfl; rfl
  sub := by rintro _ _ _ _ rfl rfl; rfl
  neg := by rintro _ _ rfl; rfl
  nsmul := by rintro k _ _ rfl; exact nsmul_eq_mul _ _
  smul := by rintro _ _ _ _ rfl rfl; rfl

theorem bankRel_id (w : Wavelet ℝ) : BankRel (fun (a : ℝ) (b : Fl id) => a = b.val) w (w.toFl id) := by
  have : ∀ l : List ℝ, List.Forall₂ (fun (a : ℝ) (b : Fl id) => a = b.val) l (l.map Fl.mk) := fun l => by
    rw [List.forall₂_map_right_iff]
    exact List.forall₂_same.mpr fun _ _ => rfl
  exact ⟨this _, this _, this _, this _⟩

theorem exists_bound (n : ℕ) (f : ℕ → ℝ) : ∃ Ω, ∀ j < n, f j ≤ Ω := by
  induction n with
  | zero => exact ⟨0, fun j hj => absurd hj (by omega)⟩
  | succ n ih =>
    obtain ⟨Ω, h⟩ := ih
    refine ⟨max Ω (f n), fun j hj => ?_⟩
    rcases Nat.lt_succ_iff_lt_or_eq.mp hj with h1 | rfl
    · exact (h j h1).trans (le_max_left _ _)
    · exact le_max_right _ _

theorem exists_max (x : List ℝ) : ∃ B, 0 ≤ B ∧ ∀ v ∈ x, |v| ≤ B := by
  induction x with
  | nil => exact ⟨0, le_rfl, by simp⟩
  | cons a x ih =>
    obtain ⟨B, h0, h⟩ := ih
    refine ⟨max B |a|, h0.trans (le_max_left _ _), fun v hv => ?_⟩
    rcases List.mem_cons.mp hv with rfl | h1
    · exact le_max_right _ _
    · exact (h v h1).trans (le_max_left _ _)

theorem accurate_of_within {e B : ℝ} (he : 0 ≤ e) {x' x : List ℝ} (h : Within e x' x) (hB : ∀ v ∈ x, |v| ≤ B) :
    Accurate (fl := id) 0 0 B e (x'.map Fl.mk) x := by
  unfold Accurate
  rw [List.forall₂_map_left_iff]
  induction h with
  | nil => exact .nil
  | cons h1 _ ih =>
    refine .cons ⟨hB _ (by simp), he, ?_⟩ (ih fun v hv => hB v (by simp [hv]))
    simpa using h1

theorem within_of_accurate {n : ℕ} {e B : ℝ} {x x'' : List ℝ} {x' : List (Fl id)} (h : Accurate 0 n B e x' x)
    (h' : List.Forall₂ (fun (a : ℝ) (b : Fl id) => a = b.val) x'' x') : Within e x'' x := by
  have e1 : x'' = x'.map Fl.val := (forall₂_fun (φ := Fl.val)).mp h'
  unfold Within
  rw [e1, List.forall₂_map_left_iff]
  refine h.imp fun a b hab => ?_
  have := hab.2.2
  simpa using this

theorem within_mono {e e' : ℝ} (hee : e ≤ e') {x' x : List ℝ} (h : Within e x' x) : Within e' x' x :=
  h.imp fun _ _ hab => hab.trans hee

theorem decGain_one {mode : Mode} {w : Wavelet ℝ} : 1 ≤ decGain mode w := le_max_left _ _

theorem dwtBound_gain {mode : Mode} {w : Wavelet ℝ} {f : List ℝ} (hf : f = w.dec_lo ∨ f = w.dec_hi)
    (hl : f.length = w.dec_len) {e : ℝ} (he : 0 ≤ e) : dwtBound mode f 0 e ≤ decGain mode w * e := by
  have h1 : l1 f ≤ max (l1 w.dec_lo) (l1 w.dec_hi) := by
    rcases hf with rfl | rfl
    · exact le_max_left _ _
    · exact le_max_right _ _
  have e1 : dwtBound mode f 0 e =
      l1 f * (if mode = .smooth ∨ mode = .antireflect then 2 * (w.dec_len : ℝ) + 1 else 1) * e := by
    unfold dwtBound extBound
    rw [hl]
    split_ifs <;> ring
  rw [e1]
  refine mul_le_mul_of_nonneg_right ?_ he
  refine le_trans ?_ (le_max_right _ _)
  refine mul_le_mul_of_nonneg_right h1 ?_
  split_ifs <;> positivity

theorem decBound_gain {mode : Mode} {w : Wavelet ℝ} (hw : w.Ok) {e : ℝ} (he : 0 ≤ e) (n : ℕ) :
    0 ≤ decBound mode w 0 e n ∧ decBound mode w 0 e n ≤ decGain mode w ^ n * e := by
  have hg := decGain_one (mode := mode) (w := w)
  induction n with
  | zero => exact ⟨he, by simp [decBound]⟩
  | succ n ih =>
    obtain ⟨i0, i1⟩ := ih
    have hmono : decGain mode w * decBound mode w 0 e n ≤ decGain mode w ^ (n + 1) * e := by
      rw [pow_succ, mul_comm (decGain mode w ^ n), mul_assoc]
      exact mul_le_mul_of_nonneg_left i1 (by linarith)
    refine ⟨i0.trans (le_max_left _ _), max_le ?_ (max_le ?_ ?_)⟩
    · exact le_trans (le_mul_of_one_le_left i0 hg) hmono
    · exact (dwtBound_gain (Or.inl rfl) rfl i0).trans hmono
    · exact (dwtBound_gain (Or.inr rfl) hw.2.2.1 i0).trans hmono

theorem recBound_gain {w : Wavelet ℝ} {e : ℝ} (he : 0 ≤ e) (n : ℕ) :
    0 ≤ recBound w 0 e n ∧ recBound w 0 e n ≤ recGain w ^ n * e := by
  have hg : 1 ≤ recGain w := le_max_left _ _
  induction n with
  | zero => exact ⟨he, by simp [recBound]⟩
  | succ n ih =>
    obtain ⟨i0, i1⟩ := ih
    have hmono : recGain w * recBound w 0 e n ≤ recGain w ^ (n + 1) * e := by
      rw [pow_succ, mul_comm (recGain w ^ n), mul_assoc]
      exact mul_le_mul_of_nonneg_left i1 (by linarith)
    refine ⟨i0.trans (le_max_left _ _), max_le ?_ ?_⟩
    · exact le_trans (le_mul_of_one_le_left i0 hg) hmono
    · refine le_trans ?_ hmono
      have : idwtBound w 0 (recBound w 0 e n) = (l1 w.rec_lo + l1 w.rec_hi) * recBound w 0 e n := by
        unfold idwtBound
        ring
      rw [this]
      exact mul_le_mul_of_nonneg_right (le_max_right _ _) i0

/-- The level that `wavedec` settles on. -/
theorem wavedec_level {w : Wavelet ℝ} (hw : w.Ok) {mode : Mode} {level : Option ℤ} {x : List ℝ} {cs : List (List ℝ)}
    (h : wavedec w mode level x = .ok cs) : ∃ n, checkLevel [x.length] [w.dec_len] level = .ok n ∧ cs.length = n + 1 := by
  cases hcl : checkLevel [x.length] [w.dec_len] level with
  | error e =>
    unfold wavedec at h
    rw [hcl, Py_bind_error] at h
    cases h
  | ok n =>
    refine ⟨n, rfl, ?_⟩
    have h2 : wavedec w mode (some (n : ℤ)) x = .ok cs := by
      rw [← h]
      unfold wavedec
      rw [hcl, checkLevel_one (show 2 ≤ w.dec_len from hw.1)]
      simp only
      rw [if_neg (by omega), Int.toNat_natCast]
    rw [(wavedec_cascade hw h2).2]
    simp [cascade]

theorem wavedec_stable {w : Wavelet ℝ} (hw : w.Ok) {mode : Mode} {level : Option ℤ} {x x' : List ℝ}
    {cs : List (List ℝ)} {e : ℝ} (he : 0 ≤ e) (hx : Within e x' x) (h : wavedec w mode level x = .ok cs) :
    ∃ cs', wavedec w mode level x' = .ok cs' ∧
      List.Forall₂ (Within (decGain mode w ^ (cs.length - 1) * e)) cs' cs := by
  obtain ⟨n, hn, hlen⟩ := wavedec_level hw h
  obtain ⟨B, hB0, hB⟩ := exists_max x
  obtain ⟨Ω, hΩ⟩ := exists_bound n fun j => max
    ((1 + (0 : ℝ)) ^ (0 + j * dwtDepth mode w.dec_len + extDepth mode w.dec_len) *
      (extBound mode w.dec_len 0 (decBound mode w 0 B j) + extBound mode w.dec_len 0 (decBound mode w 0 e j)))
    (max ((1 + (0 : ℝ)) ^ (0 + j * dwtDepth mode w.dec_len + dwtDepth mode w.dec_len) *
      (dwtBound mode w.dec_lo 0 (decBound mode w 0 B j) + dwtBound mode w.dec_lo 0 (decBound mode w 0 e j)))
    ((1 + (0 : ℝ)) ^ (0 + j * dwtDepth mode w.dec_len + dwtDepth mode w.dec_len) *
      (dwtBound mode w.dec_hi 0 (decBound mode w 0 B j) + dwtBound mode w.dec_hi 0 (decBound mode w 0 e j))))
  obtain ⟨cs1, h1, h2⟩ := wavedec_near (rounds_id Ω) hw hB0 he (accurate_of_within he hx hB) hn
    (fun j hj => ⟨(le_max_left _ _).trans (hΩ j hj),
      ((le_max_left _ _).trans (le_max_right _ _)).trans (hΩ j hj),
      ((le_max_right _ _).trans (le_max_right _ _)).trans (hΩ j hj)⟩) cs h
  obtain ⟨cs2, h3, h4⟩ := wavedec_hom respects_id (bankRel_id w)
    (x := x') (x' := x'.map Fl.mk) (by
      rw [List.forall₂_map_right_iff]
      exact List.forall₂_same.mpr fun _ _ => rfl) cs1 h1
  refine ⟨cs2, h3, ?_⟩
  rw [hlen, Nat.add_sub_cancel]
  clear h1 h3 h hlen
  induction h4 generalizing cs with
  | nil => cases h2; exact .nil
  | cons a1 _ ih =>
    cases h2 with
    | cons b1 b2 => exact .cons (within_mono (decBound_gain hw he n).2 (within_of_accurate b1 a1)) (ih b2)

theorem exists_max_opt (cs : List (Option (List ℝ))) :
    ∃ B, 0 ≤ B ∧ ∀ c, some c ∈ cs → ∀ v ∈ c, |v| ≤ B := by
  obtain ⟨B, h0, h⟩ := exists_max (cs.filterMap id).flatten
  refine ⟨B, h0, fun c hc v hv => h v (List.mem_flatten.mpr ⟨c, ?_, hv⟩)⟩
  exact List.mem_filterMap.mpr ⟨some c, hc, rfl⟩

theorem waverec_stable {w : Wavelet ℝ} {mode : Mode} {cs cs' : List (Option (List ℝ))} {e : ℝ} (he : 0 ≤ e)
    (hcs : List.Forall₂ (Option.Rel (Within e)) cs' cs) {y : Option (List ℝ)} (h : waverec w mode cs = .ok y) :
    ∃ y', waverec w mode cs' = .ok y' ∧ Option.Rel (Within (recGain w ^ (cs.length - 1) * e)) y' y := by
  obtain ⟨B, hB0, hB⟩ := exists_max_opt cs
  obtain ⟨Ω, hΩ⟩ := exists_bound (cs.length - 1) fun j =>
    (1 + (0 : ℝ)) ^ (0 + j * idwtDepth w + idwtDepth w) *
      (idwtBound w 0 (recBound w 0 B j) + idwtBound w 0 (recBound w 0 e j))
  have hacc : List.Forall₂ (Option.Rel (Accurate (fl := id) 0 0 B e)) (cs'.map (Option.map (List.map Fl.mk))) cs := by
    rw [List.forall₂_map_left_iff]
    clear hΩ h
    induction hcs with
    | nil => exact .nil
    | cons a _ ih =>
      refine .cons ?_ (ih fun c hc => hB c (by simp [hc]))
      cases a with
      | none => exact .none
      | some a => exact .some (accurate_of_within he a (hB _ (by simp)))
  obtain ⟨y1, h1, h2⟩ := waverec_near (rounds_id Ω) hB0 he hacc (fun j hj => hΩ j hj) y h
  obtain ⟨y2, h3, h4⟩ := waverec_hom respects_id (bankRel_id w) (cs := cs')
    (cs' := cs'.map (Option.map (List.map Fl.mk))) (by
      rw [List.forall₂_map_right_iff]
      refine List.forall₂_same.mpr fun c _ => ?_
      cases c with
      | none => exact .none
      | some c =>
        refine .some ?_
        rw [List.forall₂_map_right_iff]
        exact List.forall₂_same.mpr fun _ _ => rfl) y1 h1
  refine ⟨y2, h3, ?_⟩
  cases h4 with
  | none => cases h2; exact .none
  | some a =>
    cases h2 with
    | some b => exact .some (within_mono (recBound_gain he _).2 (within_of_accurate b a))

end Pywt
