import Verif.Proof.Near
import Verif.Proof.SimPy

/-!
# Rounding errors of the 1-D transforms
-/

set_option linter.unusedSectionVars false
set_option autoImplicit false

namespace Pywt

open Finset Spec Sim

variable {fl : ℝ → ℝ} {u κ Ω : ℝ}

theorem accurate_iff {n : ℕ} {B e : ℝ} {x' : List (Fl fl)} {x : List ℝ} :
    Accurate u n B e x' x ↔ List.Forall₂ (fun a b => FlNear u n B e a.val b) x' x := Iff.rfl

theorem sum_l1 (f : List ℝ) : ∑ l ∈ range f.length, |f.getD l 0| = l1 f := by
  unfold l1
  induction f with
  | nil => simp
  | cons a f ih =>
    rw [List.length_cons, sum_range_succ']
    simp only [List.getD_cons_succ, List.getD_cons_zero, List.map_cons, List.sum_cons]
    rw [ih, add_comm]

theorem l1_nonneg (f : List ℝ) : 0 ≤ l1 f := by
  rw [← sum_l1]; exact sum_nonneg fun _ _ => abs_nonneg _

theorem le_extBound {mode : Mode} {F : ℕ} {X : ℝ} (hκ : 0 ≤ κ) (hX : 0 ≤ X) :
    X ≤ extBound mode F κ X := by
  unfold extBound
  split
  · have hF : (0 : ℝ) ≤ F := Nat.cast_nonneg F
    have h1 := mul_nonneg hF hX
    have h2 := mul_nonneg hF hκ
    nlinarith
  · exact le_rfl

/-- Analysis of one decomposition filter. -/
noncomputable def decCtx (H : Rounds fl u κ Ω) (mode : Mode) (f : List ℝ) (dx : ℕ) (X e : ℝ) (hX : 0 ≤ X)
    (he : 0 ≤ e) (hov : (1 + u) ^ (dx + dwtDepth mode f.length) *
      (dwtBound mode f κ X + dwtBound mode f 0 e) ≤ Ω) : Ctx fl u κ Ω where
  rounds := H
  c l := |f.getD l 0|
  c_nonneg _ := abs_nonneg _
  all := range f.length
  kmax := 0
  dx := dx
  Xb := X
  Xe := e
  dy := dx + extDepth mode f.length
  By := extBound mode f.length κ X
  Ye := extBound mode f.length 0 e
  Xb_nonneg := hX
  Xe_nonneg := he
  hd := by omega
  hB := le_extBound H.κ_nonneg hX
  he := le_extBound le_rfl he
  hs := by
    simp only [sum_add_distrib, ← sum_mul, sum_l1, card_range, sum_const, nsmul_eq_mul]
    unfold dwtBound dwtDepth at hov
    have h1 : dx + extDepth mode f.length + 1 + f.length + 0 =
        dx + (extDepth mode f.length + f.length + 1) := by omega
    rw [h1]
    refine le_trans (le_of_eq ?_) hov
    push_cast
    ring

section dec

variable (H : Rounds fl u κ Ω) (mode : Mode) (f : List ℝ) (dx : ℕ) (X e : ℝ) (hX : 0 ≤ X)
    (he : 0 ≤ e) (hov : (1 + u) ^ (dx + dwtDepth mode f.length) *
      (dwtBound mode f κ X + dwtBound mode f 0 e) ≤ Ω)

theorem decCtx_S {s : Fl fl} {s' : ℝ}
    (h : (decCtx H mode f dx X e hX he hov).link.S 0 (range f.length) s s') :
    FlNear u (dx + dwtDepth mode f.length) (dwtBound mode f κ X) (dwtBound mode f 0 e) s.val s' := by
  have h := h.2.2
  rw [card_range] at h
  refine h.mono H.u_nonneg ?_ (le_of_eq ?_) (le_of_eq ?_)
  · show dx + extDepth mode f.length + 1 + f.length + 0 ≤ _
    unfold dwtDepth
    omega
  · unfold Ctx.bound
    show ∑ l ∈ range f.length, (|f.getD l 0| * extBound mode f.length κ X + 2 * κ) + _ = _
    rw [sum_add_distrib, ← sum_mul, sum_l1, sum_const, card_range, nsmul_eq_mul]
    unfold dwtBound
    push_cast
    ring
  · unfold Ctx.err
    show ∑ l ∈ range f.length, |f.getD l 0| * extBound mode f.length 0 e = _
    rw [← sum_mul, sum_l1]
    unfold dwtBound
    ring

theorem decCtx_taps :
    Taps (decCtx H mode f dx X e hX he hov).link 0 (f.map (Fl.mk (fl := fl))) f := by
  refine Ctx.taps _ (fun l hl => by simpa [decCtx] using hl) fun l a ha => ?_
  simp [decCtx, List.getD, ha]

theorem decCtx_edge (hf : 1 ≤ f.length)
    (hy : (1 + u) ^ (dx + extDepth mode f.length) *
      (extBound mode f.length κ X + extBound mode f.length 0 e) ≤ Ω)
    (hm : mode = .smooth ∨ mode = .antireflect) :
    Nonempty (Edge (decCtx H mode f dx X e hX he hov).link f.length) := by
  refine ⟨Ctx.edge _ hf ?_ ?_ ?_ hy⟩
  · show dx + f.length + 3 ≤ dx + extDepth mode f.length
    simp only [extDepth, if_pos hm]; omega
  · show _ ≤ extBound mode f.length κ X
    simp only [extBound, if_pos hm]
    exact le_rfl
  · show _ ≤ extBound mode f.length 0 e
    simp only [extBound, if_pos hm]
    simp [decCtx]

end dec

/-- `dwt` with rounding. -/
theorem dwt_near (H : Rounds fl u κ Ω) {w : Wavelet ℝ} (hw : w.Ok) {mode : Mode} {d : ℕ} {X e : ℝ}
    (hX : 0 ≤ X) (he : 0 ≤ e) (hfit : DwtFits u κ Ω mode w d X e) {x' : List (Fl fl)} {x : List ℝ}
    (hx : Accurate u d X e x' x) :
    PRel (fun r r' => Accurate u (d + dwtDepth mode w.dec_len) (dwtBound mode w.dec_lo κ X)
          (dwtBound mode w.dec_lo 0 e) r.1 r'.1 ∧
        Accurate u (d + dwtDepth mode w.dec_len) (dwtBound mode w.dec_hi κ X)
          (dwtBound mode w.dec_hi 0 e) r.2 r'.2)
      (dwt (w.toFl fl) mode x') (dwt w mode x) := by
  obtain ⟨h1, h2, h3, h4, h5⟩ := hw
  obtain ⟨f1, f2, f3⟩ := hfit
  unfold Wavelet.dec_len at *
  have f3' : (1 + u) ^ (d + dwtDepth mode w.dec_hi.length) *
      (dwtBound mode w.dec_hi κ X + dwtBound mode w.dec_hi 0 e) ≤ Ω := by
    rw [h3]; exact f3
  have f1' : (1 + u) ^ (d + extDepth mode w.dec_hi.length) *
      (extBound mode w.dec_hi.length κ X + extBound mode w.dec_hi.length 0 e) ≤ Ω := by
    rw [h3]; exact f1
  refine (dwt_rel (w := w.toFl fl) (w' := w) (decCtx_taps H mode w.dec_lo d X e hX he f2)
    (decCtx_taps H mode w.dec_hi d X e hX he f3') hx hx
    (fun hm => decCtx_edge H mode w.dec_lo d X e hX he f2 (by omega) f1 hm)
    (fun hm => decCtx_edge H mode w.dec_hi d X e hX he f3' (by omega) f1' hm)).mono fun r r' hr => ?_
  refine ⟨hr.1.imp fun a b h => decCtx_S H mode _ d X e hX he f2 h, hr.2.imp fun a b h => ?_⟩
  have := decCtx_S H mode _ d X e hX he f3' h
  rw [h3] at this
  exact this

/-- The magnitudes of the taps of the two synthesis filters. -/
noncomputable def recTap (w : Wavelet ℝ) (l : ℕ) : ℝ :=
  if l < w.rec_lo.length then |w.rec_lo.getD l 0| else |w.rec_hi.getD (l - w.rec_lo.length) 0|

theorem sum_recTap (w : Wavelet ℝ) :
    ∑ l ∈ range (w.rec_lo.length + w.rec_hi.length), recTap w l = l1 w.rec_lo + l1 w.rec_hi := by
  rw [sum_range_add]
  have h1 : ∑ l ∈ range w.rec_lo.length, recTap w l = l1 w.rec_lo := by
    rw [← sum_l1]
    exact sum_congr rfl fun l hl => if_pos (mem_range.mp hl)
  have h2 : ∑ l ∈ range w.rec_hi.length, recTap w (w.rec_lo.length + l) = l1 w.rec_hi := by
    rw [← sum_l1]
    refine sum_congr rfl fun l hl => ?_
    unfold recTap
    rw [if_neg (by omega), Nat.add_sub_cancel_left]
  rw [h1, h2]

/-- Analysis of the two synthesis filters. -/
noncomputable def recCtx (H : Rounds fl u κ Ω) (w : Wavelet ℝ) (dx : ℕ) (X e : ℝ) (hX : 0 ≤ X) (he : 0 ≤ e)
    (hov : IdwtFits u κ Ω w dx X e) : Ctx fl u κ Ω where
  rounds := H
  c l := recTap w l
  c_nonneg _ := by unfold recTap; split <;> exact abs_nonneg _
  all := range (w.rec_lo.length + w.rec_hi.length)
  kmax := 2
  dx := dx
  Xb := X
  Xe := e
  dy := dx
  By := X
  Ye := e
  Xb_nonneg := hX
  Xe_nonneg := he
  hd := le_rfl
  hB := le_rfl
  he := le_rfl
  hs := by
    simp only [sum_add_distrib, ← sum_mul, card_range, sum_const, nsmul_eq_mul, sum_recTap]
    unfold IdwtFits idwtBound idwtDepth at hov
    have h3 : dx + 1 + (w.rec_lo.length + w.rec_hi.length) + 2 =
        dx + (w.rec_lo.length + w.rec_hi.length + 3) := by omega
    rw [h3]
    refine le_trans (le_of_eq ?_) hov
    push_cast
    ring

theorem bothTaps_eq (F G : ℕ) : bothTaps F G = range (F + G) := by
  ext l
  simp only [bothTaps, fullTaps, empty_union, mem_union, mem_image, mem_range]
  constructor
  · rintro (⟨a, ha, rfl⟩ | ⟨a, ha, rfl⟩) <;> omega
  · intro h
    by_cases hl : l < F
    · exact .inl ⟨l, hl, by omega⟩
    · exact .inr ⟨l - F, by omega, by omega⟩

theorem recCtx_S (H : Rounds fl u κ Ω) (w : Wavelet ℝ) (dx : ℕ) (X e : ℝ) (hX : 0 ≤ X) (he : 0 ≤ e)
    (hov : IdwtFits u κ Ω w dx X e) {s : Fl fl} {s' : ℝ}
    (h : (recCtx H w dx X e hX he hov).link.S 2 (bothTaps w.rec_lo.length w.rec_hi.length) s s') :
    FlNear u (dx + idwtDepth w) (idwtBound w κ X) (idwtBound w 0 e) s.val s' := by
  have h := h.2.2
  rw [bothTaps_eq, card_range] at h
  refine h.mono H.u_nonneg ?_ (le_of_eq ?_) (le_of_eq ?_)
  · show dx + 1 + (w.rec_lo.length + w.rec_hi.length) + 2 ≤ _
    unfold idwtDepth
    omega
  · unfold Ctx.bound
    show ∑ l ∈ range (w.rec_lo.length + w.rec_hi.length), (recTap w l * X + 2 * κ) + _ = _
    rw [sum_add_distrib, ← sum_mul, sum_const, card_range, nsmul_eq_mul, sum_recTap]
    unfold idwtBound
    push_cast
    ring
  · unfold Ctx.err
    show ∑ l ∈ range (w.rec_lo.length + w.rec_hi.length), recTap w l * e = _
    rw [← sum_mul, sum_recTap]
    unfold idwtBound
    ring

theorem recCtx_ok (H : Rounds fl u κ Ω) (w : Wavelet ℝ) (dx : ℕ) (X e : ℝ) (hX : 0 ≤ X) (he : 0 ≤ e)
    (hov : IdwtFits u κ Ω w dx X e) : RecTaps (recCtx H w dx X e hX he hov).link (w.toFl fl) w where
  lo := by
    refine Ctx.taps _ (fun l hl => ?_) fun l a ha => ?_
    · simp only [recCtx, mem_range]; omega
    · obtain ⟨hl, -⟩ := List.getElem?_eq_some_iff.mp ha
      simp only [recCtx, recTap, Nat.zero_add, if_pos hl]
      simp [List.getD, ha]
  hi := by
    refine Ctx.taps _ (fun l hl => ?_) fun l a ha => ?_
    · simp only [recCtx, mem_range]; omega
    · simp only [recCtx, recTap]
      rw [if_neg (by omega), Nat.add_sub_cancel_left]
      simp [List.getD, ha]
  kmax := le_rfl

/-- `idwt` with rounding; `none` is `None`. -/
theorem idwt_near (H : Rounds fl u κ Ω) {w : Wavelet ℝ} {mode : Mode} {d : ℕ} {X e : ℝ}
    (hX : 0 ≤ X) (he : 0 ≤ e) (hfit : IdwtFits u κ Ω w d X e) {a' d' : Option (List (Fl fl))}
    {a dd : Option (List ℝ)}
    (ha : Option.Rel (Accurate u d X e) a' a) (hd : Option.Rel (Accurate u d X e) d' dd) :
    PRel (Accurate u (d + idwtDepth w) (idwtBound w κ X) (idwtBound w 0 e)) (idwt (w.toFl fl) mode a' d')
      (idwt w mode a dd) := by
  refine (idwt_rel (recCtx_ok H w d X e hX he hfit) (FlNear.refl H.u_nonneg _ (by
    show |(0 : ℝ)| ≤ X
    simpa using hX) he) ha hd).mono fun r r' hr => hr.imp fun a b h => recCtx_S H w d X e hX he hfit h

theorem decBound_nonneg {mode : Mode} {w : Wavelet ℝ} {X : ℝ} (hX : 0 ≤ X) (j : ℕ) :
    0 ≤ decBound mode w κ X j := by
  induction j with
  | zero => exact hX
  | succ j ih => exact ih.trans (le_max_left _ _)

theorem decBound_mono {mode : Mode} {w : Wavelet ℝ} {X : ℝ} {i j : ℕ} (h : i ≤ j) :
    decBound mode w κ X i ≤ decBound mode w κ X j := by
  induction j with
  | zero => rw [Nat.le_zero.mp h]
  | succ j ih =>
    rcases Nat.lt_or_ge j i with hij | hij
    · rw [show i = j + 1 by omega]
    · exact (ih hij).trans (le_max_left _ _)

theorem recBound_nonneg {w : Wavelet ℝ} {X : ℝ} (hX : 0 ≤ X) (j : ℕ) : 0 ≤ recBound w κ X j := by
  induction j with
  | zero => exact hX
  | succ j ih => exact ih.trans (le_max_left _ _)

theorem recBound_mono {w : Wavelet ℝ} {X : ℝ} {i j : ℕ} (h : i ≤ j) :
    recBound w κ X i ≤ recBound w κ X j := by
  induction j with
  | zero => rw [Nat.le_zero.mp h]
  | succ j ih =>
    rcases Nat.lt_or_ge j i with hij | hij
    · rw [show i = j + 1 by omega]
    · exact (ih hij).trans (le_max_left _ _)

/-- `wavedec` with rounding. -/
theorem wavedec_near (H : Rounds fl u κ Ω) {w : Wavelet ℝ} (hw : w.Ok) {mode : Mode} {d : ℕ} {X e : ℝ}
    (hX : 0 ≤ X) (he : 0 ≤ e) {x' : List (Fl fl)} {x : List ℝ} (hx : Accurate u d X e x' x)
    {level : Option Int} {n : ℕ} (hn : checkLevel [x.length] [w.dec_len] level = .ok n)
    (hfit : ∀ j < n, DwtFits u κ Ω mode w (d + j * dwtDepth mode w.dec_len) (decBound mode w κ X j)
      (decBound mode w 0 e j)) :
    PRel (List.Forall₂ (Accurate u (d + n * dwtDepth mode w.dec_len) (decBound mode w κ X n)
        (decBound mode w 0 e n)))
      (wavedec (w.toFl fl) mode level x') (wavedec w mode level x) := by
  have hu := H.u_nonneg
  refine wavedec_rel
    (X := fun j (a : Fl fl) (b : ℝ) => FlNear u (d + j * dwtDepth mode w.dec_len) (decBound mode w κ X j)
      (decBound mode w 0 e j) a.val b)
    (D := fun j (a : Fl fl) (b : ℝ) => FlNear u (d + (j + 1) * dwtDepth mode w.dec_len)
      (decBound mode w κ X (j + 1)) (decBound mode w 0 e (j + 1)) a.val b)
    (w := w.toFl fl) (w' := w) (by simp [Wavelet.dec_len, Wavelet.toFl])
    (by simpa [decBound] using accurate_iff.mp hx) hn ?_ _ (fun a b h => h) ?_
  · intro j hj y' y hy
    refine (dwt_near H hw (decBound_nonneg hX j) (decBound_nonneg he j) (hfit j hj) hy).mono
      fun r r' hr => ?_
    have hd : d + j * dwtDepth mode w.dec_len + dwtDepth mode w.dec_len =
        d + (j + 1) * dwtDepth mode w.dec_len := by ring
    rw [hd] at hr
    refine ⟨hr.1.imp fun a b h => FlNear.mono hu h le_rfl ?_ ?_, hr.2.imp fun a b h => FlNear.mono hu h le_rfl ?_ ?_⟩
    · exact (le_max_left _ _).trans (le_max_right _ _)
    · exact (le_max_left _ _).trans (le_max_right _ _)
    · exact (le_max_right _ _).trans (le_max_right _ _)
    · exact (le_max_right _ _).trans (le_max_right _ _)
  · intro j hj a b h
    refine FlNear.mono hu h ?_ (decBound_mono (by omega)) (decBound_mono (by omega))
    have : (j + 1) * dwtDepth mode w.dec_len ≤ n * dwtDepth mode w.dec_len :=
      Nat.mul_le_mul_right _ (by omega)
    omega

theorem orel_mono {P Q : Fl fl → ℝ → Prop} (h : ∀ a b, P a b → Q a b) {o : Option (List (Fl fl))}
    {o' : Option (List ℝ)} (ho : Option.Rel (List.Forall₂ P) o o') :
    Option.Rel (List.Forall₂ Q) o o' := by
  cases ho with
  | none => exact .none
  | some ho => exact .some (ho.imp h)

/-- `waverec` with rounding. -/
theorem waverec_near (H : Rounds fl u κ Ω) {w : Wavelet ℝ} {mode : Mode} {d : ℕ} {X e : ℝ}
    (hX : 0 ≤ X) (he : 0 ≤ e) {cs' : List (Option (List (Fl fl)))} {cs : List (Option (List ℝ))}
    (hcs : List.Forall₂ (Option.Rel (Accurate u d X e)) cs' cs)
    (hfit : ∀ j < cs.length - 1, IdwtFits u κ Ω w (d + j * idwtDepth w) (recBound w κ X j)
      (recBound w 0 e j)) :
    PRel (Option.Rel (Accurate u (d + (cs.length - 1) * idwtDepth w) (recBound w κ X (cs.length - 1))
        (recBound w 0 e (cs.length - 1))))
      (waverec (w.toFl fl) mode cs') (waverec w mode cs) := by
  have hu := H.u_nonneg
  refine waverec_rel
    (X := fun j (a : Fl fl) (b : ℝ) => FlNear u (d + j * idwtDepth w) (recBound w κ X j)
      (recBound w 0 e j) a.val b)
    (w := w.toFl fl) (w' := w) (by simp only [Nat.zero_mul, Nat.add_zero, recBound]; exact hcs) ?_ ?_
  · intro j hj a b h
    exact FlNear.mono hu h (by omega) (recBound_mono (Nat.zero_le _)) (recBound_mono (Nat.zero_le _))
  · intro j hj a a' c c' ha hc
    refine (idwt_near H (recBound_nonneg hX j) (recBound_nonneg he j) (hfit j hj) ha hc).mono
      fun r r' hr => ?_
    have hd : d + j * idwtDepth w + idwtDepth w = d + (j + 1) * idwtDepth w := by ring
    rw [hd] at hr
    exact hr.imp fun a b h => FlNear.mono hu h le_rfl (le_max_right _ _) (le_max_right _ _)

/-- The bound of `n` roundings in the usual form. -/
theorem gamma_le (hu : 0 ≤ u) {n : ℕ} (hn : n * u < 1) : (1 + u) ^ n - 1 ≤ n * u / (1 - n * u) := by
  have h1 : 0 < 1 - n * u := by linarith
  rw [le_div_iff₀ h1]
  have h2 : (1 + u) ^ n * (1 - n * u) ≤ 1 := by
    induction n with
    | zero => simp
    | succ n ih =>
      push_cast at hn h1 ⊢
      have h3 : (n : ℝ) * u < 1 := by linarith
      have h4 := ih h3 (by linarith)
      have h5 : (1 + u) * (1 - (n + 1) * u) ≤ 1 - n * u := by
        have : (0 : ℝ) ≤ n := Nat.cast_nonneg n
        nlinarith [mul_nonneg hu hu, mul_nonneg this (mul_nonneg hu hu)]
      have h6 : 0 ≤ (1 + u) ^ n := by positivity
      calc (1 + u) ^ (n + 1) * (1 - (n + 1) * u) = (1 + u) ^ n * ((1 + u) * (1 - (n + 1) * u)) := by ring
        _ ≤ (1 + u) ^ n * (1 - n * u) := mul_le_mul_of_nonneg_left h5 h6
        _ ≤ 1 := h4
  linarith

end Pywt
