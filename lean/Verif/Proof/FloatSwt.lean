import Verif.Spec.FloatSwt
import Verif.Proof.Rounding
import Verif.Proof.Swt

/-!
# Rounding errors of `swt`

The filters of the deeper levels have zeros between their taps.  Some loops of the kernel add the products with these
zeros: they do not change the sum, which is a machine number.
-/

set_option linter.unusedSectionVars false
set_option autoImplicit false

namespace Pywt

open Finset Spec Sim

variable {fl : ℝ → ℝ} {u κ Ω : ℝ}

/-- The link in which only the taps of the analysis count; products with all other taps are 0. -/
noncomputable def Ctx.live (K : Ctx fl u κ Ω) (Kp : Keeps fl) (all : Finset ℕ) : Link (Fl fl) ℝ where
  X := K.link.X
  Y := K.link.Y
  T l p p' := (l ∈ K.all → K.link.T l p p') ∧ (l ∉ K.all → p.val = 0 ∧ p' = 0)
  S k A s s' := fl s.val = s.val ∧ K.link.S k (A ∩ K.all) s s'
  all := all
  kmax := K.kmax
  zero := ⟨Kp.zero, by rw [empty_inter]; exact K.link.zero⟩
  mono := by
    intro k k' A B s s' hA hB hk hk' h
    exact ⟨h.1, K.link.mono (inter_subset_inter_right hA) inter_subset_right hk hk' h.2⟩
  add := by
    intro k A l s s' p p' hl hl' hs hp
    by_cases h : l ∈ K.all
    · refine ⟨Kp.idem _, ?_⟩
      rw [insert_inter_of_mem h]
      exact K.link.add (fun hh => hl (mem_inter.mp hh).1) h hs.2 (hp.1 h)
    · obtain ⟨h1, h2⟩ := hp.2 h
      have e1 : s + p = s := by
        refine Fl.ext' ?_
        show fl (s.val + p.val) = s.val
        rw [h1, add_zero, hs.1]
      rw [e1, h2, add_zero, insert_inter_of_notMem h]
      exact hs
  merge := by
    intro k m A B s s' t t' hd hkm hs ht
    refine ⟨Kp.idem _, ?_⟩
    rw [union_inter_distrib_right]
    exact K.link.merge (hd.mono inter_subset_left inter_subset_left) hkm hs.2 ht.2
  neg := by
    intro l p p' h
    refine ⟨fun hl => K.link.neg (h.1 hl), fun hl => ?_⟩
    obtain ⟨h1, h2⟩ := h.2 hl
    refine ⟨?_, by rw [h2, neg_zero]⟩
    show -p.val = 0
    rw [h1, neg_zero]
  sample := K.link.sample

theorem Ctx.live_taps (K : Ctx fl u κ Ω) (Kp : Keeps fl) {all : Finset ℕ} {f : List ℝ}
    (hmem : ∀ l < f.length, l ∈ all) (hc : ∀ l a, l ∈ K.all → f[l]? = some a → K.c l = |a|)
    (hz : ∀ l a, l ∉ K.all → f[l]? = some a → a = 0) :
    Taps (K.live Kp all) 0 (f.map (Fl.mk (fl := fl))) f where
  len := by simp
  mem := by intro l hl; rw [Nat.zero_add]; exact hmem l hl
  mul := by
    intro l a a' y y' ha ha' hy
    rw [List.getElem?_map, ha'] at ha
    cases ha
    rw [Nat.zero_add]
    refine ⟨fun hl => ?_, fun hl => ?_⟩
    · have h := (FlNear.mul hy a').round K.rounds (by
        rw [← hc l a' hl ha']
        exact K.ht hl)
      show FlNear u (K.dy + 1) (K.c l * K.By + κ) (K.c l * K.Ye) (fl (a' * y.val)) (a' * y')
      rw [hc l a' hl ha']
      exact h
    · have e := hz l a' hl ha'
      subst e
      refine ⟨?_, by simp⟩
      show fl (0 * y.val) = 0
      rw [zero_mul, Kp.zero]

theorem eFilter_toFl (f : List ℝ) (level : ℕ) :
    eFilter (f.map (Fl.mk (fl := fl))) level = (eFilter f level).map (Fl.mk (fl := fl)) := by
  unfold eFilter
  rw [List.length_map]
  have h0 : List.replicate (f.length * 2 ^ (level - 1)) (0 : Fl fl) =
      (List.replicate (f.length * 2 ^ (level - 1)) (0 : ℝ)).map (Fl.mk (fl := fl)) := by
    rw [List.map_replicate]; rfl
  rw [h0]
  generalize List.replicate (f.length * 2 ^ (level - 1)) (0 : ℝ) = init
  generalize List.range f.length = is
  induction is generalizing init with
  | nil => rfl
  | cons i is ih =>
    rw [List.foldl_cons, List.foldl_cons, ← ih]
    congr 1
    rw [List.map_set]
    congr 1
    rw [List.getD_eq_getElem?_getD, List.getD_eq_getElem?_getD, List.getElem?_map]
    cases f[i]? <;> rfl

/-- The analysis for the filter with `s - 1` zeros after each tap. -/
noncomputable def swtCtx (H : Rounds fl u κ Ω) (f : List ℝ) (level dx : ℕ) (X e : ℝ) (hX : 0 ≤ X)
    (he : 0 ≤ e) (hov : (1 + u) ^ (dx + dwtDepth .periodization f.length) *
      (dwtBound .periodization f κ X + dwtBound .periodization f 0 e) ≤ Ω) : Ctx fl u κ Ω where
  rounds := H
  c l := |(eFilter f level).getD l 0|
  c_nonneg _ := abs_nonneg _
  all := (range f.length).image fun l => l * 2 ^ (level - 1)
  kmax := 0
  dx := dx
  Xb := X
  Xe := e
  dy := dx
  By := X
  Ye := e
  Xb_nonneg := hX
  Xe_nonneg := he
  hd := le_rfl
  hB := le_rfl
  he := le_rfl
  hs := by
    have hinj : Function.Injective fun l : ℕ => l * 2 ^ (level - 1) :=
      fun a b h => Nat.eq_of_mul_eq_mul_right (by positivity) h
    rw [card_image_of_injective _ hinj, card_range, sum_image (fun a _ b _ h => hinj h),
      sum_image (fun a _ b _ h => hinj h)]
    have hg : ∀ l, (eFilter f level).getD (l * 2 ^ (level - 1)) 0 = f.getD l 0 := by
      intro l
      rw [eFilter_getD, if_pos (Dvd.intro_left _ rfl), Nat.mul_div_cancel _ (by positivity)]
    simp only [hg, sum_add_distrib, ← sum_mul, sum_l1, card_range, sum_const, nsmul_eq_mul]
    unfold dwtBound dwtDepth at hov
    simp only [extBound, extDepth, reduceCtorEq, or_self, if_false, Nat.zero_add] at hov
    have h1 : dx + 1 + f.length + 0 = dx + (f.length + 1) := by omega
    rw [h1]
    refine le_trans (le_of_eq ?_) hov
    push_cast
    ring

/-- One filter of one level of `swt`. -/
theorem swtStep_near (H : Rounds fl u κ Ω) (Kp : Keeps fl) {f : List ℝ} {dx : ℕ} {X e : ℝ} (hX : 0 ≤ X)
    (he : 0 ≤ e) (hov : (1 + u) ^ (dx + dwtDepth .periodization f.length) *
      (dwtBound .periodization f κ X + dwtBound .periodization f 0 e) ≤ Ω) {x' : List (Fl fl)} {x : List ℝ}
    (hx : Accurate u dx X e x' x) (n level : ℕ) :
    PRel (Accurate u (dx + dwtDepth .periodization f.length) (dwtBound .periodization f κ X)
        (dwtBound .periodization f 0 e))
      (callC (swtStep (f.map (Fl.mk (fl := fl))) x' (zeros n) level)) (callC (swtStep f x (zeros n) level)) := by
  have hlen : x'.length = x.length := List.Forall₂.length_eq hx
  refine PRel.callC ?_
  unfold swtStep
  rw [hlen, show (zeros n : List (Fl fl)).length = (zeros n : List ℝ).length by simp [zeros]]
  refine Rel.ite (fun _ => Rel.pure .none) fun h1 => Rel.ite (fun _ => Rel.pure .none) fun _ =>
    Rel.ite (fun _ => Rel.pure .none) fun _ => Rel.ite (fun _ => ?_) fun _ => ?_
  · have hs : 1 ≤ 2 ^ (level - 1) := Nat.one_le_two_pow
    set K := swtCtx H f level dx X e hX he hov with hK
    have hinj : Function.Injective fun l : ℕ => l * 2 ^ (level - 1) :=
      fun a b h => Nat.eq_of_mul_eq_mul_right (by positivity) h
    have hKall : K.all = (range f.length).image fun l => l * 2 ^ (level - 1) := rfl
    have hsub : K.all ⊆ range (eFilter f level).length := by
      intro l hl
      rw [hKall, mem_image] at hl
      obtain ⟨m, hm, rfl⟩ := hl
      rw [mem_range, eFilter_length]
      exact Nat.mul_lt_mul_of_pos_right (mem_range.mp hm) (by positivity)
    have hT : Taps (K.live Kp (range (eFilter f level).length)) 0
        ((eFilter f level).map (Fl.mk (fl := fl))) (eFilter f level) := by
      refine K.live_taps Kp (fun l hl => mem_range.mpr hl) ?_ ?_
      · intro l a hl ha
        show |(eFilter f level).getD l 0| = |a|
        rw [List.getD_eq_getElem?_getD, ha]; rfl
      · intro l a hl ha
        have h2 : (eFilter f level).getD l 0 = a := by rw [List.getD_eq_getElem?_getD, ha]; rfl
        have h3 : l < (eFilter f level).length := (List.getElem?_eq_some_iff.mp ha).1
        rw [eFilter_length] at h3
        rw [← h2, eFilter_getD, if_neg]
        rintro ⟨m, rfl⟩
        refine hl ?_
        rw [hKall, mem_image]
        refine ⟨m, mem_range.mpr ?_, mul_comm _ _⟩
        rw [mul_comm] at h3
        exact Nat.lt_of_mul_lt_mul_right h3
    rw [eFilter_toFl]
    have hfl : ((eFilter f level).map (Fl.mk (fl := fl))).length = (eFilter f level).length := by simp
    simp only [hfl]
    have key := Rel.dsConvPer (fuel := kfuel x.length (eFilter f level).length) (step := 1) hs hT
      (x := x') (x' := x) hx (forall₂_zeros (zero_full _ hT) n)
    refine Rel.bind key fun a b hab => Rel.pure (.some ?_)
    refine hab.imp fun s s' hss => ?_
    have h := hss.2.2.2
    rw [inter_eq_right.mpr hsub, hKall, card_image_of_injective _ hinj, card_range] at h
    have hg : ∀ l, (eFilter f level).getD (l * 2 ^ (level - 1)) 0 = f.getD l 0 := by
      intro l
      rw [eFilter_getD, if_pos (Dvd.intro_left _ rfl), Nat.mul_div_cancel _ (by positivity)]
    refine FlNear.mono H.u_nonneg h ?_ (le_of_eq ?_) (le_of_eq ?_)
    · show dx + 1 + f.length + 0 ≤ _
      simp [dwtDepth, extDepth]
      omega
    · unfold Ctx.bound
      rw [sum_image (fun a _ b _ h => hinj h)]
      show ∑ l ∈ range f.length, (|(eFilter f level).getD (l * 2 ^ (level - 1)) 0| * X + 2 * κ) + _ = _
      simp only [hg]
      rw [sum_add_distrib, ← sum_mul, sum_l1, sum_const, card_range, nsmul_eq_mul]
      simp only [dwtBound, extBound, reduceCtorEq, or_self, if_false]
      push_cast
      ring
    · unfold Ctx.err
      rw [sum_image (fun a _ b _ h => hinj h)]
      show ∑ l ∈ range f.length, |(eFilter f level).getD (l * 2 ^ (level - 1)) 0| * e = _
      simp only [hg]
      rw [← sum_mul, sum_l1]
      simp only [dwtBound, extBound, reduceCtorEq, or_self, if_false]
      ring
  · have hT := decCtx_taps H .periodization f dx X e hX he hov
    rw [List.length_map]
    have key := Rel.dsConvPer (fuel := kfuel x.length f.length) (step := 1) (fstep := 1) le_rfl hT
      (x := x') (x' := x) hx (forall₂_zeros (zero_full _ hT) n)
    refine Rel.bind key fun a b hab => Rel.pure (.some ?_)
    exact hab.imp fun s s' hss => decCtx_S H .periodization f dx X e hX he hov hss

theorem swtLoop_near (H : Rounds fl u κ Ω) (Kp : Keeps fl) {w : Wavelet ℝ} (hw : w.Ok) {d : ℕ} {X e : ℝ} (hX : 0 ≤ X)
    (he : 0 ≤ e) (n : ℕ) (hfit : ∀ j < n, DwtFits u κ Ω .periodization w (d + j * dwtDepth .periodization w.dec_len)
      (decBound .periodization w κ X j) (decBound .periodization w 0 e j)) :
    ∀ m j i (x' : List (Fl fl)) (x : List ℝ) ret' ret, j + m = n →
      Accurate u (d + j * dwtDepth .periodization w.dec_len) (decBound .periodization w κ X j)
        (decBound .periodization w 0 e j) x' x →
      List.Forall₂ (fun p' p => Accurate u (d + n * dwtDepth .periodization w.dec_len)
          (decBound .periodization w κ X n) (decBound .periodization w 0 e n) p'.1 p.1 ∧
        Accurate u (d + n * dwtDepth .periodization w.dec_len)
          (decBound .periodization w κ X n) (decBound .periodization w 0 e n) p'.2 p.2) ret' ret →
      PRel (List.Forall₂ fun p' p => Accurate u (d + n * dwtDepth .periodization w.dec_len)
          (decBound .periodization w κ X n) (decBound .periodization w 0 e n) p'.1 p.1 ∧
        Accurate u (d + n * dwtDepth .periodization w.dec_len)
          (decBound .periodization w κ X n) (decBound .periodization w 0 e n) p'.2 p.2)
        (swtLoop (w.toFl fl) m i x' ret') (swtLoop w m i x ret) := by
  have hu := H.u_nonneg
  intro m
  induction m with
  | zero =>
    intro j i x' x ret' ret hj hx hret
    exact PRel.ok hret
  | succ m ih =>
    intro j i x' x ret' ret hj hx hret
    have hlen : x'.length = x.length := List.Forall₂.length_eq hx
    have hhi : w.dec_hi.length = w.dec_len := hw.2.2.1
    obtain ⟨-, hf1, hf2⟩ := hfit j (by omega)
    have hB := decBound_nonneg (mode := .periodization) (w := w) (κ := κ) hX j
    have hE := decBound_nonneg (mode := .periodization) (w := w) (κ := 0) he j
    have ha := swtStep_near (f := w.dec_lo) H Kp hB hE hf1 hx (swtBufferLength x.length) i
    have hd := swtStep_near (f := w.dec_hi) H Kp hB hE (by rw [hhi]; exact hf2) hx (swtBufferLength x.length) i
    rw [hhi] at hd
    have hdep : d + j * dwtDepth .periodization w.dec_len + dwtDepth .periodization w.dec_len =
        d + (j + 1) * dwtDepth .periodization w.dec_len := by ring
    unfold swtLoop
    rw [hlen]
    refine PRel.bind hd fun cD' cD hcD => PRel.bind ha fun cA' cA hcA => ?_
    have hcA1 : Accurate u (d + (j + 1) * dwtDepth .periodization w.dec_len) (decBound .periodization w κ X (j + 1))
        (decBound .periodization w 0 e (j + 1)) cA' cA := by
      rw [← hdep]
      exact hcA.imp fun a b h => FlNear.mono hu h le_rfl ((le_max_left _ _).trans (le_max_right _ _))
        ((le_max_left _ _).trans (le_max_right _ _))
    have hcD1 : Accurate u (d + (j + 1) * dwtDepth .periodization w.dec_len) (decBound .periodization w κ X (j + 1))
        (decBound .periodization w 0 e (j + 1)) cD' cD := by
      rw [← hdep]
      exact hcD.imp fun a b h => FlNear.mono hu h le_rfl ((le_max_right _ _).trans (le_max_right _ _))
        ((le_max_right _ _).trans (le_max_right _ _))
    have hup : d + (j + 1) * dwtDepth .periodization w.dec_len ≤ d + n * dwtDepth .periodization w.dec_len := by
      have : (j + 1) * dwtDepth .periodization w.dec_len ≤ n * dwtDepth .periodization w.dec_len :=
        Nat.mul_le_mul_right _ (by omega)
      omega
    refine ih (j + 1) (i + 1) cA' cA _ _ (by omega) hcA1 (List.rel_append hret (.cons ⟨?_, ?_⟩ .nil))
    · exact hcA1.imp fun a b h => FlNear.mono hu h hup (decBound_mono (by omega)) (decBound_mono (by omega))
    · exact hcD1.imp fun a b h => FlNear.mono hu h hup (decBound_mono (by omega)) (decBound_mono (by omega))

/-- `swt` with rounding. -/
theorem swt_near (H : Rounds fl u κ Ω) (Kp : Keeps fl) {w : Wavelet ℝ} (hw : w.Ok) {d : ℕ} {X e : ℝ} (hX : 0 ≤ X)
    (he : 0 ≤ e) {n : ℕ} (hfit : ∀ j < n, DwtFits u κ Ω .periodization w (d + j * dwtDepth .periodization w.dec_len)
      (decBound .periodization w κ X j) (decBound .periodization w 0 e j)) {start : ℤ} {trim : Bool}
    {x' : List (Fl fl)} {x : List ℝ} (hx : Accurate u d X e x' x) :
    PRel (SwtAccurate u (d + n * dwtDepth .periodization w.dec_len) (decBound .periodization w κ X n)
        (decBound .periodization w 0 e n))
      (swt (w.toFl fl) (some (n : ℤ)) start trim none x') (swt w (some (n : ℤ)) start trim none x) := by
  have hlen : x'.length = x.length := List.Forall₂.length_eq hx
  have hn : ¬ ((n : ℤ) < 0) := by omega
  simp only [swt, Wavelet.normed, swtC, if_neg hn, Py_pure, Py_bind_ok, Int.toNat_natCast, hlen]
  by_cases h0 : start < 0
  · rw [if_pos h0, if_pos h0]; exact PRel.throw
  rw [if_neg h0, if_neg h0]
  refine PRel.ite (fun _ => PRel.throw) fun _ => ?_
  refine PRel.ite (fun _ => PRel.throw) fun _ => ?_
  refine PRel.ite (fun _ => PRel.throw) fun _ => ?_
  refine PRel.ite (fun _ => PRel.throw) fun _ => ?_
  refine PRel.ite (fun _ => PRel.throw) fun _ => ?_
  refine PRel.ite (fun _ => PRel.throw) fun _ => ?_
  refine PRel.bind (swtLoop_near H Kp hw hX he n hfit n 0 _ x' x [] [] (by omega) (by
    simpa [decBound] using hx) .nil) fun r' r hr => ?_
  cases trim with
  | false =>
    refine PRel.ok ?_
    exact List.rel_reverse hr
  | true =>
    simp only [if_true]
    have hrev := List.rel_reverse hr
    rw [← List.head?_reverse, ← List.head?_reverse]
    cases hrev' : r.reverse with
    | nil => exact PRel.throw
    | cons p ps =>
      rw [hrev'] at hrev
      cases hrev'' : r'.reverse with
      | nil => rw [hrev''] at hrev; cases hrev
      | cons q qs =>
        rw [hrev''] at hrev
        cases hrev with
        | cons hp hps =>
          refine PRel.ok ?_
          show List.Forall₂ _ _ _
          rw [List.reverse_append, List.reverse_append, ← List.map_reverse, ← List.map_reverse, hrev', hrev'']
          refine .cons hp.1 (.cons hp.2 ?_)
          rw [List.forall₂_map_left_iff, List.forall₂_map_right_iff]
          exact hps.imp fun a b h => h.2

end Pywt
