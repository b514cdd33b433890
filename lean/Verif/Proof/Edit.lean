import Verif.Props.DwtIdwt
import Verif.Props.Moments
import Verif.Props.Threshold
import Verif.Props.Float
import Verif.Proof.Fs
import Verif.Spec.Edit

/-!
# Proofs for C63
-/

namespace Pywt

open Finset Spec

set_option autoImplicit false
set_option linter.unusedSectionVars false

section ring

variable {R : Type} [CommRing R]

theorem dist2_eq_energy {x y : List R} : dist2 x y = energy (List.zipWith (fun a b => a - b) x y) := by
  unfold dist2 energy
  rw [List.map_zipWith]

theorem dist2_pairs (l : List (R × R)) :
    dist2 (l.map (LinearMap.fst R R R)) (l.map (LinearMap.snd R R R)) =
      energy (l.map (LinearMap.fst R R R - LinearMap.snd R R R)) := by
  unfold dist2 energy
  rw [List.zipWith_map, List.zipWith_self, List.map_map]
  rfl

theorem zip_map_fst' {x y : List R} (h : y.length = x.length) : (y.zip x).map (LinearMap.fst R R R) = y := by
  have : (y.zip x).map Prod.fst = y := List.map_fst_zip (by omega)
  exact this

theorem zip_map_snd' {x y : List R} (h : y.length = x.length) : (y.zip x).map (LinearMap.snd R R R) = x := by
  have : (y.zip x).map Prod.snd = x := List.map_snd_zip (by omega)
  exact this

/-- `wavedec` preserves squared distances. -/
theorem wavedec_dist {w : Wavelet R} (h : OrthogonalBank w) {l : ℕ} {x y : List R} {cs es : List (List R)}
    (hl : y.length = x.length) (hx : 2 ^ l ∣ x.length) (hr : wavedec w .periodization (some (l : ℤ)) x = .ok cs)
    (hy : wavedec w .periodization (some (l : ℤ)) y = .ok es) : dist2s es cs = dist2 y x := by
  obtain ⟨hok, rfl⟩ := wavedec_cascade h.1 hr
  obtain ⟨-, rfl⟩ := wavedec_cascade h.1 hy
  set z := (y.zip x).map (LinearMap.fst R R R - LinearMap.snd R R R) with hz
  have hzl : z.length = x.length := by simp [z, hl]
  have hzr : wavedec w .periodization (some (l : ℤ)) z =
      .ok (cascade .periodization w.dec_lo w.dec_hi l z) := by
    rw [C09_wavedec_explicit_level h.1, if_neg (by omega), Int.toNat_natCast, if_pos (hzl ▸ hok)]
  have he := C17_wavedec_energy h (hzl ▸ hx) hzr
  rw [hz, cascade_map, List.map_map, ← dist2_pairs, zip_map_fst' hl, zip_map_snd' hl] at he
  rw [← he]
  have e1 : cascade .periodization w.dec_lo w.dec_hi l y =
      (cascade .periodization w.dec_lo w.dec_hi l (y.zip x)).map fun c => c.map (LinearMap.fst R R R) := by
    rw [← cascade_map, zip_map_fst' hl]
  have e2 : cascade .periodization w.dec_lo w.dec_hi l x =
      (cascade .periodization w.dec_lo w.dec_hi l (y.zip x)).map fun c => c.map (LinearMap.snd R R R) := by
    rw [← cascade_map, zip_map_snd' hl]
  unfold dist2s
  rw [e1, e2, List.zipWith_map, List.zipWith_self]
  congr 1
  exact List.map_congr_left fun c _ => dist2_pairs c

theorem doubling_of_lens {M : Type} : ∀ {L : ℕ} {ds ds' : List (List M)}, ds'.map List.length = ds.map List.length →
    DoublingLengths L ds → DoublingLengths L ds'
  | _, [], [], _, _ => trivial
  | L, d :: ds, d' :: ds', h, hd => by
      simp only [List.map_cons, List.cons.injEq] at h
      exact ⟨h.1.trans hd.1, doubling_of_lens h.2 hd.2⟩

theorem approxLen_per_div {F N : ℕ} : ∀ {k : ℕ}, 2 ^ k ∣ N → approxLen .periodization F N k = N / 2 ^ k
  | 0, _ => by simp [approxLen]
  | k + 1, h => by
      obtain ⟨m, rfl⟩ := h
      have ih := approxLen_per_div (F := F) (k := k) (Dvd.intro (2 * m) (by rw [pow_succ]; ring) : 2 ^ k ∣ 2 ^ (k + 1) * m)
      rw [approxLen_succ'', ih, Nat.mul_div_cancel_left _ (by positivity), pow_succ, mul_assoc,
        Nat.mul_div_cancel_left _ (by positivity)]
      simp only [coeffLen, if_true]
      omega

theorem doubling_cascade {w : Wavelet R} (hw : w.Ok) {M : Type} [AddCommGroup M] [Module R M] {x : List M} :
    ∀ {k : ℕ}, 2 ^ k ∣ x.length → DoublingLengths (x.length / 2 ^ k)
      ((List.range k).map fun j => detail .periodization w.dec_lo w.dec_hi j x).reverse
  | 0, _ => by trivial
  | k + 1, h => by
      have hk : 2 ^ k ∣ x.length := dvd_trans (pow_dvd_pow 2 (by omega)) h
      have ih := doubling_cascade hw hk
      have h2 : 2 * (x.length / 2 ^ (k + 1)) = x.length / 2 ^ k := by
        obtain ⟨m, hm⟩ := h
        rw [hm, Nat.mul_div_cancel_left _ (by positivity), pow_succ, mul_assoc,
          Nat.mul_div_cancel_left _ (by positivity)]
      rw [List.range_succ, List.map_append, List.reverse_append]
      refine ⟨?_, by rw [h2]; exact ih⟩
      rw [← approxLen_per_div (F := w.dec_len) h, approxLen_succ'']
      unfold detail
      rw [analysis_length, approx_length]
      have : w.dec_hi.length = w.dec_len := hw.2.2.1
      rw [this]
      rfl

/-- Coefficients of the lengths of those of `x` are those of some signal of the length of `x`. -/
theorem waverec_edited {w : Wavelet R} (h : OrthogonalBank w) {l : ℕ} {x : List R} {cs cs' : List (List R)}
    (hx0 : x ≠ []) (hx : 2 ^ l ∣ x.length) (hr : wavedec w .periodization (some (l : ℤ)) x = .ok cs)
    (hl : cs'.map List.length = cs.map List.length) :
    ∃ y, waverec w .periodization (cs'.map some) = .ok (some y) ∧ y.length = x.length ∧
      wavedec w .periodization (some (l : ℤ)) y = .ok cs' := by
  obtain ⟨hok, rfl⟩ := wavedec_cascade h.1 hr
  have hx1 : 0 < x.length := List.length_pos_of_ne_nil hx0
  cases cs' with
  | nil => simp [cascade] at hl
  | cons a ds =>
    simp only [cascade, List.map_cons, List.cons.injEq] at hl
    have hF : w.dec_lo.length = w.dec_len := rfl
    have ha : a.length = x.length / 2 ^ l := by
      rw [hl.1, approx_length, hF, approxLen_per_div hx]
    have hn : ds.length = l := by
      have := congrArg List.length hl.2
      simpa using this
    have hd := doubling_of_lens hl.2 (doubling_cascade h.1 hx)
    rw [← ha] at hd
    have hmul : 2 ^ l * a.length = x.length := by rw [ha, Nat.mul_div_cancel' hx]
    obtain ⟨y, y1, y2, y3⟩ := C54_wavedec_waverec h.1 h.2.2.2 (a := a) (ds := ds)
      (Nat.pos_of_ne_zero fun h0 => by rw [h0] at hmul; omega) hd
    rw [hn] at y2 y3
    exact ⟨y, y1, y2.trans hmul, y3⟩

end ring

section threshold

variable {K : Type} [Field K] [LinearOrder K] [IsStrictOrderedRing K]

theorem thresholded_mapCells {f : K → Cell K} {c c' : List K}
    (h : (pure ((vec1 c).mapCells f) : Py _) = .ok (vec1 (c'.map Cell.num))) :
    List.Forall₂ (fun v v' => f v = .num v') c c' := by
  have h1 := congrArg Arr.data (Except.ok.inj h)
  change c.map f = c'.map Cell.num at h1
  rw [← List.forall₂_eq_eq_eq, List.forall₂_map_left_iff, List.forall₂_map_right_iff] at h1
  exact h1

theorem thresholded_hard {t : K} {c c' : List K} (h : Thresholded t "hard" c c') :
    List.Forall₂ (fun v v' => v' = if |v| < t then 0 else v) c c' := by
  refine (thresholded_mapCells h).imp fun v v' hv => ?_
  have hv : (if |v| < t then Cell.num 0 else Cell.num v) = Cell.num v' := hv
  by_cases hc : |v| < t
  · rw [if_pos hc] at hv ⊢
    exact (Cell.num.inj hv).symm
  · rw [if_neg hc] at hv ⊢
    exact (Cell.num.inj hv).symm

theorem thresholded_shrink {factor : K → K → Flt K} {t : K} {c c' : List K}
    (h : shrink realDtype factor t 0 (vec1 c) = .ok (vec1 (c'.map Cell.num))) :
    List.Forall₂ (fun v v' => (factor t |v|).scale v = Cell.num v') c c' := by
  unfold shrink at h
  rw [if_neg (by simp [vec1, Arr.ndim]), if_pos rfl] at h
  exact thresholded_mapCells h

theorem soft_scale {t v v' : K} (ht : 0 < t) (h : (softFactor t |v|).scale v = Cell.num v') :
    v' = max (v - t) 0 + min (v + t) 0 := by
  by_cases hv : v = 0
  · subst hv
    have : v' = 0 := by
      simp [softFactor, Flt.div, ht, Flt.oneSub, Flt.clip0, Flt.scale] at h
      exact h.symm
    rw [this, max_eq_right (by linarith), min_eq_right (by linarith), add_zero]
  · have hp : 0 < |v| := abs_pos.mpr hv
    have : v' = max (1 - t / |v|) 0 * v := by
      simp [softFactor, Flt.div, hv, Flt.oneSub, Flt.clip0, Flt.scale] at h
      exact h.symm
    rw [this]
    rcases lt_or_gt_of_ne hv with hn | hn
    · rw [abs_of_neg hn] at *
      rw [max_eq_right (show v - t ≤ 0 by linarith)]
      rcases le_total (v + t) 0 with h0 | h0
      · rw [min_eq_left h0, max_eq_left]
        · field_simp
          ring
        · rw [sub_nonneg, div_le_one hp]; linarith
      · rw [min_eq_right h0, max_eq_right]
        · ring
        · rw [sub_nonpos, one_le_div hp]; linarith
    · rw [abs_of_pos hn] at *
      rw [min_eq_right (show 0 ≤ v + t by linarith)]
      rcases le_total 0 (v - t) with h0 | h0
      · rw [max_eq_left h0, max_eq_left]
        · field_simp
          ring
        · rw [sub_nonneg, div_le_one hp]; linarith
      · rw [max_eq_right h0, max_eq_right]
        · ring
        · rw [sub_nonpos, one_le_div hp]; linarith

theorem shrink_by {t v c : K} (h0 : 0 ≤ c) (h1 : c ≤ 1) (h : (1 - c) * |v| ≤ t) :
    |c * v - v| ≤ t ∧ |c * v| ≤ |v| := by
  refine ⟨?_, ?_⟩
  · rw [show c * v - v = -((1 - c) * v) by ring, abs_neg, abs_mul, abs_of_nonneg (by linarith)]
    exact h
  · rw [abs_mul, abs_of_nonneg h0]
    exact mul_le_of_le_one_left (abs_nonneg _) h1

theorem clip_factor {t v r : K} (hr : 0 ≤ r) (h : min r 1 * |v| ≤ t) :
    |max (1 - r) 0 * v - v| ≤ t ∧ |max (1 - r) 0 * v| ≤ |v| := by
  refine shrink_by (le_max_right _ _) (max_le (by linarith) zero_le_one) ?_
  have : 1 - max (1 - r) 0 = min r 1 := by
    rcases le_total r 1 with h | h
    · rw [min_eq_left h, max_eq_left (by linarith)]; ring
    · rw [min_eq_right h, max_eq_right (by linarith)]; ring
  rw [this]
  exact h

theorem garrote_scale {t v v' : K} (ht : 0 < t) (h : (garroteFactor t |v|).scale v = Cell.num v') :
    |v' - v| ≤ t ∧ |v'| ≤ |v| := by
  by_cases hv : v = 0
  · subst hv
    have : v' = 0 := by
      simp [garroteFactor, Flt.div, ht, Flt.oneSub, Flt.clip0, Flt.scale] at h
      exact h.symm
    rw [this]
    simp [ht.le]
  · have hp : 0 < |v| := abs_pos.mpr hv
    have : v' = max (1 - t ^ 2 / |v| ^ 2) 0 * v := by
      simp only [garroteFactor, Flt.div, pow_eq_zero_iff, ne_eq, OfNat.ofNat_ne_zero, not_false_eq_true, abs_eq_zero,
        hv, if_false, Flt.oneSub, Flt.clip0, Flt.scale, smul_eq_mul, Cell.num.injEq] at h
      exact h.symm
    rw [this]
    refine clip_factor (by positivity) ?_
    rcases le_total |v| t with hc | hc
    · exact (mul_le_of_le_one_left hp.le (min_le_right _ _)).trans hc
    · refine (mul_le_mul_of_nonneg_right (min_le_left _ _) hp.le).trans ?_
      rw [show t ^ 2 / |v| ^ 2 * |v| = t * (t / |v|) by field_simp]
      exact mul_le_of_le_one_right ht.le ((div_le_one hp).mpr hc)

theorem soft_bounds {t v : K} (ht : 0 < t) :
    |max (v - t) 0 + min (v + t) 0 - v| ≤ t ∧ |max (v - t) 0 + min (v + t) 0| ≤ |v| := by
  rcases le_total (v - t) 0 with h1 | h1 <;> rcases le_total (v + t) 0 with h2 | h2
  · rw [max_eq_right h1, min_eq_left h2, abs_of_nonpos (show 0 + (v + t) ≤ 0 by linarith),
      abs_of_nonpos (show v ≤ 0 by linarith), abs_le]
    refine ⟨⟨?_, ?_⟩, ?_⟩ <;> linarith
  · rw [max_eq_right h1, min_eq_right h2, add_zero, abs_zero, abs_le]
    exact ⟨⟨by linarith, by linarith⟩, abs_nonneg _⟩
  · linarith
  · rw [max_eq_left h1, min_eq_right h2, abs_of_nonneg (show 0 ≤ v - t + 0 by linarith),
      abs_of_nonneg (show 0 ≤ v by linarith), abs_le]
    refine ⟨⟨?_, ?_⟩, ?_⟩ <;> linarith

theorem soft_lipschitz {t u v : K} (ht : 0 < t) :
    |max (u - t) 0 + min (u + t) 0 - (max (v - t) 0 + min (v + t) 0)| ≤ |u - v| := by
  wlog huv : v ≤ u generalizing u v
  · rw [abs_sub_comm, abs_sub_comm u v]
    exact this (le_of_not_ge huv)
  rw [abs_of_nonneg (sub_nonneg.mpr huv), abs_le]
  have h1 : max (v - t) 0 ≤ max (u - t) 0 := max_le_max_right _ (by linarith)
  have h2 : min (v + t) 0 ≤ min (u + t) 0 := min_le_min_right _ (by linarith)
  refine ⟨by linarith, ?_⟩
  rcases le_total (v - t) 0 with a1 | a1 <;> rcases le_total (v + t) 0 with a2 | a2 <;>
    rcases le_total (u - t) 0 with b1 | b1 <;> rcases le_total (u + t) 0 with b2 | b2 <;>
    simp only [max_eq_left, max_eq_right, min_eq_left, min_eq_right, *] <;> linarith

/-- What the shrinking modes do to an entry. -/
theorem thresholded_bounds {t : K} (ht : 0 < t) {mode : String} (hm : mode ∈ ["soft", "hard", "garrote", "garotte"])
    {c c' : List K} (h : Thresholded t mode c c') :
    List.Forall₂ (fun v v' => |v' - v| ≤ t ∧ |v'| ≤ |v|) c c' := by
  simp only [List.mem_cons, List.not_mem_nil, or_false] at hm
  rcases hm with rfl | rfl | rfl | rfl
  · refine (thresholded_shrink (factor := softFactor) h).imp fun v v' hv => ?_
    rw [soft_scale ht hv]
    exact soft_bounds ht
  · refine (thresholded_hard h).imp fun v v' hv => ?_
    rw [hv]
    split_ifs with hc
    · rw [zero_sub, abs_neg, abs_zero]
      exact ⟨hc.le, abs_nonneg _⟩
    · rw [sub_self, abs_zero]
      exact ⟨ht.le, le_rfl⟩
  · exact (thresholded_shrink (factor := garroteFactor) h).imp fun v v' hv => garrote_scale ht hv
  · exact (thresholded_shrink (factor := garroteFactor) h).imp fun v v' hv => garrote_scale ht hv

theorem forall₂_lens {α β : Type} {P : α → β → Prop} {c : List α} {c' : List β} (h : List.Forall₂ P c c') :
    c'.length = c.length := h.length_eq.symm

theorem dist2_le_of {B : K} {c c' : List K} (h : List.Forall₂ (fun v v' => |v' - v| ≤ B) c c') :
    dist2 c' c ≤ c.length * B ^ 2 := by
  induction h with
  | nil => simp [dist2]
  | @cons v v' c c' hv _ ih =>
    simp only [dist2, List.zipWith_cons_cons, List.sum_cons, List.length_cons] at ih ⊢
    have : (v' - v) * (v' - v) ≤ B ^ 2 := by
      rw [← pow_two, ← sq_abs]
      exact pow_le_pow_left₀ (abs_nonneg _) hv 2
    push_cast
    linarith

theorem energy_le_of {c c' : List K} (h : List.Forall₂ (fun v v' => |v'| ≤ |v|) c c') : energy c' ≤ energy c := by
  induction h with
  | nil => simp [energy]
  | @cons v v' c c' hv _ ih =>
    simp only [energy, List.map_cons, List.sum_cons] at ih ⊢
    have : v' * v' ≤ v * v := by
      rw [← abs_mul_abs_self v', ← abs_mul_abs_self v]
      exact mul_le_mul hv hv (abs_nonneg _) (abs_nonneg _)
    linarith

theorem dist2_nonneg (c c' : List K) : 0 ≤ dist2 c' c := by
  unfold dist2
  refine List.sum_nonneg fun v hv => ?_
  obtain ⟨i, hi, rfl⟩ := List.mem_iff_getElem.mp hv
  rw [List.getElem_zipWith]
  exact mul_self_nonneg _

theorem dist2_refl {R : Type} [CommRing R] (c : List R) : dist2 c c = 0 := by
  unfold dist2
  rw [List.zipWith_self]
  simp

/-- Among all arrays with given numbers of entries that are not zero, hard thresholding is closest. -/
theorem hard_best {t : K} (ht : 0 ≤ t) {c c' : List K} (h : List.Forall₂ (fun v v' => v' = if |v| < t then 0 else v) c c') :
    ∀ c'' : List K, c''.length = c.length →
    t ^ 2 * ((c'.countP fun v => decide (v ≠ 0) : ℕ) - (c''.countP fun v => decide (v ≠ 0) : ℕ)) ≤
      dist2 c'' c - dist2 c' c := by
  induction h with
  | nil =>
    intro c'' hl
    rw [List.length_eq_zero_iff.mp hl]
    simp [dist2]
  | @cons v v' c c' hv _ ih =>
    intro c'' hl
    cases c'' with
    | nil => simp at hl
    | cons z c'' =>
      have i := ih c'' (by simpa using hl)
      simp only [dist2, List.zipWith_cons_cons, List.sum_cons] at i ⊢
      rw [List.countP_cons, List.countP_cons]
      have key : t ^ 2 * ((if v' ≠ 0 then 1 else 0 : ℕ) - (if z ≠ 0 then 1 else 0 : ℕ)) ≤
          (z - v) * (z - v) - (v' - v) * (v' - v) := by
        have hz := mul_self_nonneg (z - v)
        have hzz := mul_self_nonneg z
        have ht2 := sq_nonneg t
        subst hv
        by_cases hc : |v| < t
        · have hv2 : v * v ≤ t ^ 2 := by
            rw [← pow_two, ← sq_abs]
            exact pow_le_pow_left₀ (abs_nonneg _) hc.le 2
          by_cases hz0 : z = 0
          · simp [hc, hz0]
          · simp [hc, hz0]
            linarith
        · have hv2 : t ^ 2 ≤ v * v := by
            rw [← pow_two v, ← sq_abs v]
            exact pow_le_pow_left₀ ht (not_lt.mp hc) 2
          by_cases hz0 : z = 0 <;> by_cases hv0 : v = 0 <;> simp [hc, hz0, hv0] <;> linarith
      simp only [decide_eq_true_eq]
      push_cast at key ⊢
      linarith

theorem thresholdedAll_lens {mode : String} (hm : mode ∈ ["soft", "hard", "garrote", "garotte"]) :
    ∀ {ts : List (Option K)} {cs cs' : List (List K)}, ThresholdedAll mode ts cs cs' →
      cs'.map List.length = cs.map List.length ∧ dist2s cs' cs ≤ thresholdError ts cs ∧
        (cs'.map energy).sum ≤ (cs.map energy).sum
  | [], [], [], _ => by simp [dist2s, thresholdError]
  | none :: ts, c :: cs, c' :: cs', h => by
      obtain ⟨rfl, h2⟩ := h
      obtain ⟨i1, i2, i3⟩ := thresholdedAll_lens hm h2
      simp only [dist2s, thresholdError, List.map_cons, List.zipWith_cons_cons, List.sum_cons, i1] at i2 ⊢
      refine ⟨trivial, ?_, by linarith⟩
      rw [dist2_refl]
      simpa using i2
  | some t :: ts, c :: cs, c' :: cs', h => by
      obtain ⟨ht, h1, h2⟩ := h
      obtain ⟨i1, i2, i3⟩ := thresholdedAll_lens hm h2
      have hb := thresholded_bounds ht hm h1
      simp only [dist2s, thresholdError, List.map_cons, List.zipWith_cons_cons, List.sum_cons, i1] at i2 ⊢
      have b1 := dist2_le_of (hb.imp fun _ _ h => h.1)
      have b2 := energy_le_of (hb.imp fun _ _ h => h.2)
      refine ⟨by rw [forall₂_lens hb], ?_, by linarith⟩
      simp only [Option.getD_some]
      linarith

theorem soft_contracts {t : K} (ht : 0 < t) : ∀ {c c' e e' : List K},
    List.Forall₂ (fun v v' => v' = max (v - t) 0 + min (v + t) 0) c c' →
    List.Forall₂ (fun v v' => v' = max (v - t) 0 + min (v + t) 0) e e' → dist2 c' e' ≤ dist2 c e
  | [], [], e, e', _, _ => by simp [dist2]
  | v :: c, v' :: c', [], [], _, _ => by simp [dist2]
  | v :: c, v' :: c', u :: e, u' :: e', .cons h1 h2, .cons g1 g2 => by
      have ih := soft_contracts ht h2 g2
      simp only [dist2, List.zipWith_cons_cons, List.sum_cons] at ih ⊢
      have hk : (v' - u') * (v' - u') ≤ (v - u) * (v - u) := by
        rw [← abs_mul_abs_self (v' - u'), ← abs_mul_abs_self (v - u), h1, g1]
        exact mul_le_mul (soft_lipschitz ht) (soft_lipschitz ht) (abs_nonneg _) (abs_nonneg _)
      linarith

theorem softAll_contracts : ∀ {ts : List (Option K)} {cs cs' es es' : List (List K)},
    ThresholdedAll "soft" ts cs cs' → ThresholdedAll "soft" ts es es' → dist2s cs' es' ≤ dist2s cs es
  | [], [], [], [], [], _, _ => by simp [dist2s]
  | none :: ts, c :: cs, c' :: cs', e :: es, e' :: es', h, g => by
      obtain ⟨rfl, h2⟩ := h
      obtain ⟨rfl, g2⟩ := g
      have ih := softAll_contracts h2 g2
      simp only [dist2s, List.zipWith_cons_cons, List.sum_cons] at ih ⊢
      linarith
  | some t :: ts, c :: cs, c' :: cs', e :: es, e' :: es', h, g => by
      obtain ⟨ht, h1, h2⟩ := h
      obtain ⟨-, g1, g2⟩ := g
      have ih := softAll_contracts h2 g2
      have a := (thresholded_shrink (factor := softFactor) h1).imp fun v v' hv => soft_scale ht hv
      have b := (thresholded_shrink (factor := softFactor) g1).imp fun v v' hv => soft_scale ht hv
      have := soft_contracts ht a b
      simp only [dist2s, List.zipWith_cons_cons, List.sum_cons] at ih ⊢
      linarith

theorem hardAll_best {t : K} (ht : 0 ≤ t) : ∀ {cs cs' cs'' : List (List K)},
    List.Forall₂ (Thresholded t "hard") cs cs' → cs''.map List.length = cs.map List.length →
    t ^ 2 * ((nonzeros cs' : ℕ) - (nonzeros cs'' : ℕ)) ≤ dist2s cs'' cs - dist2s cs' cs
  | [], [], [], _, _ => by simp [dist2s]
  | c :: cs, c' :: cs', [], _, h => by simp at h
  | c :: cs, c' :: cs', c'' :: cs'', .cons h1 h2, hl => by
      simp only [List.map_cons, List.cons.injEq] at hl
      have ih := hardAll_best ht h2 hl.2
      have h := hard_best ht (thresholded_hard h1) c'' hl.1
      simp only [dist2s, nonzeros, List.zipWith_cons_cons, List.sum_cons, List.flatten_cons,
        List.countP_append] at ih h ⊢
      push_cast at ih h ⊢
      linarith

theorem hardAll_lens {t : K} {cs cs' : List (List K)} (h : List.Forall₂ (Thresholded t "hard") cs cs') :
    cs'.map List.length = cs.map List.length := by
  induction h with
  | nil => rfl
  | cons h1 _ ih => rw [List.map_cons, List.map_cons, ih, forall₂_lens (thresholded_hard h1)]

end threshold

end Pywt
