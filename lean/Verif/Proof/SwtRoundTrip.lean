import Verif.Proof.FloatIswt
import Verif.Proof.RoundTrip
import Verif.Proof.Iswt
import Verif.Proof.SwtTop

/-!
# `iswt(swt(x))` with inexact filters and rounding
-/

set_option linter.unusedSectionVars false
set_option autoImplicit false

namespace Pywt

open Finset Spec Sim

variable {fl : ℝ → ℝ} {u κ Ω : ℝ}

/-- Both phases of a filter bank together. -/
theorem pr_both {ε : ℝ} {dlo dhi rlo rhi : List ℝ} (hpr : PRWithin ε dlo dhi rlo rhi)
    (h1 : dhi.length = dlo.length) (h2 : rlo.length = dlo.length) (h3 : rhi.length = dlo.length)
    (h4 : 1 ≤ dlo.length) (e : ℤ → ℝ) {B : ℝ} (hB : ∀ p : ℤ, |e p| ≤ B) :
    |∑ l ∈ range rlo.length, rlo.getD l 0 * conv dlo e ((dlo.length : ℤ) - 1 - l) +
      ∑ l ∈ range rhi.length, rhi.getD l 0 * conv dhi e ((dlo.length : ℤ) - 1 - l) - 2 * e 0| ≤ 2 * (ε * B) := by
  have k0 := pr_within (M := ℝ) hpr h1 h2 h3 h4 e 0 0 ((dlo.length : ℤ) - 1) (by omega) (B := B)
    fun p _ _ => hB p
  have k1 := pr_within (M := ℝ) hpr h1 h2 h3 h4 (fun p => e (p - 1)) 1 0 ((dlo.length : ℤ) - 1) (by omega) (B := B)
    fun p _ _ => hB _
  have hsplit : ∀ r d : List ℝ, ∑ l ∈ range r.length, r.getD l 0 * conv d e ((dlo.length : ℤ) - 1 - l) =
      conv r (upsample fun k => conv d e (2 * k + 0)) (0 + ((dlo.length : ℤ) - 1)) +
      conv r (upsample fun k => conv d (fun p => e (p - 1)) (2 * k + 0)) (1 + ((dlo.length : ℤ) - 1)) := by
    intro r d
    unfold conv
    rw [← sum_add_distrib]
    apply sum_congr rfl
    intro l _
    rw [← smul_add, smul_eq_mul]
    congr 1
    unfold upsample
    by_cases hp : (0 + ((dlo.length : ℤ) - 1) - l) % 2 = 0
    · rw [if_pos hp, if_neg (by omega), add_zero]
      apply sum_congr rfl
      intro j _
      congr 2
      omega
    · rw [if_neg hp, if_pos (by omega), zero_add]
      apply sum_congr rfl
      intro j _
      congr 2
      omega
  rw [hsplit, hsplit]
  rw [Real.norm_eq_abs] at k0 k1
  simp only [sub_self] at k1
  have := abs_add_le _ _ |>.trans (add_le_add k0 k1)
  refine le_trans (le_of_eq ?_) (this.trans (le_of_eq (by ring)))
  congr 1
  ring

theorem iswtStep_within [Invertible (2 : ℝ)] {ε : ℝ} {w : Wavelet ℝ} (hw : w.Ok)
    (hpr : PRWithin ε w.dec_lo w.dec_hi w.rec_lo w.rec_hi) {a : List ℝ} {B : ℝ} (hB : ∀ v ∈ a, |v| ≤ B) {s n : ℕ}
    (hn : n < a.length) :
    |(iswtStep w.rec_lo w.rec_hi s (atrous w.dec_lo s a) (atrous w.dec_hi s a)).getD n 0 - a.getD n 0| ≤ ε * B := by
  obtain ⟨g1, g2, g3, g4, g5⟩ := hw
  have hN : 0 < (a.length : ℤ) := by omega
  have hat : ∀ p : ℤ, |at' a (p % a.length)| ≤ B := by
    intro p
    unfold at'
    have h0 := Int.emod_nonneg p hN.ne'
    have h1 := Int.emod_lt_of_pos p hN
    rw [List.getD_eq_getElem _ _ (show (p % (a.length : ℤ)).toNat < a.length by omega)]
    exact hB _ (List.getElem_mem _)
  have key := pr_both hpr g3 g4 g5 (by omega) (fun q => at' a (((n : ℤ) + s * q) % a.length)) fun p => hat _
  have hatr : ∀ (f r : List ℝ), f.length = w.dec_lo.length → r.length = w.dec_lo.length →
      ∑ l ∈ range r.length, r.getD l 0 • at' (atrous f s a)
        (((n : ℤ) + s * (((r.length / 2 : ℕ) : ℤ) - 1 - l)) % (atrous f s a).length) =
      ∑ l ∈ range r.length, r.getD l 0 * conv f (fun q => at' a (((n : ℤ) + s * q) % a.length))
        ((w.dec_lo.length : ℤ) - 1 - l) := by
    intro f r hf hr
    apply sum_congr rfl
    intro l _
    rw [smul_eq_mul]
    congr 1
    rw [atrous_length]
    set q := ((n : ℤ) + s * (((r.length / 2 : ℕ) : ℤ) - 1 - l)) % a.length with hq
    have h0 := Int.emod_nonneg ((n : ℤ) + s * (((r.length / 2 : ℕ) : ℤ) - 1 - l)) hN.ne'
    have h1 := Int.emod_lt_of_pos ((n : ℤ) + s * (((r.length / 2 : ℕ) : ℤ) - 1 - l)) hN
    rw [← hq] at h0 h1
    unfold at'
    rw [List.getD_eq_getElem _ _ (show q.toNat < (atrous f s a).length by rw [atrous_length]; omega)]
    simp only [atrous, List.getElem_map, List.getElem_range]
    unfold conv
    apply sum_congr rfl
    intro j _
    congr 1
    show at' a _ = at' a _
    congr 1
    rw [Int.toNat_of_nonneg h0, hq, Int.emod_add_emod]
    congr 1
    have e1 : ((r.length / 2 : ℕ) : ℤ) + ((f.length / 2 : ℕ) : ℤ) = w.dec_lo.length := by
      rw [hf, hr]; omega
    rw [← e1]
    ring
  rw [iswtStep_getD (by simp) (by simpa using hn), hatr w.dec_lo w.rec_lo rfl g4, hatr w.dec_hi w.rec_hi g3 g5]
  have h0 : at' a (((n : ℤ) + s * 0) % a.length) = a.getD n 0 := by
    rw [mul_zero, add_zero, Int.emod_eq_of_lt (by omega) (by omega)]
    simp [at']
  simp only [h0] at key
  rw [smul_eq_mul, invOf_eq_inv]
  rw [abs_le] at key ⊢
  constructor <;> linarith [key.1, key.2]

/-- Reconstruction of one level. -/
theorem iswt_step [Invertible (2 : ℝ)] (H : Rounds fl u κ Ω) {w : Wavelet ℝ} (hw : w.Ok) {ε : ℝ}
    (hpr : PRWithin ε w.dec_lo w.dec_hi w.rec_lo w.rec_hi) {a : List ℝ} {s : ℕ} (ha0 : 1 ≤ a.length)
    (hs : 2 * s ∣ a.length) {X : ℝ} (hX : ∀ v ∈ a, |v| ≤ X) {d : ℕ} {B e : ℝ} (hXB : X ≤ max B (iswtBound w κ B))
    (hB : 0 ≤ B) (he : 0 ≤ e) (hfit : IswtFits u κ Ω w d B e) {o' d' : List (Fl fl)}
    (ha : Accurate u d B e o' (atrous w.dec_lo s a)) (hd : Accurate u d B e d' (atrous w.dec_hi s a)) :
    ∃ r, (List.range s).foldlM (iswtPhase (w.toFl fl) s d') o' = .ok r ∧
      Accurate u (d + iswtDepth w) (max B (iswtBound w κ B)) (max e (idwtBound w 0 e) + ε * X) r a := by
  have hu := H.u_nonneg
  have hκ := H.κ_nonneg
  have hs0 : 0 < s := by
    rcases Nat.eq_zero_or_pos s with h | h
    · subst h; rw [mul_zero, zero_dvd_iff] at hs; omega
    · exact h
  have hgen := iswt_level_gen (M := ℝ) hw (A := atrous w.dec_lo s a) (D := atrous w.dec_hi s a) (s := s)
    (by simpa using hs) (by simpa using ha0) (by simp)
  obtain ⟨r, hr, hacc⟩ := iswtPhases_rel (w := w.toFl fl) (w' := w)
    (X := fun (a : Fl fl) (b : ℝ) => FlNear u d B e a.val b)
    (Z := fun (a : Fl fl) (b : ℝ) => FlNear u (d + idwtDepth w) (idwtBound w κ B) (idwtBound w 0 e) a.val b)
    (Y := fun (a : Fl fl) (b : ℝ) => FlNear u (d + iswtDepth w) (max B (iswtBound w κ B))
      (max e (idwtBound w 0 e)) a.val b)
    (fun a b h => FlNear.mono hu h (by omega) (le_max_left _ _) (le_max_left _ _))
    (fun a a' c c' ha hc => by
      refine idwt_near H (mode := .periodization) hB he ?_ (.some ha) (.some hc)
      refine le_trans ?_ hfit
      have h1 := idwtBound_nonneg (w := w) hκ hB
      have h2 := idwtBound_nonneg (w := w) (le_refl (0 : ℝ)) he
      refine mul_le_mul (pow_le_pow_right₀ (by linarith) ?_) ?_ (by linarith) ?_
      · unfold iswtDepth; omega
      · unfold iswtBound; linarith
      · linarith [pow_ge_one hu (d + iswtDepth w)])
    (fun a a' c c' ha hc => by
      have h := mean_near H ha hc (by
        have h0 := hfit
        unfold IswtFits iswtBound iswtDepth at h0
        rw [← Nat.add_assoc] at h0
        simpa using h0)
      show FlNear u _ _ _ (fl (1 / 2 * fl (a.val + c.val))) ((⅟2 : ℝ) * (a' + c'))
      rw [invOf_eq_inv, ← one_div]
      exact FlNear.mono hu h (by unfold iswtDepth; omega) (le_max_right _ _) (le_max_right _ _))
    hd ha s le_rfl _ hgen
  refine ⟨r, hr, ?_⟩
  have hacc' : Accurate u (d + iswtDepth w) (max B (iswtBound w κ B)) (max e (idwtBound w 0 e)) r
      (iswtStep w.rec_lo w.rec_hi s (atrous w.dec_lo s a) (atrous w.dec_hi s a)) := by
    refine Pos.to (hacc.mono fun i a b _ h => ?_)
    rwa [if_pos (Nat.mod_lt _ hs0)] at h
  exact Accurate.shift hu hacc' (by rw [iswtStep_length _ _ _ (by simp)]; simp)
    (fun v hv => (hX v hv).trans hXB) fun i hi => iswtStep_within hw hpr hX hi

theorem swtChainErr_nonneg {w : Wavelet ℝ} {τ : ℝ} (hτ : 0 ≤ τ) (k : ℕ) : 0 ≤ swtChainErr w τ k := by
  induction k with
  | zero => exact le_rfl
  | succ k ih => exact add_nonneg (ih.trans (le_max_left _ _)) hτ

theorem swtRecBound_mono {w : Wavelet ℝ} {X : ℝ} (j : ℕ) : X ≤ swtRecBound w κ X j := by
  induction j with
  | zero => exact le_rfl
  | succ j ih => exact ih.trans (le_max_left _ _)

/-- The loop of `iswt` over the details of a decomposition. -/
theorem iswtLoop_near [Invertible (2 : ℝ)] (H : Rounds fl u κ Ω) {w : Wavelet ℝ} (hw : w.Ok) {ε : ℝ} (hε : 0 ≤ ε)
    (hpr : PRWithin ε w.dec_lo w.dec_hi w.rec_lo w.rec_hi) {x : List ℝ} (hx : 1 ≤ x.length) {X : ℝ} {n d : ℕ}
    (hX0 : 0 ≤ X) (hX : ∀ j ≤ n, ∀ v ∈ swtApprox w.dec_lo 0 x j, |v| ≤ X) (hlev : 2 ^ n ∣ x.length)
    (hfit : ∀ k < n, IswtFits u κ Ω w (d + k * iswtDepth w) (swtRecBound w κ X k) (swtChainErr w (ε * X) k)) :
    ∀ j ≤ n, ∀ (r : List (Fl fl)) (ds : List (List (Fl fl))),
      List.Forall₂ (Accurate u d X 0) ds
        (((List.range j).map fun i => swtDetail w.dec_lo w.dec_hi 0 x i).reverse) →
      Accurate u (d + (n - j) * iswtDepth w) (swtRecBound w κ X (n - j)) (swtChainErr w (ε * X) (n - j)) r
        (swtApprox w.dec_lo 0 x j) →
      ∃ r', iswtLoop (w.toFl fl) ds r = .ok r' ∧
        Accurate u (d + n * iswtDepth w) (swtRecBound w κ X n) (swtChainErr w (ε * X) n) r' x := by
  have hu := H.u_nonneg
  have hτ : 0 ≤ ε * X := mul_nonneg hε hX0
  intro j
  induction j with
  | zero =>
    intro _ r ds hds hr
    have : ds = [] := by simpa using hds
    subst this
    exact ⟨r, rfl, hr⟩
  | succ j ih =>
    intro hj r ds hds hr
    simp only [List.range_succ, List.map_append, List.map_cons, List.map_nil, List.reverse_append,
      List.reverse_cons, List.reverse_nil, List.nil_append, List.cons_append] at hds
    cases hds with
    | @cons d' _ ds _ hd hds =>
      have hdl : ds.length = j := by
        have := hds.length_eq
        simpa using this
      have hk : n - j = (n - (j + 1)) + 1 := by omega
      have hXr : X ≤ swtRecBound w κ X (n - (j + 1)) := swtRecBound_mono _
      obtain ⟨y, hy, hya⟩ := iswt_step H hw hpr (a := swtApprox w.dec_lo 0 x j) (s := 2 ^ j) (by simpa using hx)
        (by rw [swtApprox_length, ← pow_succ']; exact (pow_dvd_pow 2 hj).trans hlev) (hX j (by omega))
        (d := d + (n - (j + 1)) * iswtDepth w) (B := swtRecBound w κ X (n - (j + 1)))
        (e := swtChainErr w (ε * X) (n - (j + 1))) (hXr.trans (le_max_left _ _))
        (swtRecBound_nonneg hX0 _) (swtChainErr_nonneg hτ _) (hfit _ (by omega)) (o' := r) (d' := d')
        (by simpa [swtApprox] using hr)
        (by
          have := Accurate.mono hu hd (by omega : d ≤ d + (n - (j + 1)) * iswtDepth w) hXr
            (swtChainErr_nonneg (w := w) hτ (n - (j + 1)))
          simpa [swtDetail] using this)
      obtain ⟨r', h1, h2⟩ := ih (by omega) y ds hds (by
        rw [hk]
        have : d + (n - (j + 1) + 1) * iswtDepth w = d + (n - (j + 1)) * iswtDepth w + iswtDepth w := by
          ring
        rw [this]
        exact hya)
      refine ⟨r', ?_, h2⟩
      simp only [iswtLoop, hdl, hy, Py_bind_ok]
      exact h1

/-- Several levels of decomposition and reconstruction. -/
theorem iswt_swt_near [Invertible (2 : ℝ)] (H : Rounds fl u κ Ω) (Kp : Keeps fl) {w : Wavelet ℝ} (hw : w.Ok) {ε : ℝ}
    (hε : 0 ≤ ε) (hpr : PRWithin ε w.dec_lo w.dec_hi w.rec_lo w.rec_hi) {x : List ℝ} {X : ℝ} {n : ℕ}
    (hx : x ≠ []) (hn : 1 ≤ n) (hX0 : 0 ≤ X) (hX : ∀ v ∈ x, |v| ≤ X) (hlev : 2 ^ n ∣ x.length)
    (hdec : ∀ j < n, DwtFits u κ Ω .periodization w (j * dwtDepth .periodization w.dec_len)
      (decBound .periodization w κ X j) 0)
    (hrec : ∀ k < n, IswtFits u κ Ω w (n * dwtDepth .periodization w.dec_len + k * iswtDepth w)
      (swtRecBound w κ (decBound .periodization w κ X n) k)
      (swtChainErr w (ε * decBound .periodization w κ X n) k)) (trim : Bool) :
    ∃ cs y, swt (w.toFl fl) (some (n : ℤ)) 0 trim none (toFl fl x) = .ok cs ∧
      iswt (w.toFl fl) none cs = .ok y ∧
      Accurate u (n * dwtDepth .periodization w.dec_len + n * iswtDepth w)
        (swtRecBound w κ (decBound .periodization w κ X n) n)
        (swtChainErr w (ε * decBound .periodization w κ X n) n) y x := by
  have hu := H.u_nonneg
  have hxl : 1 ≤ x.length := by
    rcases Nat.eq_zero_or_pos x.length with h | h
    · exact (hx (List.length_eq_zero_iff.mp h)).elim
    · exact h
  have hx0 : Accurate u 0 X 0 (toFl fl x) x := by
    unfold Accurate toFl
    rw [List.forall₂_map_left_iff, List.forall₂_same]
    intro v hv
    exact FlNear.refl hu 0 (hX v hv) le_rfl
  have hz : ∀ j, decBound .periodization w 0 0 j = 0 := by
    intro j
    induction j with
    | zero => rfl
    | succ j ih =>
      show max (decBound .periodization w 0 0 j) (max (dwtBound .periodization w.dec_lo 0 (decBound .periodization w 0 0 j))
        (dwtBound .periodization w.dec_hi 0 (decBound .periodization w 0 0 j))) = 0
      rw [ih]
      simp [dwtBound, extBound]
  have hdec' : ∀ j < n, DwtFits u κ Ω .periodization w (0 + j * dwtDepth .periodization w.dec_len)
      (decBound .periodization w κ X j) (decBound .periodization w 0 0 j) := by
    intro j hj; rw [hz, Nat.zero_add]; exact hdec j hj
  have hsw : ∀ tr, swt w (some (n : ℤ)) 0 tr none x = .ok (swtResult w 0 n tr x) := by
    intro tr
    have := swt_eq (M := ℝ) hw n 0 tr none x
    rw [Nat.cast_zero] at this
    rw [this, if_pos ⟨hn, hxl, by rw [zero_add]; exact hlev⟩]
    rfl
  have hXn := decBound_nonneg (mode := .periodization) (w := w) (κ := κ) hX0 n
  -- the exact approximations are bounded
  obtain ⟨cs0, -, h0⟩ := swt_near H Kp hw hX0 le_rfl (n := n) hdec' hx0 _ (hsw false)
  have happ : ∀ j ≤ n, ∀ v ∈ swtApprox w.dec_lo 0 x j, |v| ≤ decBound .periodization w κ X n := by
    intro j hj v hv
    cases j with
    | zero => exact (hX v hv).trans (decBound_mono (i := 0) (Nat.zero_le _))
    | succ j =>
      simp only [swtResult, Bool.false_eq_true, if_false] at h0
      cases cs0 with
      | trimmed l => exact h0.elim
      | pairs l =>
        have h0 : List.Forall₂ _ _ _ := h0
        have hmem : (swtApprox w.dec_lo 0 x (j + 1), swtDetail w.dec_lo w.dec_hi 0 x j) ∈
            (((List.range n).map fun j => (swtApprox w.dec_lo 0 x (j + 1), swtDetail w.dec_lo w.dec_hi 0 x j)).reverse) := by
          rw [List.mem_reverse, List.mem_map]
          exact ⟨j, List.mem_range.mpr hj, rfl⟩
        obtain ⟨i, hi, hie⟩ := List.getElem_of_mem hmem
        rw [List.forall₂_iff_get] at h0
        have h1 := (h0.2 i (by rw [h0.1]; exact hi) hi).1
        simp only [List.get_eq_getElem] at h1
        rw [hie] at h1
        unfold Accurate at h1
        rw [List.forall₂_iff_get] at h1
        obtain ⟨k, hk, rfl⟩ := List.getElem_of_mem hv
        exact (h1.2 k (by rw [h1.1]; exact hk) hk).1
  obtain ⟨cs, h1, h2⟩ := swt_near H Kp hw hX0 le_rfl (n := n) hdec' hx0 _ (hsw trim)
  rw [hz, Nat.zero_add] at h2
  have hloop := iswtLoop_near H hw hε hpr hxl (X := decBound .periodization w κ X n) (n := n)
    (d := n * dwtDepth .periodization w.dec_len) hXn happ hlev hrec n le_rfl
  simp only [Nat.sub_self, Nat.zero_mul, Nat.add_zero, swtRecBound, swtChainErr] at hloop
  cases trim with
  | true =>
    simp only [swtResult, if_true] at h2
    cases cs with
    | pairs l => exact h2.elim
    | trimmed l =>
      have h2 : List.Forall₂ _ _ _ := h2
      cases h2 with
      | @cons a _ ds _ ha hds =>
        obtain ⟨y, hy1, hy2⟩ := hloop a ds hds ha
        exact ⟨_, y, h1, hy1, hy2⟩
  | false =>
    simp only [swtResult, Bool.false_eq_true, if_false] at h2
    cases cs with
    | trimmed l => exact h2.elim
    | pairs l =>
      have h2 : List.Forall₂ _ _ _ := h2
      have hds := h2.imp (fun _ _ h => And.right h)
      obtain ⟨k, rfl⟩ : ∃ k, n = k + 1 := ⟨n - 1, by omega⟩
      cases l with
      | nil =>
        have := h2.length_eq
        simp at this
      | cons p l =>
        have hds' : List.Forall₂ (Accurate u ((k + 1) * dwtDepth .periodization w.dec_len)
            (decBound .periodization w κ X (k + 1)) 0) (p.2 :: l.map (·.2))
            (((List.range (k + 1)).map fun i => swtDetail w.dec_lo w.dec_hi 0 x i).reverse) := by
          have e1 : (p.2 :: l.map (·.2)) = (p :: l).map (·.2) := rfl
          have e2 : ((List.range (k + 1)).map fun i => swtDetail w.dec_lo w.dec_hi 0 x i).reverse =
              (((List.range (k + 1)).map fun j => (swtApprox w.dec_lo 0 x (j + 1),
                swtDetail w.dec_lo w.dec_hi 0 x j)).reverse).map (·.2) := by
            rw [List.map_reverse, List.map_map]; rfl
          rw [e1, e2, List.forall₂_map_left_iff, List.forall₂_map_right_iff]
          exact hds
        simp only [List.range_succ, List.map_append, List.map_cons, List.map_nil, List.reverse_append,
          List.reverse_cons, List.reverse_nil, List.nil_append, List.cons_append] at h2
        cases h2 with
        | cons hp hl =>
          obtain ⟨y, hy1, hy2⟩ := hloop p.1 _ hds' hp.1
          exact ⟨_, y, h1, hy1, hy2⟩

end Pywt
