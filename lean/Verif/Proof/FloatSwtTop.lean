import Verif.Proof.SwtRoundTrip
import Verif.Proof.FloatTop

/-!
# Consequences of the rounding analysis of the stationary transform
-/

set_option linter.unusedSectionVars false
set_option autoImplicit false

namespace Pywt

open Finset Spec Sim

variable {fl : ℝ → ℝ} {u κ Ω : ℝ}

theorem rne_abs_le {t : ℝ} {m : ℕ} (h : |t| < m) : |(rne t : ℝ)| ≤ m := by
  have e := rne_err t
  rw [abs_lt] at h
  rw [abs_le] at e ⊢
  have h1 : (rne t : ℝ) < (m : ℤ) + 1 := by push_cast; linarith
  have h2 : (-(m : ℤ) : ℝ) - 1 < rne t := by push_cast; linarith
  have h1' : rne t < (m : ℤ) + 1 := by exact_mod_cast h1
  have h2' : -(m : ℤ) - 1 < rne t := by exact_mod_cast h2
  have h3 : rne t ≤ (m : ℤ) := by omega
  have h4 : -(m : ℤ) ≤ rne t := by omega
  exact ⟨by exact_mod_cast h4, by exact_mod_cast h3⟩

/-- Machine numbers are their own nearest machine numbers. -/
theorem ieee_keeps {p : ℕ} (hp : 1 ≤ p) (emin : ℤ) : Keeps (ieee p emin) where
  zero := by
    unfold ieee
    rw [zero_div, show rne 0 = 0 by simpa using rne_int 0]
    simp
  idem := by
    intro t
    have key : ∀ v : ℝ, (∃ k : ℤ, v = k * 2 ^ ulpExp p emin v) → ieee p emin v = v := by
      rintro v ⟨k, hk⟩
      have hpos : (0 : ℝ) < 2 ^ ulpExp p emin v := by positivity
      unfold ieee
      have : v / 2 ^ ulpExp p emin v = k := by
        rw [div_eq_iff hpos.ne']; exact hk
      rw [this, rne_int]
      exact hk.symm
    apply key
    set e := ulpExp p emin t with he
    have hv : ieee p emin t = rne (t / 2 ^ e) * 2 ^ e := rfl
    have hepos : (0 : ℝ) < 2 ^ e := by positivity
    have h1 : |(rne (t / 2 ^ e) : ℝ)| ≤ ((2 ^ p : ℕ) : ℝ) := by
      apply rne_abs_le
      rw [abs_div, abs_of_pos hepos, div_lt_iff₀ hepos]
      by_cases ht : t = 0
      · subst ht; rw [abs_zero]; positivity
      have hl : Int.log 2 |t| < e + p := by
        have : Int.log 2 |t| - p + 1 ≤ e := le_max_left _ _
        omega
      have := (Int.lt_zpow_iff_log_lt (b := 2) (by norm_num) (abs_pos.mpr ht)).mpr hl
      refine this.trans_le (le_of_eq ?_)
      push_cast
      rw [zpow_add₀ (by norm_num), zpow_natCast, mul_comm]
    have hemin : emin ≤ e := le_max_right _ _
    generalize hm : rne (t / 2 ^ e) = m at *
    rw [hv]
    by_cases hm0 : m = 0
    · subst hm0
      exact ⟨0, by simp⟩
    have hmpos : (0 : ℝ) < |(m : ℝ)| := abs_pos.mpr (by exact_mod_cast hm0)
    have hav : |(m : ℝ) * 2 ^ e| = |(m : ℝ)| * 2 ^ e := by rw [abs_mul, abs_of_pos hepos]
    rcases h1.lt_or_eq with h1 | h1
    · -- the exponent did not grow
      have hq : ulpExp p emin ((m : ℝ) * 2 ^ e) ≤ e := by
        unfold ulpExp
        refine max_le ?_ hemin
        have : Int.log 2 |(m : ℝ) * 2 ^ e| < e + p := by
          rw [← Int.lt_zpow_iff_log_lt (by norm_num) (by rw [hav]; positivity), hav]
          push_cast at h1 ⊢
          rw [zpow_add₀ (by norm_num), zpow_natCast, mul_comm]
          exact mul_lt_mul_of_pos_left h1 hepos
        omega
      obtain ⟨j, hj⟩ : ∃ j : ℕ, e = ulpExp p emin ((m : ℝ) * 2 ^ e) + j :=
        ⟨(e - ulpExp p emin ((m : ℝ) * 2 ^ e)).toNat, by omega⟩
      refine ⟨m * 2 ^ j, ?_⟩
      conv_lhs => rw [hj]
      rw [zpow_add₀ (by norm_num), zpow_natCast]
      push_cast
      ring
    · -- rounded up to the next power of 2
      have hab : |(m : ℝ) * 2 ^ e| = (2 : ℝ) ^ (e + p) := by
        rw [hav, h1, zpow_add₀ (by norm_num), zpow_natCast]
        push_cast
        ring
      have hq : ulpExp p emin ((m : ℝ) * 2 ^ e) = e + 1 := by
        unfold ulpExp
        rw [hab]
        have : Int.log 2 ((2 : ℝ) ^ (e + p)) = e + p := by
          have := Int.log_zpow (R := ℝ) (b := 2) (by norm_num) (e + p)
          exact_mod_cast this
        rw [this]
        omega
      rw [hq]
      have hmabs : |m| = 2 ^ p := by
        have : ((|m| : ℤ) : ℝ) = ((2 ^ p : ℕ) : ℝ) := by rw [Int.cast_abs]; exact h1
        exact_mod_cast this
      obtain ⟨k, rfl⟩ : ∃ k, p = k + 1 := ⟨p - 1, by omega⟩
      rcases abs_cases m with ⟨h, -⟩ | ⟨h, -⟩
      · refine ⟨2 ^ k, ?_⟩
        have : m = 2 ^ (k + 1) := by omega
        rw [this, zpow_add₀ (by norm_num)]
        push_cast
        rw [zpow_one, pow_succ]
        ring
      · refine ⟨-2 ^ k, ?_⟩
        have : m = -2 ^ (k + 1) := by omega
        rw [this, zpow_add₀ (by norm_num)]
        push_cast
        rw [zpow_one, pow_succ]
        ring

theorem rescale_toFl (c : ℝ) (w : Wavelet ℝ) : (w.toFl fl).rescale ⟨c⟩ = (scaledBank fl c w).toFl fl := by
  simp only [Wavelet.rescale, Wavelet.toFl, scaledBank, List.map_map]
  rfl

theorem pow_le_two (hu : 0 ≤ u) {n : ℕ} (hn : n * u ≤ 1 / 2) : (1 + u) ^ n - 1 ≤ 2 * (n * u) := by
  refine (gamma_le hu (by linarith)).trans ?_
  rw [div_le_iff₀ (by linarith)]
  have : 0 ≤ (n : ℝ) * u := by positivity
  nlinarith

/-- Several levels with a built-in wavelet. -/
theorem swt_builtin_roundtrip (H : Rounds fl u κ Ω) (Kp : Keeps fl) {single : Bool} {name : String} {fam : Family}
    {order : ℕ} (h : (name, fam, order) ∈ wnameToCode) (hd : fam.isDiscrete = true) {x : List ℝ} {n : ℕ}
    (hx : x ≠ []) (hn : 1 ≤ n) (hlev : 2 ^ n ∣ x.length) (trim : Bool) {X : ℝ} (hX : ∀ v ∈ x, |v| ≤ X)
    (hnu : 312 * n * u ≤ 1 / 2) (hΩ : 8 * 32 ^ n * (X + 128 * κ) ≤ Ω) :
    ∃ o cs y, waveletNamed single name = .ok o ∧
      swt ((realBank o.w).toFl fl) (some (n : ℤ)) 0 trim none (toFl fl x) = .ok cs ∧
      iswt ((realBank o.w).toFl fl) none cs = .ok y ∧ y.length = x.length ∧
      ∀ i < x.length, |(y.getD i 0).val - x.getD i 0| ≤
        32 ^ n * (X + 128 * κ) * (((tolerance single fam).1 : ℝ) / (tolerance single fam).2 + 1248 * n * u) := by
  haveI : Invertible (2 : ℝ) := invertibleOfNonzero two_ne_zero
  obtain ⟨o, h1, h2, h3, -, -, -, h4⟩ := builtin_ok (single := single) h hd
  obtain ⟨n0, n1, n2, n3, n4⟩ := builtin_norm h hd h2
  have hok := realBank_ok h3
  have hu0 := H.u_nonneg
  have hκ := H.κ_nonneg
  have hxl : 0 < x.length := List.length_pos_iff.mpr hx
  have hX0 : 0 ≤ X := (abs_nonneg _).trans (hX (x[0]'(by omega)) (List.getElem_mem _))
  have hl : (realBank o.w).dec_len = o.w.dec_len := by simp [realBank, Wavelet.dec_len]
  have hF : (realBank o.w).dec_lo.length ≤ 102 := by
    have : (realBank o.w).dec_lo.length = (realBank o.w).dec_len := rfl
    omega
  obtain ⟨-, -, l1', l2', l3'⟩ := hok
  change (realBank o.w).dec_hi.length = (realBank o.w).dec_lo.length at l1'
  change (realBank o.w).rec_lo.length = (realBank o.w).dec_lo.length at l2'
  change (realBank o.w).rec_hi.length = (realBank o.w).dec_lo.length at l3'
  have hok := realBank_ok h3
  generalize hW : realBank o.w = W at *
  have ht0 : 0 ≤ ((tolerance single fam).1 : ℝ) / (tolerance single fam).2 := by positivity
  have ht1 : ((tolerance single fam).1 : ℝ) / (tolerance single fam).2 ≤ 1 := by
    cases fam <;> cases single <;> norm_num [tolerance]
  generalize ((tolerance single fam).1 : ℝ) / (tolerance single fam).2 = ε at *
  have hFr : (W.dec_lo.length : ℝ) ≤ 102 := by exact_mod_cast hF
  have hFκ := mul_le_mul_of_nonneg_right hFr hκ
  have hns : ¬ (Mode.periodization = .smooth ∨ Mode.periodization = .antireflect) := by simp
  have hdb : ∀ (f : List ℝ), f.length = W.dec_lo.length → l1 f ≤ 4 → ∀ Y, 0 ≤ Y →
      dwtBound .periodization f κ Y ≤ 4 * Y + 204 * κ := by
    intro f hf h Y hY
    unfold dwtBound extBound
    rw [if_neg hns, hf]
    have := mul_le_mul_of_nonneg_right h hY
    linarith
  have hib : ∀ Y, 0 ≤ Y → idwtBound W κ Y ≤ 8 * Y + 410 * κ := by
    intro Y hY
    unfold idwtBound
    rw [l2', l3']
    have h5 : (l1 W.rec_lo + l1 W.rec_hi) * Y ≤ 8 * Y := mul_le_mul_of_nonneg_right (by linarith) hY
    linarith
  have hib0 : ∀ Y, 0 ≤ Y → idwtBound W 0 Y ≤ 8 * Y := by
    intro Y hY
    unfold idwtBound
    have h5 : (l1 W.rec_lo + l1 W.rec_hi) * Y ≤ 8 * Y := mul_le_mul_of_nonneg_right (by linarith) hY
    linarith
  have hdec : ∀ j, decBound .periodization W κ X j ≤ 4 ^ j * (X + 68 * κ) - 68 * κ := by
    intro j
    induction j with
    | zero => simp [decBound]
    | succ j ih =>
      have hD := decBound_nonneg (mode := .periodization) (w := W) (κ := κ) hX0 j
      have e4 : (4 : ℝ) ^ (j + 1) * (X + 68 * κ) = 4 * (4 ^ j * (X + 68 * κ)) := by rw [pow_succ]; ring
      have a1 := hdb W.dec_lo rfl n1 _ hD
      have a2 := hdb W.dec_hi l1' n2 _ hD
      show max _ (max _ _) ≤ _
      rw [e4]
      refine max_le ?_ (max_le ?_ ?_) <;> linarith
  set B := decBound .periodization W κ X n with hBdef
  have hB0 : 0 ≤ B := decBound_nonneg hX0 n
  have hB : B ≤ 4 ^ n * (X + 68 * κ) := by have := hdec n; linarith
  have hrec : ∀ k, swtRecBound W κ B k ≤ 8 ^ k * (B + 59 * κ) - 59 * κ := by
    intro k
    induction k with
    | zero => simp [swtRecBound]
    | succ k ih =>
      have hD := swtRecBound_nonneg (w := W) (κ := κ) hB0 k
      have e8 : (8 : ℝ) ^ (k + 1) * (B + 59 * κ) = 8 * (8 ^ k * (B + 59 * κ)) := by rw [pow_succ]; ring
      have a1 := hib _ hD
      show max _ (iswtBound _ _ _) ≤ _
      unfold iswtBound
      rw [e8]
      refine max_le ?_ ?_ <;> linarith
  have hτ : 0 ≤ ε * B := mul_nonneg ht0 hB0
  have hch : ∀ k, 7 * swtChainErr W (ε * B) k ≤ (8 ^ k - 1) * (ε * B) := by
    intro k
    induction k with
    | zero => simp [swtChainErr]
    | succ k ih =>
      have hD := swtChainErr_nonneg (w := W) hτ k
      have a1 := hib0 _ hD
      show 7 * (max _ _ + _) ≤ _
      have : max (swtChainErr W (ε * B) k) (idwtBound W 0 (swtChainErr W (ε * B) k)) ≤
          8 * swtChainErr W (ε * B) k := max_le (by linarith) a1
      rw [pow_succ]
      linarith
  -- everything in terms of one number
  set Y := 32 ^ n * (X + 128 * κ) with hY
  have h84 : ∀ k ≤ n, (8 : ℝ) ^ k * (B + 59 * κ) ≤ Y := by
    intro k hk
    have g1 : (8 : ℝ) ^ k ≤ 8 ^ n := pow_le_pow_right₀ (by norm_num) hk
    have g2 : (1 : ℝ) ≤ 4 ^ n := one_le_pow₀ (by norm_num)
    have g3 : B + 59 * κ ≤ 4 ^ n * (X + 128 * κ) := by
      have := mul_le_mul_of_nonneg_right g2 (show 0 ≤ 59 * κ by linarith)
      have e : (4 : ℝ) ^ n * (X + 128 * κ) = 4 ^ n * (X + 68 * κ) + 4 ^ n * (59 * κ) + 4 ^ n * κ := by ring
      have : 0 ≤ (4 : ℝ) ^ n * κ := by positivity
      linarith
    calc (8 : ℝ) ^ k * (B + 59 * κ) ≤ 8 ^ n * (4 ^ n * (X + 128 * κ)) :=
          mul_le_mul g1 g3 (by linarith) (by positivity)
      _ = Y := by rw [hY, ← mul_assoc, ← mul_pow]; norm_num
  have hY0 : 0 ≤ Y := by positivity
  have hRk : ∀ k ≤ n, swtRecBound W κ B k ≤ Y - 59 * κ := fun k hk => (hrec k).trans (by linarith [h84 k hk])
  have hEk : ∀ k ≤ n, swtChainErr W (ε * B) k ≤ ε * Y := by
    intro k hk
    have g1 := hch k
    have g2 := h84 k hk
    have g3 : (8 : ℝ) ^ k * B ≤ Y := by
      have : 0 ≤ (8 : ℝ) ^ k * (59 * κ) := by positivity
      linarith [mul_add ((8 : ℝ) ^ k) B (59 * κ)]
    have g4 : ε * (8 ^ k * B) ≤ ε * Y := mul_le_mul_of_nonneg_left g3 ht0
    have g5 := mul_nonneg ht0 hY0
    nlinarith
  have hdep1 : dwtDepth .periodization W.dec_len ≤ 103 := by
    unfold dwtDepth extDepth Wavelet.dec_len
    rw [if_neg hns]
    omega
  have hdep2 : iswtDepth W ≤ 209 := by
    unfold iswtDepth idwtDepth
    rw [l2', l3']
    omega
  have hpw : ∀ m ≤ 312 * n, (1 + u) ^ m ≤ 2 := by
    intro m hm
    have g1 : (m : ℝ) ≤ 312 * n := by exact_mod_cast hm
    have g2 := mul_le_mul_of_nonneg_right g1 hu0
    have := pow_le_two hu0 (n := m) (by linarith)
    linarith
  have hfits : ∀ m ≤ 312 * n, ∀ b, b ≤ 4 * Y → (1 + u) ^ m * b ≤ Ω := by
    intro m hm b hb
    have a1 := hpw m hm
    have a2 := pow_ge_one hu0 m
    have a3 : (1 + u) ^ m * b ≤ (1 + u) ^ m * (4 * Y) := mul_le_mul_of_nonneg_left hb (by linarith)
    have a4 := mul_le_mul_of_nonneg_right a1 (show 0 ≤ 4 * Y by linarith)
    have : 8 * 32 ^ n * (X + 128 * κ) = 8 * Y := by rw [hY]; ring
    linarith
  have hBY : B ≤ Y - 59 * κ := hRk 0 (Nat.zero_le _)
  have hdf : ∀ j < n, DwtFits u κ Ω .periodization W (j * dwtDepth .periodization W.dec_len)
      (decBound .periodization W κ X j) 0 := by
    intro j hj
    have hjn : j * dwtDepth .periodization W.dec_len + dwtDepth .periodization W.dec_len ≤ 312 * n := by
      have : (j + 1) * dwtDepth .periodization W.dec_len ≤ n * 103 := Nat.mul_le_mul (by omega) hdep1
      rw [Nat.add_mul, Nat.one_mul] at this
      omega
    have b1 : decBound .periodization W κ X (j + 1) ≤ B := decBound_mono (by omega)
    have b2 : decBound .periodization W κ X j ≤ B := decBound_mono (by omega)
    have b3 : max (decBound .periodization W κ X j) (max (dwtBound .periodization W.dec_lo κ (decBound .periodization W κ X j))
        (dwtBound .periodization W.dec_hi κ (decBound .periodization W κ X j))) ≤ B := b1
    have b4 := (le_max_right _ _).trans b3
    have b5 := (le_max_left _ _).trans b4
    have b6 := (le_max_right _ _).trans b4
    unfold DwtFits
    rw [dwtBound_zero, dwtBound_zero]
    have e0 : extBound .periodization W.dec_len 0 0 = 0 := by simp [extBound]
    have e1 : ∀ Z, extBound .periodization W.dec_len κ Z = Z := by intro Z; simp [extBound]
    rw [e0, e1]
    simp only [add_zero]
    refine ⟨hfits _ ?_ _ ?_, hfits _ hjn _ ?_, hfits _ hjn _ ?_⟩
    · unfold dwtDepth at hjn ⊢; omega
    all_goals linarith
  have hif : ∀ k < n, IswtFits u κ Ω W (n * dwtDepth .periodization W.dec_len + k * iswtDepth W)
      (swtRecBound W κ B k) (swtChainErr W (ε * B) k) := by
    intro k hk
    unfold IswtFits
    apply hfits
    · have g1 : (k + 1) * iswtDepth W ≤ n * 209 := Nat.mul_le_mul (by omega) hdep2
      have g2 : n * dwtDepth .periodization W.dec_len ≤ n * 103 := Nat.mul_le_mul le_rfl hdep1
      rw [Nat.add_mul, Nat.one_mul] at g1
      omega
    · have g1 := hRk (k + 1) (by omega)
      have g2 : iswtBound W κ (swtRecBound W κ B k) ≤ Y - 59 * κ := (le_max_right _ _).trans g1
      have g3 := hEk (k + 1) (by omega)
      have g4 : iswtBound W 0 (swtChainErr W (ε * B) k) ≤ ε * Y := by
        have e : iswtBound W 0 (swtChainErr W (ε * B) k) = idwtBound W 0 (swtChainErr W (ε * B) k) := by
          unfold iswtBound; ring
        rw [e]
        have : swtChainErr W (ε * B) (k + 1) =
          max (swtChainErr W (ε * B) k) (idwtBound W 0 (swtChainErr W (ε * B) k)) + ε * B := rfl
        have := le_max_right (swtChainErr W (ε * B) k) (idwtBound W 0 (swtChainErr W (ε * B) k))
        linarith
      have g5 : ε * Y ≤ Y := by nlinarith
      linarith
  obtain ⟨cs, y, r1, r2, r3⟩ := iswt_swt_near H Kp hok ht0 h4 hx hn hX0 hX hlev hdf hif trim
  refine ⟨o, cs, y, h1, by rw [hW]; exact r1, by rw [hW]; exact r2, List.Forall₂.length_eq r3, fun i hi => ?_⟩
  have r4 := r3
  unfold Accurate at r4
  rw [List.forall₂_iff_get] at r4
  have e1 := (r4.2 i (by rw [r4.1]; exact hi) hi).2.2
  rw [List.getD_eq_getElem _ _ hi, List.getD_eq_getElem _ _ (by rw [r4.1]; exact hi)]
  refine le_trans e1 ?_
  have m1 : n * dwtDepth .periodization W.dec_len + n * iswtDepth W ≤ 312 * n := by
    have g1 : n * iswtDepth W ≤ n * 209 := Nat.mul_le_mul le_rfl hdep2
    have g2 : n * dwtDepth .periodization W.dec_len ≤ n * 103 := Nat.mul_le_mul le_rfl hdep1
    omega
  have m2 : (1 + u) ^ (n * dwtDepth .periodization W.dec_len + n * iswtDepth W) ≤ 1 + 624 * (n * u) := by
    refine (pow_le_pow_right₀ (by linarith) m1).trans ?_
    have := pow_le_two hu0 (n := 312 * n) (by push_cast; linarith)
    push_cast at this
    linarith
  have m3 := hRk n le_rfl
  have m4 := hEk n le_rfl
  have m5 := swtRecBound_nonneg (w := W) (κ := κ) hB0 n
  have m6 := swtChainErr_nonneg (w := W) hτ n
  have m7 : ε * Y ≤ Y := by nlinarith
  have hnu0 : 0 ≤ (n : ℝ) * u := by positivity
  have m8 := mul_le_mul_of_nonneg_right m2 (add_nonneg m5 m6)
  have m9 : 624 * (n * u) * (swtRecBound W κ B n + swtChainErr W (ε * B) n) ≤ 624 * (n * u) * (2 * Y) :=
    mul_le_mul_of_nonneg_left (by linarith) (by positivity)
  have : Y * (ε + 1248 * n * u) = ε * Y + 624 * (n * u) * (2 * Y) := by ring
  rw [this]
  linarith

end Pywt
