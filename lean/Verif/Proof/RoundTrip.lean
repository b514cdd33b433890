import Verif.Proof.Rounding
import Verif.Proof.Approx
import Verif.Proof.Multi

/-!
# Reconstruction in floating-point arithmetic
-/

set_option linter.unusedSectionVars false
set_option autoImplicit false

namespace Pywt

open Finset Spec Sim

variable {fl : ℝ → ℝ} {u κ Ω : ℝ}

/-- Samples of the extended signal near the signal. -/
theorem ext_le_near {x : List ℝ} {mode : Mode} (hx : SignalOk mode x) {B : ℝ} (hB0 : 0 ≤ B)
    (hB : ∀ v ∈ x, |v| ≤ B) {F : ℕ} {p : ℤ} (h1 : -(F : ℤ) ≤ p) (h2 : p < x.length + F) :
    |Spec.ext mode x p| ≤ extMax mode F B := by
  have ha : ∀ p, |at' x p| ≤ B := fun p => at'_le (M := ℝ) hB0 hB p
  have hF0 : (0 : ℝ) ≤ F := Nat.cast_nonneg F
  have hFB := mul_nonneg hF0 hB0
  by_cases hm : Repeats mode
  · unfold extMax
    rw [if_neg (by rintro (h | h); exacts [hm.1 h, hm.2 h])]
    exact ext_le (M := ℝ) hm hB0 hB p
  · have hm' : mode = .smooth ∨ mode = .antireflect := by
      unfold Repeats at hm; tauto
    unfold extMax
    rw [if_pos hm']
    rcases hm' with rfl | rfl
    · simp only [Spec.ext]
      have hline : ∀ (a b : ℝ) (k : ℤ), |a| ≤ B → |b| ≤ B → 0 ≤ k → k ≤ F →
          |a + k • (a - b)| ≤ (2 * F + 5) * B := by
        intro a b k h3 h4 h5 h6
        have h7 : |(k : ℝ)| ≤ F := by
          rw [abs_of_nonneg (by exact_mod_cast h5)]; exact_mod_cast h6
        have h8 : |a - b| ≤ 2 * B := by
          have := abs_sub a b
          linarith
        calc |a + k • (a - b)| ≤ |a| + |k • (a - b)| := abs_add_le _ _
          _ = |a| + |(k : ℝ)| * |a - b| := by rw [zsmul_eq_mul, abs_mul]
          _ ≤ B + F * (2 * B) := by
            have := mul_le_mul h7 h8 (abs_nonneg _) hF0
            linarith
          _ ≤ _ := by nlinarith
      split_ifs with h3 h4 h5
      · exact (ha _).trans (by nlinarith)
      · exact hline _ _ _ (ha _) (ha _) (by omega) (by omega)
      · exact (ha _).trans (by nlinarith)
      · exact hline _ _ _ (ha _) (ha _) (by omega) (by omega)
    · have hN : 2 ≤ x.length := hx.2 (.inr rfl)
      simp only [Spec.ext]
      set m : ℤ := 2 * ((x.length : ℤ) - 1) with hmdef
      have hm2 : 2 ≤ m := by omega
      have hdiv := Int.mul_ediv_add_emod p m
      have hr1 := Int.emod_nonneg p (show m ≠ 0 by omega)
      have hr2 := Int.emod_lt_of_pos p (show 0 < m by omega)
      generalize p / m = q at *
      have hq : |2 * q| ≤ (F : ℤ) + 1 := by
        have hq1 : 2 * q ≤ (F : ℤ) + 1 := by
          by_contra hcon
          have : (F : ℤ) + 2 ≤ 2 * q := by omega
          have h3 : m * q = (x.length - 1) * (2 * q) := by rw [hmdef]; ring
          have h4 : ((x.length : ℤ) - 1) * (F + 2) ≤ (x.length - 1) * (2 * q) :=
            mul_le_mul_of_nonneg_left this (by omega)
          have h5 : (1 : ℤ) * (F + 1) ≤ ((x.length : ℤ) - 1) * (F + 1) :=
            mul_le_mul_of_nonneg_right (by omega) (by omega)
          nlinarith
        have hq2 : -(F : ℤ) - 1 ≤ 2 * q := by
          by_contra hcon
          have : q ≤ -1 := by omega
          have h3 : 2 * q ≤ -(F : ℤ) - 2 := by omega
          have h4 : m * (q + 1) ≤ 2 * (q + 1) :=
            mul_le_mul_of_nonpos_right hm2 (by omega)
          have : m * (q + 1) = m * q + m := by ring
          omega
        rw [abs_le]
        constructor <;> omega
      have hq' : |((2 * q : ℤ) : ℝ)| ≤ F + 1 := by
        rw [← Int.cast_abs]
        exact_mod_cast hq
      have h8 : |at' x ((x.length : ℤ) - 1) - at' x 0| ≤ 2 * B := by
        have := abs_sub (at' x ((x.length : ℤ) - 1)) (at' x 0)
        have h3 := ha ((x.length : ℤ) - 1)
        have h4 := ha 0
        linarith
      have h9 : |(if p % m < (x.length : ℤ) then at' x (p % m)
          else (2 : ℤ) • at' x ((x.length : ℤ) - 1) - at' x (m - p % m))| ≤ 3 * B := by
        split_ifs
        · exact (ha _).trans (by linarith)
        · have := abs_sub ((2 : ℤ) • at' x ((x.length : ℤ) - 1)) (at' x (m - p % m))
          have h3 := ha ((x.length : ℤ) - 1)
          have h4 := ha (m - p % m)
          rw [zsmul_eq_mul, abs_mul] at this
          norm_num at this
          rw [zsmul_eq_mul]
          norm_num
          linarith
      refine (abs_add_le _ _).trans ?_
      rw [zsmul_eq_mul, abs_mul]
      have := mul_le_mul hq' h8 (abs_nonneg _) (by linarith)
      nlinarith

theorem FlNear.shift {n : ℕ} {B e s s' t' τ : ℝ} (hu : 0 ≤ u) (h : FlNear u n B e s s') (ht : |t'| ≤ B)
    (hτ : |s' - t'| ≤ τ) : FlNear u n B (e + τ) s t' := by
  have hτ0 : 0 ≤ τ := (abs_nonneg _).trans hτ
  refine ⟨ht, add_nonneg h.2.1 hτ0, ?_⟩
  have h1 := pow_ge_one hu n
  calc |s - t'| = |(s - s') + (s' - t')| := by ring_nf
    _ ≤ |s - s'| + |s' - t'| := abs_add_le _ _
    _ ≤ ((1 + u) ^ n * (B + e) - B) + τ := add_le_add h.2.2 hτ
    _ ≤ ((1 + u) ^ n * (B + e) - B) + (1 + u) ^ n * τ := by nlinarith
    _ = _ := by ring

theorem Accurate.mono (hu : 0 ≤ u) {n m : ℕ} {B B' e e' : ℝ} {x' : List (Fl fl)} {x : List ℝ}
    (h : Accurate u n B e x' x) (hn : n ≤ m) (hB : B ≤ B') (he : e ≤ e') : Accurate u m B' e' x' x :=
  List.Forall₂.imp (fun _ _ h => FlNear.mono hu h hn hB he) h

theorem Accurate.shift (hu : 0 ≤ u) {n : ℕ} {B e τ : ℝ} {x' : List (Fl fl)} {x y : List ℝ}
    (h : Accurate u n B e x' x) (hl : x.length = y.length) (hy : ∀ v ∈ y, |v| ≤ B)
    (hτ : ∀ i < y.length, |x.getD i 0 - y.getD i 0| ≤ τ) : Accurate u n B (e + τ) x' y := by
  unfold Accurate at *
  rw [List.forall₂_iff_get] at h ⊢
  refine ⟨h.1.trans hl, fun i h1 h2 => ?_⟩
  have h3 := hτ i h2
  rw [List.getD_eq_getElem _ _ (by omega), List.getD_eq_getElem _ _ h2] at h3
  exact FlNear.shift hu (h.2 i h1 (by omega)) (hy _ (List.get_mem _ _)) h3

/-- Reconstruction of one level. -/
theorem idwt_step (H : Rounds fl u κ Ω) {w : Wavelet ℝ} (hw : w.Ok) {ε : ℝ}
    (hpr : PRWithin ε w.dec_lo w.dec_hi w.rec_lo w.rec_hi) {mode : Mode} {x : List ℝ}
    (hx : SignalOk mode x) {X : ℝ} (hX : ∀ v ∈ x, |v| ≤ X) {d : ℕ} {B e : ℝ}
    (hXB : X ≤ max B (idwtBound w κ B))
    (hB : 0 ≤ B) (he : 0 ≤ e) (hfit : IdwtFits u κ Ω w d B e) {a' d' : List (Fl fl)}
    (ha : Accurate u d B e a' (analysis mode w.dec_lo x))
    (hd : Accurate u d B e d' (analysis mode w.dec_hi x)) :
    ∃ r, idwt (w.toFl fl) mode (some a') (some d') = .ok r ∧ r.length = x.length + x.length % 2 ∧
      Accurate u (d + idwtDepth w) (max B (idwtBound w κ B))
        (idwtBound w 0 e + ε * extMax mode w.dec_len X) (r.take x.length) x := by
  have hu := H.u_nonneg
  have hN := hx.1
  have hX0 : 0 ≤ X := (abs_nonneg _).trans (hX (x[0]'(by omega)) (List.getElem_mem _))
  obtain ⟨cA, cD, y, h1, h2, h3, h4⟩ := idwt_dwt_within (M := ℝ) hw hpr hx
    (B := extMax mode w.dec_len X) fun p hp1 hp2 => ext_le_near hx hX0 hX hp1 hp2
  rw [dwt_ok hw hx] at h1
  cases h1
  obtain ⟨r, hr, hacc⟩ := idwt_near H hB he hfit (.some ha) (.some hd) y h2
  refine ⟨r, hr, hacc.length_eq.trans h3, ?_⟩
  have h5 : Accurate u (d + idwtDepth w) (max B (idwtBound w κ B)) (idwtBound w 0 e)
      (r.take x.length) (y.take x.length) :=
    Accurate.mono hu (List.forall₂_take _ hacc) le_rfl (le_max_right _ _) le_rfl
  refine Accurate.shift hu h5 (by simp [h3]) (fun v hv => (hX v hv).trans hXB) fun i hi => ?_
  have h6 := h4 i hi
  rw [Real.norm_eq_abs] at h6
  rw [List.getD_eq_getElem?_getD, List.getElem?_take_of_lt hi, ← List.getD_eq_getElem?_getD]
  exact h6

theorem chainErr_nonneg {w : Wavelet ℝ} {τ : ℝ} (hτ : 0 ≤ τ) (k : ℕ) : 0 ≤ chainErr w τ k := by
  induction k with
  | zero => exact le_rfl
  | succ k ih =>
    show 0 ≤ idwtBound w 0 (chainErr w τ k) + τ
    unfold idwtBound
    have h1 := l1_nonneg w.rec_lo
    have h2 := l1_nonneg w.rec_hi
    have := mul_nonneg (add_nonneg h1 h2) ih
    linarith

/-- The loop of `waverec` over the details of a decomposition. -/
theorem waverecLoop_near (H : Rounds fl u κ Ω) {w : Wavelet ℝ} (hw : w.Ok) {ε : ℝ} (hε : 0 ≤ ε)
    (hpr : PRWithin ε w.dec_lo w.dec_hi w.rec_lo w.rec_hi) {mode : Mode} {x : List ℝ} {X : ℝ} {n d : ℕ}
    (hX0 : 0 ≤ X) (hX : ∀ j ≤ n, ∀ v ∈ approx mode w.dec_lo j x, |v| ≤ X)
    (hlev : LevelsOk mode w.dec_len x.length n)
    (hfit : ∀ k < n, IdwtFits u κ Ω w (d + k * idwtDepth w) (recBound w κ X k)
      (chainErr w (ε * extMax mode w.dec_len X) k)) :
    ∀ j ≤ n, ∀ (r : List (Fl fl)) (ds : List (List (Fl fl))),
      List.Forall₂ (Accurate u d X 0) ds
        (((List.range j).map fun i => detail mode w.dec_lo w.dec_hi i x).reverse) →
      Accurate u (d + (n - j) * idwtDepth w) (recBound w κ X (n - j))
        (chainErr w (ε * extMax mode w.dec_len X) (n - j))
        (r.take (approx mode w.dec_lo j x).length) (approx mode w.dec_lo j x) →
      r.length ≤ (approx mode w.dec_lo j x).length + 1 →
      ∃ r', waverecLoop (w.toFl fl) mode (some r) (ds.map some) = .ok (some r') ∧
        Accurate u (d + n * idwtDepth w) (recBound w κ X n)
          (chainErr w (ε * extMax mode w.dec_len X) n) (r'.take x.length) x ∧
        r'.length = if j = 0 then r.length else x.length + x.length % 2 := by
  have hu := H.u_nonneg
  have hτ : 0 ≤ ε * extMax mode w.dec_len X := by
    refine mul_nonneg hε ?_
    unfold extMax
    split
    · positivity
    · exact hX0
  intro j
  induction j with
  | zero =>
    intro _ r ds hds hr hrl
    have : ds = [] := by simpa using hds
    subst this
    refine ⟨r, rfl, ?_, by simp⟩
    simpa [approx] using hr
  | succ j ih =>
    intro hj r ds hds hr hrl
    have hsig : SignalOk mode (approx mode w.dec_lo j x) := by
      unfold SignalOk; rw [approx_length]; exact hlev j (by omega)
    simp only [List.range_succ, List.map_append, List.map_cons, List.map_nil, List.reverse_append,
      List.reverse_cons, List.reverse_nil, List.nil_append, List.cons_append] at hds
    cases hds with
    | @cons d' _ ds _ hd hds =>
      have hdl : d'.length = (approx mode w.dec_lo (j + 1) x).length :=
        hd.length_eq.trans (detail_length mode _ _ hw.2.2.1 _ _)
      have hrlen : (r.take (approx mode w.dec_lo (j + 1) x).length).length =
          (approx mode w.dec_lo (j + 1) x).length := hr.length_eq
      have htrim : waverecTrim (some r) (some d') = .ok (some (r.take d'.length)) := by
        rw [List.length_take] at hrlen
        unfold waverecTrim
        simp only
        by_cases h : r.length = d'.length + 1
        · rw [if_pos h]
        · rw [if_neg h, if_neg (by omega), List.take_of_length_le (by omega)]
      have hk : n - j = (n - (j + 1)) + 1 := by omega
      have hXr : X ≤ recBound w κ X (n - (j + 1)) := recBound_mono (Nat.zero_le _)
      obtain ⟨y, hy, hyl, hya⟩ := idwt_step H hw hpr hsig (hX j (by omega))
        (d := d + (n - (j + 1)) * idwtDepth w) (B := recBound w κ X (n - (j + 1)))
        (e := chainErr w (ε * extMax mode w.dec_len X) (n - (j + 1)))
        (hXr.trans (le_max_left _ _)) (recBound_nonneg hX0 _) (chainErr_nonneg hτ _)
        (hfit _ (by omega)) (a' := r.take d'.length) (d' := d')
        (by rw [hdl, ← approx_succ]; exact hr)
        (Accurate.mono hu hd (by omega) hXr (chainErr_nonneg hτ _))
      obtain ⟨r', h1, h2, h3⟩ := ih (by omega) y ds hds (by
        rw [hk]
        have : d + (n - (j + 1) + 1) * idwtDepth w = d + (n - (j + 1)) * idwtDepth w + idwtDepth w := by
          ring
        rw [this]
        exact hya) (by omega)
      refine ⟨r', ?_, h2, ?_⟩
      · simp only [List.map_cons, waverecLoop, htrim, Py_bind_ok, hy]
        exact h1
      · rw [h3, if_neg (by omega : ¬ j + 1 = 0)]
        split_ifs with h0
        · rw [hyl, h0]; rfl
        · rfl

/-- Several levels of decomposition and reconstruction. -/
theorem waverec_wavedec_near (H : Rounds fl u κ Ω) {w : Wavelet ℝ} (hw : w.Ok) {ε : ℝ} (hε : 0 ≤ ε)
    (hpr : PRWithin ε w.dec_lo w.dec_hi w.rec_lo w.rec_hi) {mode : Mode} {x : List ℝ} {X : ℝ} {n : ℕ}
    (hX0 : 0 ≤ X) (hX : ∀ v ∈ x, |v| ≤ X) (hlev : LevelsOk mode w.dec_len x.length n)
    (hdec : ∀ j < n, DwtFits u κ Ω mode w (j * dwtDepth mode w.dec_len) (decBound mode w κ X j) 0)
    (hrec : ∀ k < n, IdwtFits u κ Ω w (n * dwtDepth mode w.dec_len + k * idwtDepth w)
      (recBound w κ (decBound mode w κ X n) k)
      (chainErr w (ε * extMax mode w.dec_len (decBound mode w κ X n)) k)) :
    ∃ cs y, wavedec (w.toFl fl) mode (some n) (toFl fl x) = .ok cs ∧
      waverec (w.toFl fl) mode (cs.map some) = .ok (some y) ∧
      y.length = (if n = 0 then x.length else x.length + x.length % 2) ∧
      Accurate u (n * dwtDepth mode w.dec_len + n * idwtDepth w) (recBound w κ (decBound mode w κ X n) n)
        (chainErr w (ε * extMax mode w.dec_len (decBound mode w κ X n)) n) (y.take x.length) x := by
  have hu := H.u_nonneg
  have hx0 : Accurate u 0 X 0 (toFl fl x) x := by
    unfold Accurate toFl
    rw [List.forall₂_map_left_iff, List.forall₂_same]
    intro v hv
    exact FlNear.refl hu 0 (hX v hv) le_rfl
  have hcl : checkLevel [x.length] [w.dec_len] (some (n : ℤ)) = .ok n := by
    rw [checkLevel_one (show 2 ≤ w.dec_len from hw.1)]
    simp
  have hz : ∀ j, decBound mode w 0 0 j = 0 := by
    intro j
    induction j with
    | zero => rfl
    | succ j ih =>
      show max (decBound mode w 0 0 j) (max (dwtBound mode w.dec_lo 0 (decBound mode w 0 0 j))
        (dwtBound mode w.dec_hi 0 (decBound mode w 0 0 j))) = 0
      rw [ih]
      simp [dwtBound, extBound]
  have hwd : wavedec w mode (some (n : ℤ)) x = .ok (cascade mode w.dec_lo w.dec_hi n x) := by
    unfold wavedec
    rw [hcl]
    simp only [Py_bind_ok]
    rw [wavedecLoop_ok hw n x [] hlev]
    simp
  obtain ⟨cs, h1, h2⟩ := wavedec_near H hw hX0 le_rfl hx0 hcl
    (by intro j hj; rw [hz, Nat.zero_add]; exact hdec j hj) _ hwd
  rw [hz, Nat.zero_add] at h2
  have hXn := decBound_nonneg (mode := mode) (w := w) (κ := κ) hX0 n
  -- the exact approximations are bounded
  have happ : ∀ j ≤ n, ∀ v ∈ approx mode w.dec_lo j x, |v| ≤ decBound mode w κ X j := by
    intro j hj
    have hx0' : Accurate u 0 X 0 (toFl fl x) x := hx0
    have hclj : checkLevel [x.length] [w.dec_len] (some (j : ℤ)) = .ok j := by
      rw [checkLevel_one (show 2 ≤ w.dec_len from hw.1)]
      simp
    have hwdj : wavedec w mode (some (j : ℤ)) x = .ok (cascade mode w.dec_lo w.dec_hi j x) := by
      unfold wavedec
      rw [hclj]
      simp only [Py_bind_ok]
      rw [wavedecLoop_ok hw j x [] (fun i hi => hlev i (by omega))]
      simp
    obtain ⟨cs', -, h4⟩ := wavedec_near H hw hX0 le_rfl hx0' hclj
      (by intro i hi; rw [hz, Nat.zero_add]; exact hdec i (by omega)) _ hwdj
    unfold cascade at h4
    cases h4 with
    | @cons a _ _ _ ha _ =>
      intro v hv
      unfold Accurate at ha
      rw [List.forall₂_iff_get] at ha
      obtain ⟨i, hi, rfl⟩ := List.getElem_of_mem hv
      exact (ha.2 i (by rw [ha.1]; exact hi) hi).1
  unfold cascade at h2
  cases h2 with
  | @cons a _ ds _ ha hds =>
    obtain ⟨y, hy1, hy2, hy3⟩ := waverecLoop_near H hw hε hpr (x := x) (X := decBound mode w κ X n) (n := n)
      (d := n * dwtDepth mode w.dec_len) hXn
      (fun j hj v hv => (happ j hj v hv).trans (decBound_mono hj)) hlev hrec n le_rfl a ds hds
      (by
        rw [Nat.sub_self, Nat.zero_mul, Nat.add_zero]
        have hl : a.length = (approx mode w.dec_lo n x).length := ha.length_eq
        rw [← hl, List.take_length]
        exact ha)
      (by rw [ha.length_eq]; omega)
    refine ⟨a :: ds, y, h1, ?_, ?_, hy2⟩
    · rw [← hy1]
      simp only [List.map_cons]
      cases ds <;> rfl
    · rw [hy3]
      split_ifs with h0
      · subst h0
        have := ha.length_eq
        simpa [approx] using this
      · rfl

end Pywt
