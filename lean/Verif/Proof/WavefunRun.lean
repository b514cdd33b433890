import Verif.Proof.Wavefun
import Verif.Props.Objects

/-! What `Wavelet.wavefun` computes. -/

set_option linter.unusedSectionVars false

namespace Pywt

open Finset Spec

theorem getKeepLength_eq (l : ℕ) (F : ℤ) : getKeepLength l F = 2 ^ l * (F - 1) - (F - 2) := by
  unfold getKeepLength
  induction l with
  | zero => simp
  | succ l ih => rw [Function.iterate_succ_apply', ih, pow_succ]; ring

theorem iter_upConv_length (h : List ℝ) (hh : 2 ≤ h.length) (l : ℕ) : ∀ c : List ℝ, 1 ≤ c.length →
    (((upConvFull h)^[l] c).length : ℤ) = 2 ^ l * (c.length + h.length - 2) - (h.length - 2) ∧
      1 ≤ ((upConvFull h)^[l] c).length := by
  induction l with
  | zero => intro c hc; refine ⟨by simp, hc⟩
  | succ l ih =>
    intro c hc
    rw [Function.iterate_succ_apply]
    obtain ⟨h1, h2⟩ := ih (upConvFull h c) (by rw [upConvFull_length]; omega)
    refine ⟨?_, h2⟩
    rw [h1, upConvFull_length]
    push_cast [show 2 ≤ 2 * c.length + h.length by omega]
    rw [pow_succ]
    ring

theorem toSq_iter_upConv (h : List ℝ) (hh : 2 ≤ h.length) (l : ℕ) : ∀ c : List ℝ, 1 ≤ c.length →
    toSq ((upConvFull h)^[l] c) = (upT h)^[l] (toSq c) := by
  induction l with
  | zero => intro c _; rfl
  | succ l ih =>
    intro c hc
    rw [Function.iterate_succ_apply, ih _ (by rw [upConvFull_length]; omega), toSq_upConvFull hh hc]
    rfl

theorem toSq_singleton (a : ℝ) : toSq [a] = Finsupp.single 0 a := by simp [toSq]

theorem tap_cons_zero (c : List ℝ) (k : ℕ) (n : ℤ) : tap (0 :: (c ++ List.replicate k 0)) n = tap c (n - 1) := by
  unfold tap
  by_cases h : 0 ≤ n - 1 ∧ n - 1 < c.length
  · rw [if_pos h, if_pos (by simp; omega)]
    have : n.toNat = (n - 1).toNat + 1 := by omega
    rw [this, List.getD_cons_succ, List.getD_append _ _ _ _ (by omega)]
  · rw [if_neg h]
    split_ifs with h2
    · by_cases h0 : n = 0
      · subst h0; simp
      · have : n.toNat = (n - 1).toNat + 1 := by omega
        rw [this, List.getD_cons_succ, List.getD_append_right _ _ _ _ (by omega)]
        simp
    · rfl

/-- The samples that stand for the cascade started with the filter `f` and the value `a`, and refined `l` times. -/
def IsCascade (h f : List ℝ) (l : ℕ) (a : ℝ) (phi : List ℝ) : Prop :=
  toSq phi = shiftSq 1 ((upT h)^[l] (upT f (Finsupp.single 0 a)))

theorem sampledFun_ok {w : Wavelet ℝ} (hw : w.Ok) (part : String) (hp : part = "a" ∨ part = "d") (a : ℝ) (l : ℕ)
    {r : ℤ} (hr : 0 ≤ r) :
    ∃ phi, sampledFun part a w ((l + 1 : ℕ) : ℤ) (getKeepLength (l + 1) w.dec_len) r = .ok phi ∧
      (phi.length : ℤ) = getKeepLength (l + 1) w.dec_len + r + 1 ∧
      (∀ m : ℤ, tap phi m ≠ 0 → 1 ≤ m ∧ m ≤ getKeepLength (l + 1) w.dec_len) ∧
      IsCascade w.rec_lo (if part = "a" then w.rec_lo else w.rec_hi) l a phi := by
  obtain ⟨h1, h2, h3, h4, h5⟩ := hw
  have hw : w.Ok := ⟨h1, h2, h3, h4, h5⟩
  set f := if part = "a" then w.rec_lo else w.rec_hi with hf
  have hfl : f.length = w.dec_len := by
    rw [hf]; split_ifs
    · exact h4
    · exact h5
  have hlo : w.rec_lo.length = w.dec_len := h4
  have hd2 : 2 ≤ w.dec_len := h1
  set c := (upConvFull w.rec_lo)^[l] (upConvFull f [a]) with hc
  have hup : upcoef part w ((l + 1 : ℕ) : ℤ) 0 [a] = .ok c := by
    unfold upcoef
    have hpo : partOk part := by rcases hp with rfl | rfl <;> decide
    rw [if_neg (by simp [hpo])]
    simp only
    rw [if_neg (by omega), Int.toNat_natCast, upcoefLoop_ok hw _ (l + 1) 0 [a] (by simp), Py_bind_ok]
    simp only [takeCentral]
    rw [hc, hf]
    by_cases hpa : part = "a" <;> simp [hpa]
  have hclen : (c.length : ℤ) = getKeepLength (l + 1) w.dec_len := by
    have := (iter_upConv_length w.rec_lo (by omega) l (upConvFull f [a]) (by rw [upConvFull_length]; simp; omega)).1
    rw [hc, this, getKeepLength_eq, upConvFull_length, hfl, hlo, pow_succ]
    simp only [List.length_singleton]
    push_cast [show 2 ≤ 2 * 1 + w.dec_len by omega]
    ring
  refine ⟨0 :: (c ++ List.replicate r.toNat 0), ?_, ?_, ?_, ?_⟩
  · unfold sampledFun
    rw [hup, Py_bind_ok]
    unfold npZeros keepMiddle
    rw [if_neg (by omega), Py_bind_ok, if_neg (by omega)]
  · simp; omega
  · intro m hm
    rw [tap_cons_zero] at hm
    unfold tap at hm
    split_ifs at hm with h
    · omega
    · exact absurd rfl hm
  · unfold IsCascade
    ext n
    rw [toSq_apply, tap_cons_zero, shiftSq_apply, ← toSq_apply, hc,
      toSq_iter_upConv _ (by omega) l _ (by rw [upConvFull_length]; simp; omega),
      toSq_upConvFull (by omega) (by simp), toSq_singleton]

theorem sampledFun_err {w : Wavelet ℝ} {part : String} (hp : part = "a" ∨ part = "d") {a : ℝ} {level k r : ℤ}
    (hl : level < 1) : sampledFun part a w level k r = .error .value := by
  unfold sampledFun upcoef
  have hpo : partOk part := by rcases hp with rfl | rfl <;> decide
  rw [if_neg (by simp [hpo])]
  simp only
  rw [if_pos hl]
  rfl

theorem linspace_dyadic (L : ℕ) {n : ℕ} (hn : 2 ≤ n) :
    ((linspace 0 (((n : ℤ) - 1) / (2 ^ L : ℤ)) n).map fun q : ℚ => (q : ℝ)).length = n ∧
    DyadicGrid L ((linspace 0 (((n : ℤ) - 1) / (2 ^ L : ℤ)) n).map fun q : ℚ => (q : ℝ)) := by
  have hl : ((linspace 0 (((n : ℤ) - 1) / (2 ^ L : ℤ)) n).map fun q : ℚ => (q : ℝ)).length = n := by
    unfold linspace; rw [if_neg (by omega)]; simp
  refine ⟨hl, ?_⟩
  intro m hm
  rw [List.getD_eq_getElem _ _ hm]
  rw [hl] at hm
  simp only [List.getElem_map, linspace]
  have h1 : ((n - 1 : ℕ) : ℝ) = (n : ℝ) - 1 := by push_cast [show 1 ≤ n by omega]; ring
  have h2 : (n : ℝ) - 1 ≠ 0 := by
    have : (2 : ℝ) ≤ n := by exact_mod_cast hn
    intro h
    linarith
  simp only [if_neg (show ¬ n = 1 by omega), List.getElem_map, List.getElem_range]
  push_cast
  rw [h1]
  field_simp
  ring

/-- The number of samples `wavefun` returns for an orthogonal wavelet. -/
def orthSamples (F L : ℕ) : ℕ := if F = 2 then 2 ^ L + 2 else (F - 1) * 2 ^ L + 1

/-- The number of samples `wavefun` returns for any other wavelet. -/
def biorSamples (F L : ℕ) : ℕ := if F = 2 then 2 ^ L + 2 else (F - 1) * 2 ^ L

theorem fix_orth {F L : ℕ} (hF : 2 ≤ F) (he : F % 2 = 0) :
    fixOutputLength (((F : ℤ) - 1) * 2 ^ L + 1) (getKeepLength L F) = orthSamples F L := by
  unfold fixOutputLength orthSamples
  rw [getKeepLength_eq]
  by_cases h : F = 2
  · subst h
    rw [if_pos (by push_cast; linarith), if_pos rfl]
    push_cast
    ring
  · have : (4 : ℤ) ≤ F := by omega
    rw [if_neg (by linarith), if_neg h]
    push_cast [show 1 ≤ F by omega]
    ring

theorem fix_bior {F L : ℕ} (hF : 2 ≤ F) (he : F % 2 = 0) :
    fixOutputLength (((F : ℤ) - 1) * 2 ^ L) (getKeepLength L F) = biorSamples F L := by
  unfold fixOutputLength biorSamples
  rw [getKeepLength_eq]
  by_cases h : F = 2
  · subst h
    rw [if_pos (by push_cast; linarith), if_pos rfl]
    push_cast
    ring
  · have : (4 : ℤ) ≤ F := by omega
    rw [if_neg (by linarith), if_neg h]
    push_cast [show 1 ≤ F by omega]
    ring

/-- The last sample that can differ from zero. -/
def lastSample (F L : ℕ) : ℕ := (F - 1) * 2 ^ L - (F - 2)

theorem keep_nat {F L : ℕ} (hF : 2 ≤ F) : getKeepLength L F = lastSample F L := by
  rw [getKeepLength_eq, lastSample]
  have h1 : F - 2 ≤ (F - 1) * 2 ^ L := by
    have : 1 ≤ 2 ^ L := Nat.one_le_two_pow
    calc F - 2 ≤ F - 1 := by omega
      _ = (F - 1) * 1 := by omega
      _ ≤ _ := Nat.mul_le_mul_left _ this
  rw [Nat.cast_sub h1, Nat.cast_mul, Nat.cast_sub hF, Nat.cast_sub (show 1 ≤ F by omega)]
  push_cast
  ring

theorem right_orth {F L : ℕ} (hF : 2 ≤ F) (he : F % 2 = 0) :
    0 ≤ getRightExtentLength (orthSamples F L) (getKeepLength L F) ∧ 2 ≤ orthSamples F L := by
  rw [← fix_orth hF he, getKeepLength_eq]
  have h2 : (2 : ℤ) ≤ orthSamples F L := by
    unfold orthSamples
    split_ifs
    · have : (0 : ℤ) ≤ 2 ^ L := by positivity
      push_cast
      linarith
    · have h1 : (1 : ℤ) ≤ 2 ^ L := by exact_mod_cast Nat.one_le_two_pow
      push_cast [show 1 ≤ F by omega]
      nlinarith
  unfold getRightExtentLength fixOutputLength
  refine ⟨?_, by omega⟩
  split_ifs <;> linarith

theorem right_bior {F L : ℕ} (hF : 2 ≤ F) (he : F % 2 = 0) :
    0 ≤ getRightExtentLength (biorSamples F L) (getKeepLength L F) ∧ 2 ≤ biorSamples F L := by
  rw [← fix_bior hF he, getKeepLength_eq]
  have h2 : (2 : ℤ) ≤ biorSamples F L := by
    unfold biorSamples
    split_ifs
    · have : (0 : ℤ) ≤ 2 ^ L := by positivity
      push_cast
      linarith
    · have h4 : (4 : ℤ) ≤ F := by omega
      have h1 : (1 : ℤ) ≤ 2 ^ L := by exact_mod_cast Nat.one_le_two_pow
      push_cast [show 1 ≤ F by omega]
      nlinarith
  unfold getRightExtentLength fixOutputLength
  refine ⟨?_, by omega⟩
  split_ifs <;> linarith

/-- Samples of length `n` that vanish outside the support and stand for a cascade. -/
def GoodSamples (w : Wavelet ℝ) (f : List ℝ) (L n : ℕ) (a : ℝ) (phi : List ℝ) : Prop :=
  phi.length = n ∧ (∀ m : ℤ, tap phi m ≠ 0 → 1 ≤ m ∧ m ≤ lastSample w.dec_len L) ∧
    IsCascade w.rec_lo f (L - 1) a phi

theorem sampledFun_good {w : Wavelet ℝ} (hw : w.Ok) (part : String) (hp : part = "a" ∨ part = "d") (a : ℝ) {L : ℕ}
    (hL : 1 ≤ L) {n : ℕ} (hn : 0 ≤ getRightExtentLength n (getKeepLength L w.dec_len)) :
    ∃ phi, sampledFun part a w L (getKeepLength L w.dec_len) (getRightExtentLength n (getKeepLength L w.dec_len)) =
      .ok phi ∧ GoodSamples w (if part = "a" then w.rec_lo else w.rec_hi) L n a phi := by
  obtain ⟨l, rfl⟩ : ∃ l, L = l + 1 := ⟨L - 1, by omega⟩
  obtain ⟨phi, h1, h2, h3, h4⟩ := sampledFun_ok hw part hp a l hn
  refine ⟨phi, h1, ?_, ?_, h4⟩
  · rw [getRightExtentLength] at h2
    omega
  · rwa [← keep_nat (show 2 ≤ w.dec_len from hw.1)]

theorem wavefun_orth {o : WaveletObj ℝ} (hw : o.w.Ok) (ho : o.orthogonal = true) {L : ℕ} (hL : 1 ≤ L) :
    ∃ phi psi x, o.wavefun L = .ok (.orth phi psi x) ∧ x.length = orthSamples o.w.dec_len L ∧ DyadicGrid L x ∧
      GoodSamples o.w o.w.rec_lo L (orthSamples o.w.dec_len L) (√2 ^ L) phi ∧
      GoodSamples o.w o.w.rec_hi L (orthSamples o.w.dec_len L) (√2 ^ L) psi := by
  have hF : 2 ≤ o.w.dec_len := hw.1
  have he : o.w.dec_len % 2 = 0 := hw.2.1
  obtain ⟨r1, r2⟩ := right_orth (L := L) hF he
  obtain ⟨phi, a1, a2⟩ := sampledFun_good hw "a" (.inl rfl) (√2 ^ L) hL r1
  obtain ⟨psi, b1, b2⟩ := sampledFun_good hw "d" (.inr rfl) (√2 ^ L) hL r1
  obtain ⟨x1, x2⟩ := linspace_dyadic L r2
  refine ⟨phi, psi, _, ?_, x1, x2, a2, b2⟩
  unfold WaveletObj.wavefun
  simp only [Int.toNat_natCast, ho, if_true, fix_orth hF he, a1, b1, Py_bind_ok]

theorem wavefun_bior {o : WaveletObj ℝ} (hw : o.w.Ok) (ho : o.orthogonal = false) {L : ℕ} (hL : 1 ≤ L) :
    ∃ phi_d psi_d phi_r psi_r x, o.wavefun L = .ok (.bior phi_d psi_d phi_r psi_r x) ∧
      x.length = biorSamples o.w.dec_len L ∧ DyadicGrid L x ∧
      GoodSamples o.w.inverse o.w.dec_lo.reverse L (biorSamples o.w.dec_len L) (√2 ^ L) phi_d ∧
      GoodSamples o.w.inverse o.w.dec_hi.reverse L (biorSamples o.w.dec_len L)
        ((if o.biorthogonal ∧ o.vmPsi % 4 ≠ 1 then -1 else 1) * √2 ^ L) psi_d ∧
      GoodSamples o.w o.w.rec_lo L (biorSamples o.w.dec_len L) (√2 ^ L) phi_r ∧
      GoodSamples o.w o.w.rec_hi L (biorSamples o.w.dec_len L)
        ((if o.biorthogonal ∧ o.vmPsi % 4 ≠ 1 then -1 else 1) * √2 ^ L) psi_r := by
  have hF : 2 ≤ o.w.dec_len := hw.1
  have he : o.w.dec_len % 2 = 0 := hw.2.1
  have hwi : o.w.inverse.Ok := by
    obtain ⟨h1, h2, h3, h4, h5⟩ := hw
    refine ⟨?_, ?_, ?_, ?_, ?_⟩ <;> simp only [Wavelet.inverse, List.length_reverse] <;> omega
  have hdi : o.w.inverse.dec_len = o.w.dec_len := by
    have := hw.2.2.2.1
    simp only [Wavelet.dec_len, Wavelet.inverse, List.length_reverse]
    exact this
  have hnm : (if o.biorthogonal ∧ o.vmPsi % 4 ≠ 1 then -(√2 ^ L) else √2 ^ L) =
      (if o.biorthogonal ∧ o.vmPsi % 4 ≠ 1 then -1 else 1) * √2 ^ L := by
    split_ifs <;> ring
  obtain ⟨r1, r2⟩ := right_bior (L := L) hF he
  obtain ⟨phi, a1, a2⟩ := sampledFun_good hw "a" (.inl rfl) (√2 ^ L) hL r1
  obtain ⟨psi, b1, b2⟩ := sampledFun_good hw "d" (.inr rfl)
    ((if o.biorthogonal ∧ o.vmPsi % 4 ≠ 1 then -1 else 1) * √2 ^ L) hL r1
  obtain ⟨phi', a1', a2'⟩ := sampledFun_good hwi "a" (.inl rfl) (√2 ^ L) hL (n := biorSamples o.w.dec_len L)
    (by rw [hdi]; exact r1)
  obtain ⟨psi', b1', b2'⟩ := sampledFun_good hwi "d" (.inr rfl)
    ((if o.biorthogonal ∧ o.vmPsi % 4 ≠ 1 then -1 else 1) * √2 ^ L) hL (n := biorSamples o.w.dec_len L)
    (by rw [hdi]; exact r1)
  rw [hdi] at a1' b1'
  obtain ⟨x1, x2⟩ := linspace_dyadic L r2
  refine ⟨phi', psi', phi, psi, _, ?_, x1, x2, a2', b2', a2, b2⟩
  unfold WaveletObj.wavefun waveletObjOfBank
  rw [C39_roundtrip o.w.inverse hwi]
  simp only [Int.toNat_natCast, ho, Py_bind_ok, Py_pure, hnm, hdi, fix_bior hF he, a1, b1, a1', b1']
  push_cast
  rfl

theorem wavefun_err {o : WaveletObj ℝ} (hw : o.w.Ok) {level : ℤ} (hl : level < 1) : o.wavefun level = .error .value := by
  have hwi : o.w.inverse.Ok := by
    obtain ⟨h1, h2, h3, h4, h5⟩ := hw
    refine ⟨?_, ?_, ?_, ?_, ?_⟩ <;> simp only [Wavelet.inverse, List.length_reverse] <;> omega
  unfold WaveletObj.wavefun waveletObjOfBank
  rw [C39_roundtrip o.w.inverse hwi]
  simp only [sampledFun_err (.inl rfl : "a" = "a" ∨ "a" = "d") hl, Py_bind_error, Py_bind_ok, Py_pure]
  split_ifs <;> rfl

end Pywt
