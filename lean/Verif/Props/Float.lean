import Verif.Proof.FloatTop

/-!
# C61: the transforms in floating-point arithmetic
-/

set_option autoImplicit false

namespace Pywt

open Finset Spec Sim

variable {fl : ℝ → ℝ} {u κ Ω : ℝ}

/-- **C61 (formats).** IEEE double and single precision round with a relative error of at most `2^-53` and `2^-24`, or
an absolute error of half the smallest positive number. -/
theorem C61_ieee (Ω : ℝ) :
    Rounds binary64 ((2 : ℝ) ^ (-53 : ℤ)) ((2 : ℝ) ^ (-1022 : ℤ)) Ω ∧
      Rounds binary32 ((2 : ℝ) ^ (-24 : ℤ)) ((2 : ℝ) ^ (-126 : ℤ)) Ω := by
  constructor
  · have := ieee_rounds (p := 53) (-1074) Ω
    norm_num at this ⊢
    exact this
  · have := ieee_rounds (p := 24) (-149) Ω
    norm_num at this ⊢
    exact this

example : binary64 ((2 : ℝ) ^ 53 + 1) = (2 : ℝ) ^ 53 := by
  have hl : Int.log 2 ((2 : ℝ) ^ 53 + 1) = 53 := by
    have h1 : (53 : ℤ) ≤ Int.log 2 ((2 : ℝ) ^ 53 + 1) := by
      rw [← Int.zpow_le_iff_le_log (by norm_num) (by positivity)]
      norm_num
    have h2 : Int.log 2 ((2 : ℝ) ^ 53 + 1) < 54 := by
      rw [← Int.lt_zpow_iff_log_lt (by norm_num) (by positivity)]
      norm_num
    omega
  have hu : ulpExp 53 (-1074) ((2 : ℝ) ^ 53 + 1) = 1 := by
    unfold ulpExp
    rw [abs_of_pos (by positivity), hl]
    norm_num
  have hf : ⌊((2 : ℝ) ^ 53 + 1) / 2⌋ = 2 ^ 52 := by
    rw [Int.floor_eq_iff]
    norm_num
  unfold binary64 ieee
  rw [hu]
  unfold rne
  rw [zpow_one, hf]
  norm_num

/-- **C61 (`dwt`).** Whenever `dwt` succeeds in exact arithmetic it succeeds in floating point, and unless something
overflows every coefficient is within the stated distance of the exact coefficient of the exact signal; the bound
carries an error already present in the samples. -/
theorem C61_dwt_rounding (H : Rounds fl u κ Ω) {w : Wavelet ℝ} (hw : w.Ok) {mode : Mode} {n : ℕ} {X e : ℝ}
    (hX : 0 ≤ X) (he : 0 ≤ e) (hfit : DwtFits u κ Ω mode w n X e) {x' : List (Fl fl)} {x : List ℝ}
    (hx : Accurate u n X e x' x) {cA cD : List ℝ} (h : dwt w mode x = .ok (cA, cD)) :
    ∃ cA' cD', dwt (w.toFl fl) mode x' = .ok (cA', cD') ∧
      Accurate u (n + dwtDepth mode w.dec_len) (dwtBound mode w.dec_lo κ X) (dwtBound mode w.dec_lo 0 e) cA' cA ∧
      Accurate u (n + dwtDepth mode w.dec_len) (dwtBound mode w.dec_hi κ X) (dwtBound mode w.dec_hi 0 e)
        cD' cD := by
  obtain ⟨⟨a', d'⟩, h1, h2, h3⟩ := dwt_near H hw hX he hfit hx _ h
  exact ⟨a', d', h1, h2, h3⟩

/-- **C61 (`dwt` of machine numbers).** Coefficients of a signal of machine numbers of magnitude at most `X`: the
error is at most `((1+u)^(F+1) - 1) (X ∑|f| + 2 F κ)` in the modes that repeat samples. -/
theorem C61_dwt_error (H : Rounds fl u κ Ω) {w : Wavelet ℝ} (hw : w.Ok) {mode : Mode} {x : List ℝ} {X : ℝ}
    (hX0 : 0 ≤ X) (hX : ∀ v ∈ x, |v| ≤ X) (hfit : DwtFits u κ Ω mode w 0 X 0) {cA cD : List ℝ}
    (h : dwt w mode x = .ok (cA, cD)) :
    ∃ cA' cD', dwt (w.toFl fl) mode (toFl fl x) = .ok (cA', cD') ∧ cA'.length = cA.length ∧
      cD'.length = cD.length ∧
      (∀ i < cA.length, |(cA'.getD i 0).val - cA.getD i 0| ≤
        ((1 + u) ^ dwtDepth mode w.dec_len - 1) * dwtBound mode w.dec_lo κ X) ∧
      ∀ i < cD.length, |(cD'.getD i 0).val - cD.getD i 0| ≤
        ((1 + u) ^ dwtDepth mode w.dec_len - 1) * dwtBound mode w.dec_hi κ X := by
  obtain ⟨⟨a', d'⟩, h1, h2, h3⟩ := dwt_near H hw hX0 le_rfl hfit (toFl_accurate H.u_nonneg hX) _ h
  simp only [dwtBound_zero, Nat.zero_add] at h2 h3
  exact ⟨a', d', h1, h2.length_eq, h3.length_eq, fun i hi => Accurate.sample h2 i hi,
    fun i hi => Accurate.sample h3 i hi⟩

/-- A bank that reconstructs exactly, with coefficients that are powers of 2. -/
noncomputable def halfBank : Wavelet ℝ := ⟨[1 / 2, 1 / 2], [-1 / 2, 1 / 2], [1, 1], [1, -1]⟩

theorem halfBank_pr : PRWithin 0 halfBank.dec_lo halfBank.dec_hi halfBank.rec_lo halfBank.rec_hi := by
  intro p hp
  have : p = 0 ∨ p = 1 := by omega
  rcases this with rfl | rfl <;>
    norm_num [halfBank, parityCoeff, sum_range_succ, List.getD]

theorem halfBank_fits : DwtFits (2 ^ (-53 : ℤ)) (2 ^ (-1022 : ℤ)) 1000 .periodic halfBank 0 5 0 ∧
    dwtBound .periodic halfBank.dec_lo (2 ^ (-1022 : ℤ)) 5 ≤ 6 ∧
    dwtBound .periodic halfBank.dec_hi (2 ^ (-1022 : ℤ)) 5 ≤ 6 ∧
    IdwtFits (2 ^ (-53 : ℤ)) (2 ^ (-1022 : ℤ)) 1000 halfBank (dwtDepth .periodic halfBank.dec_len) 6 0 := by
  have h0 : (0 : ℝ) ≤ 2 ^ (-53 : ℤ) := by positivity
  have h1 : ((2 : ℝ) ^ (-53 : ℤ)) ≤ 1 / 1000 := by norm_num
  have h2 : ((2 : ℝ) ^ (-1022 : ℤ)) ≤ 1 / 16 :=
    (zpow_le_zpow_right₀ (by norm_num) (by norm_num : (-1022 : ℤ) ≤ -4)).trans (by norm_num)
  have h3 : (0 : ℝ) ≤ 2 ^ (-1022 : ℤ) := by positivity
  generalize (2 : ℝ) ^ (-53 : ℤ) = u at *
  generalize (2 : ℝ) ^ (-1022 : ℤ) = κ at *
  have hp : ∀ n ≤ 10, (1 + u) ^ n ≤ 2 := by
    intro n hn
    refine (pow_le_pow_left₀ (by linarith) (show 1 + u ≤ 1001 / 1000 by linarith) n).trans ?_
    refine (pow_le_pow_right₀ (by norm_num) hn).trans ?_
    norm_num
  have key : ∀ n ≤ 10, ∀ b : ℝ, 0 ≤ b → b ≤ 500 → (1 + u) ^ n * b ≤ 1000 := by
    intro n hn b hb hb'
    have := mul_le_mul (hp n hn) hb' hb (by norm_num)
    linarith
  unfold DwtFits IdwtFits
  simp only [halfBank, Wavelet.dec_len, extDepth, dwtDepth, idwtDepth, dwtBound, idwtBound, extBound, l1,
    List.length_cons, List.length_nil, List.map_cons, List.map_nil, List.sum_cons, List.sum_nil, reduceCtorEq, or_self, if_false]
  norm_num [abs_of_nonneg, abs_div]
  refine ⟨?_, ?_, ?_⟩
  · refine key _ (by norm_num) _ ?_ ?_ <;> linarith
  · linarith
  · refine key _ (by norm_num) _ ?_ ?_ <;> linarith

example : Rounds binary64 (2 ^ (-53 : ℤ)) (2 ^ (-1022 : ℤ)) 1000 ∧ halfBank.Ok ∧
    (∀ v ∈ [(3 : ℝ), -5], |v| ≤ 5) ∧ DwtFits (2 ^ (-53 : ℤ)) (2 ^ (-1022 : ℤ)) 1000 .periodic halfBank 0 5 0 ∧
    ∃ r, dwt halfBank .periodic [(3 : ℝ), -5] = .ok r := by
  have hw : halfBank.Ok := by simp [halfBank, Wavelet.Ok]
  refine ⟨(C61_ieee _).1, hw, ?_, halfBank_fits.1, ?_⟩
  · intro v hv
    simp only [List.mem_cons, List.not_mem_nil, or_false] at hv
    rcases hv with rfl | rfl <;> norm_num [abs_of_nonneg, abs_neg]
  · exact ⟨_, dwt_ok hw ⟨by simp, by simp⟩⟩

/-- **C61 (`idwt`).** The same for reconstruction, also with a missing half of the coefficients. -/
theorem C61_idwt_rounding (H : Rounds fl u κ Ω) {w : Wavelet ℝ} {mode : Mode} {n : ℕ} {X e : ℝ}
    (hX : 0 ≤ X) (he : 0 ≤ e) (hfit : IdwtFits u κ Ω w n X e) {cA' cD' : Option (List (Fl fl))}
    {cA cD : Option (List ℝ)} (ha : Option.Rel (Accurate u n X e) cA' cA)
    (hd : Option.Rel (Accurate u n X e) cD' cD) {y : List ℝ} (h : idwt w mode cA cD = .ok y) :
    ∃ y', idwt (w.toFl fl) mode cA' cD' = .ok y' ∧
      Accurate u (n + idwtDepth w) (idwtBound w κ X) (idwtBound w 0 e) y' y :=
  idwt_near H hX he hfit ha hd y h

/-- **C61 (`wavedec`).** Rounding errors of a multilevel decomposition. -/
theorem C61_wavedec_rounding (H : Rounds fl u κ Ω) {w : Wavelet ℝ} (hw : w.Ok) {mode : Mode} {d : ℕ} {X e : ℝ}
    (hX : 0 ≤ X) (he : 0 ≤ e) {x' : List (Fl fl)} {x : List ℝ} (hx : Accurate u d X e x' x)
    {n : ℕ} (hfit : ∀ j < n, DwtFits u κ Ω mode w (d + j * dwtDepth mode w.dec_len) (decBound mode w κ X j)
      (decBound mode w 0 e j)) {cs : List (List ℝ)} (h : wavedec w mode (some (n : ℤ)) x = .ok cs) :
    ∃ cs', wavedec (w.toFl fl) mode (some (n : ℤ)) x' = .ok cs' ∧
      List.Forall₂ (Accurate u (d + n * dwtDepth mode w.dec_len) (decBound mode w κ X n) (decBound mode w 0 e n))
        cs' cs := by
  have hcl : checkLevel [x.length] [w.dec_len] (some (n : ℤ)) = .ok n := by
    rw [checkLevel_one (show 2 ≤ w.dec_len from hw.1)]
    simp
  exact wavedec_near H hw hX he hx hcl hfit cs h

/-- **C61 (`waverec`).** Rounding errors of a multilevel reconstruction. -/
theorem C61_waverec_rounding (H : Rounds fl u κ Ω) {w : Wavelet ℝ} {mode : Mode} {d : ℕ} {X e : ℝ}
    (hX : 0 ≤ X) (he : 0 ≤ e) {cs' : List (Option (List (Fl fl)))} {cs : List (Option (List ℝ))}
    (hcs : List.Forall₂ (Option.Rel (Accurate u d X e)) cs' cs)
    (hfit : ∀ j < cs.length - 1, IdwtFits u κ Ω w (d + j * idwtDepth w) (recBound w κ X j) (recBound w 0 e j))
    {y : Option (List ℝ)} (h : waverec w mode cs = .ok y) :
    ∃ y', waverec (w.toFl fl) mode cs' = .ok y' ∧
      Option.Rel (Accurate u (d + (cs.length - 1) * idwtDepth w) (recBound w κ X (cs.length - 1))
        (recBound w 0 e (cs.length - 1))) y' y :=
  waverec_near H hX he hcs hfit y h

example : Accurate (fl := binary64) (2 ^ (-53 : ℤ)) (dwtDepth .periodic halfBank.dec_len) 6 0 [⟨-2⟩] [-2] ∧
    IdwtFits (2 ^ (-53 : ℤ)) (2 ^ (-1022 : ℤ)) 1000 halfBank (dwtDepth .periodic halfBank.dec_len) 6 0 ∧
    ∃ r, idwt halfBank .periodic (some [(-2 : ℝ)]) (some [(-2 : ℝ)]) = .ok r := by
  refine ⟨?_, halfBank_fits.2.2.2, ?_⟩
  · refine List.Forall₂.cons (FlNear.refl (by positivity) _ (by norm_num) le_rfl) .nil
  · exact ⟨_, idwt_ok (by simp [halfBank, Wavelet.Ok]) rfl (by
      simp [halfBank, synthLen, Wavelet.rec_len])⟩

/-- **C61 (size of the bounds).** `(1+u)^n - 1` is at most `n u / (1 - n u)`. -/
theorem C61_gamma (hu : 0 ≤ u) {n : ℕ} (hn : n * u < 1) : (1 + u) ^ n - 1 ≤ n * u / (1 - n * u) :=
  gamma_le hu hn

example : (0 : ℝ) ≤ 2 ^ (-53 : ℤ) ∧ ((1000000 : ℕ) : ℝ) * 2 ^ (-53 : ℤ) < 1 := by norm_num

/-- **C61 (round trip).** `idwt(dwt(x))` in floating point gives `x` up to the reconstruction error `ε` of the filters
and the rounding errors of the two transforms, in every mode, for every signal. -/
theorem C61_roundtrip (H : Rounds fl u κ Ω) {w : Wavelet ℝ} (hw : w.Ok) {ε : ℝ}
    (hpr : PRWithin ε w.dec_lo w.dec_hi w.rec_lo w.rec_hi) {mode : Mode} {x : List ℝ}
    (hx : SignalOk mode x) {X : ℝ} (hX : ∀ v ∈ x, |v| ≤ X) (hd : DwtFits u κ Ω mode w 0 X 0)
    {B : ℝ} (hB1 : dwtBound mode w.dec_lo κ X ≤ B) (hB2 : dwtBound mode w.dec_hi κ X ≤ B)
    (hr : IdwtFits u κ Ω w (dwtDepth mode w.dec_len) B 0) :
    ∃ cA cD y, dwt (w.toFl fl) mode (toFl fl x) = .ok (cA, cD) ∧
      idwt (w.toFl fl) mode (some cA) (some cD) = .ok y ∧ y.length = x.length + x.length % 2 ∧
      ∀ n < x.length, |(y.getD n 0).val - x.getD n 0| ≤ ε * extMax mode w.dec_len X +
        ((1 + u) ^ (dwtDepth mode w.dec_len + idwtDepth w) - 1) * idwtBound w κ B :=
  roundtrip_one H hw hpr hx hX hd hB1 hB2 hr

/-- **C61 (multilevel round trip).** `waverec(wavedec(x))` in floating point, for any number of levels. -/
theorem C61_multilevel_roundtrip (H : Rounds fl u κ Ω) {w : Wavelet ℝ} (hw : w.Ok) {ε : ℝ} (hε : 0 ≤ ε)
    (hpr : PRWithin ε w.dec_lo w.dec_hi w.rec_lo w.rec_hi) {mode : Mode} {x : List ℝ} {X : ℝ} {n : ℕ}
    (hX0 : 0 ≤ X) (hX : ∀ v ∈ x, |v| ≤ X) (hlev : LevelsOk mode w.dec_len x.length n)
    (hdec : ∀ j < n, DwtFits u κ Ω mode w (j * dwtDepth mode w.dec_len) (decBound mode w κ X j) 0)
    (hrec : ∀ k < n, IdwtFits u κ Ω w (n * dwtDepth mode w.dec_len + k * idwtDepth w)
      (recBound w κ (decBound mode w κ X n) k)
      (chainErr w (ε * extMax mode w.dec_len (decBound mode w κ X n)) k)) :
    ∃ cs y, wavedec (w.toFl fl) mode (some n) (toFl fl x) = .ok cs ∧
      waverec (w.toFl fl) mode (cs.map some) = .ok (some y) ∧
      y.length = (if n = 0 then x.length else x.length + x.length % 2) ∧
      Accurate u (n * dwtDepth mode w.dec_len + n * idwtDepth w) (recBound w κ (decBound mode w κ X n) n)
        (chainErr w (ε * extMax mode w.dec_len (decBound mode w κ X n)) n) (y.take x.length) x :=
  waverec_wavedec_near H hw hε hpr hX0 hX hlev hdec hrec

example : Rounds binary64 (2 ^ (-53 : ℤ)) (2 ^ (-1022 : ℤ)) 1000 ∧ halfBank.Ok ∧
    PRWithin 0 halfBank.dec_lo halfBank.dec_hi halfBank.rec_lo halfBank.rec_hi ∧
    SignalOk .periodic [(3 : ℝ), -5, 4] ∧ LevelsOk .periodic halfBank.dec_len 3 2 :=
  ⟨(C61_ieee _).1, by simp [halfBank, Wavelet.Ok], halfBank_pr, ⟨by simp, by simp⟩, by
    show LevelsOk .periodic 2 3 2
    decide⟩

/-- **C61 (built-in wavelets).** For every built-in discrete wavelet, with coefficients in double or single precision,
every format at least as precise as IEEE single precision, every mode except `smooth` and `antireflect`, and every
signal of any length whose samples are at most `X`: `idwt(dwt(x))` computed in floating point differs from `x` by at
most `tol X + 10240 u (X + 64 κ)`, where `tol` is the reconstruction error of the stored coefficients (C35), provided
`64 (X + 64 κ)` is below the overflow threshold. -/
theorem C61_builtin_roundtrip (H : Rounds fl u κ Ω) (hu : u ≤ 2⁻¹ ^ 24) (single : Bool) {name : String} {fam : Family}
    {order : ℕ} (h : (name, fam, order) ∈ wnameToCode) (hd : fam.isDiscrete = true) {mode : Mode}
    (hm : Repeats mode) {x : List ℝ} (hx : SignalOk mode x) {X : ℝ} (hX : ∀ v ∈ x, |v| ≤ X)
    (hΩ : 64 * (X + 64 * κ) ≤ Ω) :
    ∃ o cA cD y, waveletNamed single name = .ok o ∧
      dwt ((realBank o.w).toFl fl) mode (toFl fl x) = .ok (cA, cD) ∧
      idwt ((realBank o.w).toFl fl) mode (some cA) (some cD) = .ok y ∧ y.length = x.length + x.length % 2 ∧
      ∀ n < x.length, |(y.getD n 0).val - x.getD n 0| ≤
        ((tolerance single fam).1 : ℝ) / (tolerance single fam).2 * X + 10240 * u * (X + 64 * κ) :=
  builtin_roundtrip H hu h hd hm hx hX hΩ

/-- **C61 (built-in wavelets, double precision).** With IEEE doubles and samples of magnitude at most `X`,
`1 ≤ X ≤ 2^1000`, the rounding errors are at most `1.2e-12 X`. -/
theorem C61_builtin_double {name : String} {fam : Family} {order : ℕ} (h : (name, fam, order) ∈ wnameToCode)
    (hd : fam.isDiscrete = true) {mode : Mode} (hm : Repeats mode) {x : List ℝ} (hx : SignalOk mode x) {X : ℝ}
    (hX1 : 1 ≤ X) (hX2 : X ≤ 2 ^ 1000) (hX : ∀ v ∈ x, |v| ≤ X) :
    ∃ o cA cD y, waveletNamed false name = .ok o ∧
      dwt ((realBank o.w).toFl binary64) mode (toFl binary64 x) = .ok (cA, cD) ∧
      idwt ((realBank o.w).toFl binary64) mode (some cA) (some cD) = .ok y ∧
      y.length = x.length + x.length % 2 ∧
      ∀ n < x.length, |(y.getD n 0).val - x.getD n 0| ≤
        (((tolerance false fam).1 : ℝ) / (tolerance false fam).2 + 12 / 10 ^ 13) * X := by
  have hκ : (2 : ℝ) ^ (-1022 : ℤ) ≤ 2 ^ (-20 : ℤ) := zpow_le_zpow_right₀ (by norm_num) (by norm_num)
  have hκ0 : (0 : ℝ) ≤ 2 ^ (-1022 : ℤ) := by positivity
  obtain ⟨o, cA, cD, y, h1, h2, h3, h4, h5⟩ :=
    C61_builtin_roundtrip (C61_ieee ((2 : ℝ) ^ 1023)).1 (by norm_num) false h hd hm hx hX (by
      have e : (2 : ℝ) ^ 1023 = 2 ^ 1000 * 2 ^ 23 := by rw [← pow_add]
      rw [e]
      clear e
      generalize (2 : ℝ) ^ 1000 = P at *
      generalize (2 : ℝ) ^ (-1022 : ℤ) = κ at *
      norm_num at hκ ⊢
      linarith)
  refine ⟨o, cA, cD, y, h1, h2, h3, h4, fun n hn => (h5 n hn).trans ?_⟩
  generalize (2 : ℝ) ^ (-1022 : ℤ) = κ at *
  have : 10240 * (2 : ℝ) ^ (-53 : ℤ) * (X + 64 * κ) ≤ 12 / 10 ^ 13 * X := by
    norm_num at hκ ⊢
    linarith
  linarith

example : ("db4", Family.db, 4) ∈ wnameToCode ∧ Family.db.isDiscrete = true ∧ Repeats .symmetric ∧
    SignalOk .symmetric [(1 : ℝ), -2, 3] ∧ (∀ v ∈ [(1 : ℝ), -2, 3], |v| ≤ 3) := by
  refine ⟨by decide +kernel, rfl, by simp [Repeats], ⟨by simp, by simp⟩, ?_⟩
  intro v hv
  simp only [List.mem_cons, List.not_mem_nil, or_false] at hv
  rcases hv with rfl | rfl | rfl <;> norm_num [abs_of_nonneg, abs_neg]

/-- **C61 (success).** Whether `dwt` and `idwt` succeed, and how long the results are, depends neither on the values
nor on the arithmetic: machine numbers in place of exact ones make no call fail or succeed. -/
theorem C61_success {R R' M M' : Type} [Zero R] [Zero M] [Add M] [Neg M] [Sub M] [SMul ℕ M] [SMul R M]
    [Zero R'] [Zero M'] [Add M'] [Neg M'] [Sub M'] [SMul ℕ M'] [SMul R' M'] {w : Wavelet R} {w' : Wavelet R'}
    (h1 : w'.dec_lo.length = w.dec_lo.length) (h2 : w'.dec_hi.length = w.dec_hi.length)
    (h3 : w'.rec_lo.length = w.rec_lo.length) (h4 : w'.rec_hi.length = w.rec_hi.length) {mode : Mode} :
    (∀ (x : List M) (x' : List M') cA cD, x'.length = x.length → dwt w mode x = .ok (cA, cD) →
      ∃ cA' cD', dwt w' mode x' = .ok (cA', cD') ∧ cA'.length = cA.length ∧ cD'.length = cD.length) ∧
    (∀ (cA cD : List M) (cA' cD' : List M') y, cA'.length = cA.length → cD'.length = cD.length →
      idwt w mode (some cA) (some cD) = .ok y →
      ∃ y', idwt w' mode (some cA') (some cD') = .ok y' ∧ y'.length = y.length) := by
  have hb : BankRel (fun (_ : R') (_ : R) => True) w' w :=
    ⟨forall₂_true.mpr h1, forall₂_true.mpr h2, forall₂_true.mpr h3, forall₂_true.mpr h4⟩
  constructor
  · intro x x' cA cD hx h
    obtain ⟨⟨a', d'⟩, g1, g2, g3⟩ :=
      dwt_hom (respects_true (M := M') (M' := M)) hb (forall₂_true.mpr hx) _ h
    exact ⟨a', d', g1, forall₂_true.mp g2, forall₂_true.mp g3⟩
  · intro cA cD cA' cD' y ha hd h
    obtain ⟨y', g1, g2⟩ := idwt_hom (respects_true (M := M') (M' := M)) hb (.some (forall₂_true.mpr ha))
      (.some (forall₂_true.mpr hd)) _ h
    exact ⟨y', g1, forall₂_true.mp g2⟩

example : (halfBank.toFl binary32).dec_lo.length = halfBank.dec_lo.length ∧
    ∃ r, dwt halfBank .periodic [(3 : ℝ), -5] = .ok r :=
  ⟨by simp [Wavelet.toFl], _, dwt_ok (by simp [halfBank, Wavelet.Ok]) ⟨by simp, by simp⟩⟩

/-- **C61 (complex data).** On complex machine numbers the transforms give, bit for bit, the transforms of the real and
of the imaginary part. -/
theorem C61_complex {w : Wavelet (Fl fl)} {mode : Mode} :
    (∀ (x : List (CFl fl)) cA cD, dwt w mode x = .ok (cA, cD) →
      dwt w mode (x.map Prod.fst) = .ok (cA.map Prod.fst, cD.map Prod.fst) ∧
      dwt w mode (x.map Prod.snd) = .ok (cA.map Prod.snd, cD.map Prod.snd)) ∧
    (∀ (cA cD : Option (List (CFl fl))) y, idwt w mode cA cD = .ok y →
      idwt w mode (cA.map (List.map Prod.fst)) (cD.map (List.map Prod.fst)) = .ok (y.map Prod.fst) ∧
      idwt w mode (cA.map (List.map Prod.snd)) (cD.map (List.map Prod.snd)) = .ok (y.map Prod.snd)) ∧
    (∀ level (x : List (CFl fl)) cs, wavedec w mode level x = .ok cs →
      wavedec w mode level (x.map Prod.fst) = .ok (cs.map (List.map Prod.fst)) ∧
      wavedec w mode level (x.map Prod.snd) = .ok (cs.map (List.map Prod.snd))) ∧
    ∀ (cs : List (Option (List (CFl fl)))) y, waverec w mode cs = .ok y →
      waverec w mode (cs.map (Option.map (List.map Prod.fst))) = .ok (y.map (List.map Prod.fst)) ∧
      waverec w mode (cs.map (Option.map (List.map Prod.snd))) = .ok (y.map (List.map Prod.snd)) :=
  ⟨fun _ _ _ h => ⟨dwt_map respects_re h, dwt_map respects_im h⟩,
    fun _ _ _ h => ⟨idwt_map respects_re h, idwt_map respects_im h⟩,
    fun _ _ _ h => ⟨wavedec_map respects_re h, wavedec_map respects_im h⟩,
    fun _ _ h => ⟨waverec_map respects_re h, waverec_map respects_im h⟩⟩

example : ∃ r, dwt (halfBank.toFl binary64) .periodic [((⟨3⟩, ⟨1⟩) : CFl binary64), (⟨-5⟩, ⟨2⟩)] = .ok r := by
  obtain ⟨a, d, h, -⟩ := (C61_success (w := halfBank) (w' := halfBank.toFl binary64) (M := ℝ)
    (M' := CFl binary64) (mode := .periodic) (by simp [Wavelet.toFl]) (by simp [Wavelet.toFl])
    (by simp [Wavelet.toFl]) (by simp [Wavelet.toFl])).1 [3, -5] [(⟨3⟩, ⟨1⟩), (⟨-5⟩, ⟨2⟩)] _ _ rfl
    (dwt_ok (by simp [halfBank, Wavelet.Ok]) ⟨by simp, by simp⟩)
  exact ⟨_, h⟩

/-- **C61 (exact factors).** If rounding commutes with a factor (a change of sign; a power of 2, away from underflow)
then the factor can be applied before or after a transform with the same bits. -/
theorem C61_scaling {c : ℝ} (hc : ∀ t, fl (c * t) = c * fl t) {w : Wavelet (Fl fl)} {mode : Mode} :
    (∀ (x : List (Fl fl)) cA cD, dwt w mode x = .ok (cA, cD) →
      dwt w mode (x.map (Fl.scale c)) = .ok (cA.map (Fl.scale c), cD.map (Fl.scale c))) ∧
    (∀ (cA cD : Option (List (Fl fl))) y, idwt w mode cA cD = .ok y →
      idwt w mode (cA.map (List.map (Fl.scale c))) (cD.map (List.map (Fl.scale c))) = .ok (y.map (Fl.scale c))) ∧
    (∀ level (x : List (Fl fl)) cs, wavedec w mode level x = .ok cs →
      wavedec w mode level (x.map (Fl.scale c)) = .ok (cs.map (List.map (Fl.scale c)))) ∧
    ∀ (cs : List (Option (List (Fl fl)))) y, waverec w mode cs = .ok y →
      waverec w mode (cs.map (Option.map (List.map (Fl.scale c)))) = .ok (y.map (List.map (Fl.scale c))) :=
  ⟨fun _ _ _ h => dwt_map (respects_scale hc) h, fun _ _ _ h => idwt_map (respects_scale hc) h,
    fun _ _ _ h => wavedec_map (respects_scale hc) h, fun _ _ h => waverec_map (respects_scale hc) h⟩

/-- **C61 (sign).** IEEE rounding commutes with a change of sign, so the transforms of `-x` are, bit for bit, the
negatives of those of `x`. -/
theorem C61_sign (p : ℕ) (emin : ℤ) {w : Wavelet (Fl (ieee p emin))} {mode : Mode} {x : List (Fl (ieee p emin))}
    {cA cD : List (Fl (ieee p emin))} (h : dwt w mode x = .ok (cA, cD)) :
    dwt w mode (x.map fun a => -a) = .ok (cA.map fun a => -a, cD.map fun a => -a) := by
  have hs : ∀ l : List (Fl (ieee p emin)), l.map (Fl.scale (-1)) = l.map fun a => -a := fun l =>
    List.map_congr_left fun a _ => Fl.ext' (by simp [Fl.scale]; rfl)
  have := (C61_scaling (c := -1) (fl := ieee p emin) (fun t => by rw [neg_one_mul, neg_one_mul, ieee_neg])
    (w := w) (mode := mode)).1 x cA cD h
  rwa [hs, hs, hs] at this

example : ∃ r, dwt (halfBank.toFl binary64) .smooth [(⟨3⟩ : Fl binary64), ⟨-5⟩] = .ok r := by
  obtain ⟨a, d, h, -⟩ := (C61_success (w := halfBank) (w' := halfBank.toFl binary64) (M := ℝ)
    (M' := Fl binary64) (mode := .smooth) (by simp [Wavelet.toFl]) (by simp [Wavelet.toFl])
    (by simp [Wavelet.toFl]) (by simp [Wavelet.toFl])).1 [3, -5] [⟨3⟩, ⟨-5⟩] _ _ rfl
    (dwt_ok (by simp [halfBank, Wavelet.Ok]) ⟨by simp, by simp⟩)
  exact ⟨_, h⟩

end Pywt
