import Verif.Spec.Data
import Verif.Proof.Data
import Verif.Props.Float

/-!
# C68: the demo signals, C69: the sample data
-/

set_option autoImplicit false

namespace Pywt

open Spec

variable {fl : ℝ → ℝ} {name : String} {d : Demo} {n : ℕ}

theorem demoOf_name (h : SameName name (demoName d)) : demoOf (lowerName name) = some d := by
  have : lowerName name = lowerName (demoName d) := h
  rw [this]
  cases d <;> decide +kernel

theorem demoOf_list : demoOf "list".toList = none ∧ demoOf "gabor".toList = some .gabor ∧
    demoOf "sineoneoverx".toList = some .sineoneoverx := by decide +kernel

theorem demoTable_names : ∀ p ∈ demoTable, p.1.toList = lowerName (demoName p.2) := by decide +kernel

theorem demoSignal_sized (h : SameName name (demoName d)) (hd : ¬ FixedLength d) {a : NArg} {b : Bool} {k : ℕ}
    (ha : a.check = .ok (b, k)) : demoSignal fl name (some a) = demoBody fl d b k := by
  have h1 := demoOf_name h
  obtain ⟨l1, l2, l3⟩ := demoOf_list
  have n1 : lowerName name ≠ "list".toList := by intro e; rw [e, l1] at h1; cases h1
  have n2 : ¬ (lowerName name = "gabor".toList ∨ lowerName name = "sineoneoverx".toList) := by
    rintro (e | e)
    · rw [e, l2] at h1; exact hd (Or.inl (by injection h1 with h1; exact h1.symm))
    · rw [e, l3] at h1; exact hd (Or.inr (by injection h1 with h1; exact h1.symm))
  simp only [demoSignal, if_neg n1, ha, n2, h1]
  rfl

theorem check_int (hn : 1 ≤ n) : (NArg.int (n : ℤ)).check = .ok (true, n) := by
  simp only [NArg.check]
  rw [if_neg (by omega)]
  simp

theorem check_cases (a : NArg) : a.check = .error .value ∨ ∃ v, a.check = .ok v := by
  cases a <;> simp only [NArg.check] <;> split <;> simp

theorem demoSignal_int (h : SameName name (demoName d)) (hd : ¬ FixedLength d) (hn : 1 ≤ n) :
    demoSignal fl name (some (.int n)) = demoBody fl d true n := demoSignal_sized h hd (check_int hn)

theorem demoSignal_fixed (h : SameName name (demoName d)) (hd : FixedLength d) :
    demoSignal fl name none = demoBody fl d true 0 := by
  have h1 := demoOf_name h
  have e : lowerName name = lowerName (demoName d) := h
  have n1 : lowerName name ≠ "list".toList := by intro e; rw [e, demoOf_list.1] at h1; cases h1
  have n2 : (lowerName name = "gabor".toList ∨ lowerName name = "sineoneoverx".toList) := by
    rw [e]
    rcases hd with rfl | rfl
    · exact Or.inl (by decide +kernel)
    · exact Or.inr (by decide +kernel)
  simp only [demoSignal, if_neg n1, n2, h1]
  rfl

theorem sampleWise_body (hd : SampleWise d) (b : Bool) (n : ℕ) :
    demoBody fl d b n = .ok (.real ((demoTimes fl n).map fun t => demoAt n t d)) := by
  simp only [SampleWise, List.mem_cons, List.not_mem_nil, or_false] at hd
  rcases hd with rfl | rfl | rfl | rfl | rfl | rfl | rfl | rfl | rfl | rfl | rfl | rfl <;> rfl

theorem sampleWise_sized (hd : SampleWise d) : ¬ FixedLength d := by
  rintro (rfl | rfl) <;> simp [SampleWise] at hd

/-! ## Names and the argument `n` -/

/-- **C68 (names).** `demo_signal('list')` returns exactly the names of the signals, and a name that is neither `list` nor
one of them, whatever the case of its letters, is rejected with `ValueError` for every `n`. -/
theorem C68_names (fl : ℝ → ℝ) :
    (∀ name n, SameName name "list" → demoSignal fl name n = .ok (.names demoList)) ∧
    (∀ s, s ∈ demoList ↔ ∃ d, s = demoName d) ∧
    (∀ name n, ¬ SameName name "list" → (∀ d, ¬ SameName name (demoName d)) →
      demoSignal fl name n = .error .value) := by
  refine ⟨fun name n h => ?_, fun s => ⟨fun h => ?_, ?_⟩, fun name n h1 h2 => ?_⟩
  · have : lowerName name = "list".toList := by
      have e : lowerName name = lowerName "list" := h
      rw [e]; decide +kernel
    simp only [demoSignal, this, if_true]
    rfl
  · simp only [demoList, List.mem_cons, List.not_mem_nil, or_false] at h
    rcases h with rfl | rfl | rfl | rfl | rfl | rfl | rfl | rfl | rfl | rfl | rfl | rfl | rfl | rfl | rfl | rfl | rfl | rfl | rfl | rfl
    exacts [⟨.blocks, rfl⟩, ⟨.bumps, rfl⟩, ⟨.heavisine, rfl⟩, ⟨.doppler, rfl⟩, ⟨.ramp, rfl⟩, ⟨.hisine, rfl⟩,
      ⟨.losine, rfl⟩, ⟨.linchirp, rfl⟩, ⟨.twochirp, rfl⟩, ⟨.quadchirp, rfl⟩, ⟨.mishmash, rfl⟩, ⟨.wernersorrows, rfl⟩,
      ⟨.hypchirps, rfl⟩, ⟨.linchirps, rfl⟩, ⟨.chirps, rfl⟩, ⟨.gabor, rfl⟩, ⟨.sineoneoverx, rfl⟩, ⟨.pieceRegular, rfl⟩,
      ⟨.piecePolynomial, rfl⟩, ⟨.riemann, rfl⟩]
  · rintro ⟨d, rfl⟩
    cases d <;> decide +kernel
  · have n1 : lowerName name ≠ "list".toList := by
      intro e
      exact h1 (e.trans (by decide +kernel))
    have n2 : demoOf (lowerName name) = none := by
      unfold demoOf
      rw [Option.map_eq_none_iff, List.find?_eq_none]
      intro p hp hc
      have := demoTable_names p hp
      rw [decide_eq_true_eq] at hc
      exact h2 p.2 (hc.symm.trans this)
    have n3 : ¬ (lowerName name = "gabor".toList ∨ lowerName name = "sineoneoverx".toList) := by
      rintro (e | e)
      · rw [e, demoOf_list.2.1] at n2; cases n2
      · rw [e, demoOf_list.2.2] at n2; cases n2
    simp only [demoSignal, if_neg n1, n3, n2]
    cases n with
    | none => rfl
    | some a =>
      rcases check_cases a with e | ⟨v, e⟩ <;> simp only [e] <;> rfl

/-- **C68 (case).** Names that differ in the case of their letters only mean the same signal. -/
theorem C68_case {name name' : String} (h : SameName name name') (n : Option NArg) :
    demoSignal fl name n = demoSignal fl name' n := by
  have : lowerName name = lowerName name' := h
  simp only [demoSignal, this]

example : SameName "hEAVIsine" (demoName .heavisine) ∧ ∀ d, ¬ SameName "sine" (demoName d) := by
  refine ⟨by unfold SameName; decide +kernel, fun d => ?_⟩
  unfold SameName
  cases d <;> decide +kernel

/-- **C68 (`n`).** A length below one or not integral is rejected; a length is required, except for the two signals of
fixed length, which reject it. -/
theorem C68_rejects_n (h : SameName name (demoName d)) :
    (∀ k : ℤ, k < 1 → demoSignal fl name (some (.int k)) = .error .value) ∧
    (∀ q : ℚ, q < 1 ∨ q.den ≠ 1 → demoSignal fl name (some (.float q)) = .error .value) ∧
    (FixedLength d → ∀ a, demoSignal fl name (some a) = .error .value) ∧
    (¬ FixedLength d → demoSignal fl name none = .error .value) := by
  have h1 := demoOf_name h
  have e : lowerName name = lowerName (demoName d) := h
  have n1 : lowerName name ≠ "list".toList := by intro e; rw [e, demoOf_list.1] at h1; cases h1
  refine ⟨fun k hk => ?_, fun q hq => ?_, fun hd a => ?_, fun hd => ?_⟩
  · have : (NArg.int k).check = .error .value := by unfold NArg.check; exact if_pos hk
    simp only [demoSignal, if_neg n1, this]
    rfl
  · have : (NArg.float q).check = .error .value := by unfold NArg.check; exact if_pos hq
    simp only [demoSignal, if_neg n1, this]
    rfl
  · have n2 : (lowerName name = "gabor".toList ∨ lowerName name = "sineoneoverx".toList) := by
      rw [e]
      rcases hd with rfl | rfl
      · exact Or.inl (by decide +kernel)
      · exact Or.inr (by decide +kernel)
    simp only [demoSignal, if_neg n1, n2]
    rcases check_cases a with e | ⟨v, e⟩ <;> simp only [e] <;> rfl
  · have n2 : ¬ (lowerName name = "gabor".toList ∨ lowerName name = "sineoneoverx".toList) := by
      rintro (e | e)
      · rw [e, demoOf_list.2.1] at h1; exact hd (Or.inl (by injection h1 with h1; exact h1.symm))
      · rw [e, demoOf_list.2.2] at h1; exact hd (Or.inr (by injection h1 with h1; exact h1.symm))
    simp only [demoSignal, if_neg n1, n2]
    rfl

/-! ## The number of samples

The full claim is: `demo_signal(name, n)` returns `n` samples for every `n ≥ 1` and every signal that takes a length.
It is false for every signal but LinChirps. -/

/-- **C68 (fixed lengths).** -/
theorem C68_fixed_length : (∀ name, SameName name "Gabor" → ∃ f, demoSignal fl name none = .ok (.complex f) ∧ f.length = 512) ∧
    (∀ name, SameName name "sineoneoverx" → HasSamples 1024 (demoSignal fl name none)) := by
  refine ⟨fun name h => ?_, fun name h => ?_⟩
  · rw [demoSignal_fixed (d := .gabor) h (Or.inl rfl)]
    exact ⟨_, rfl, gabor_length⟩
  · rw [demoSignal_fixed (d := .sineoneoverx) h (Or.inr rfl)]
    exact sineOneOverX_length

/-- **C68 (LinChirps).** Always `n` samples. -/
theorem C68_linchirps_length (h : SameName name "LinChirps") (hn : 1 ≤ n) :
    HasSamples n (demoSignal fl name (some (.int n))) := by
  rw [demoSignal_int (d := .linchirps) h (by rintro (h | h) <;> cases h) hn]
  exact linChirps_length n

/-- **C68 (signals given by a formula).** In any floating-point format with enough precision for `n` there are `n` or
`n + 1` samples.  It is missing that there are `n`, which is false, see `C68_one_too_many`. -/
theorem C68_formula_length_partial {u κ Ω : ℝ} (H : Rounds fl u κ Ω) (h : SameName name (demoName d)) (hd : SampleWise d)
    (hn : 1 ≤ n) (hu : 32 * n * u ≤ 1) (hκ : n * κ ≤ 1) (hΩ : 2 * n ≤ Ω) (hΩ2 : 4 ≤ Ω) :
    HasSamples n (demoSignal fl name (some (.int n))) ∨ HasSamples (n + 1) (demoSignal fl name (some (.int n))) := by
  rw [demoSignal_int h (sampleWise_sized hd) hn, sampleWise_body hd]
  simp only [HasSamples, List.length_map]
  exact demoTimes_near H hn hu hκ hΩ hΩ2

/-- **C68 (powers of two).** In double precision there are `n` samples when `n` is a power of two. -/
theorem C68_formula_length_pow2 (h : SameName name (demoName d)) (hd : SampleWise d) {k : ℕ} (hk : k ≤ 52) :
    HasSamples (2 ^ k) (demoSignal binary64 name (some (.int ((2 ^ k : ℕ) : ℤ)))) := by
  rw [demoSignal_int h (sampleWise_sized hd) Nat.one_le_two_pow, sampleWise_body hd]
  simp only [HasSamples, List.length_map]
  exact demoTimes_pow hk

/-- **C68 fails:** in double precision every signal given by a formula has 50 samples for `n = 49`. -/
theorem C68_one_too_many (hd : SampleWise d) : HasSamples 50 (demoSignal binary64 (demoName d) (some (.int 49))) := by
  have := demoSignal_int (fl := binary64) (name := demoName d) (d := d) rfl (sampleWise_sized hd) (n := 49) (by norm_num)
  rw [show ((49 : ℕ) : ℤ) = 49 from rfl] at this
  rw [this, sampleWise_body hd]
  simp only [HasSamples, List.length_map]
  exact demoTimes_49

/-- The hypotheses of the partial statement hold in double precision up to large lengths. -/
example : Rounds binary64 ((2 : ℝ) ^ (-53 : ℤ)) ((2 : ℝ) ^ (-1022 : ℤ)) (2 ^ 60) ∧ SampleWise .doppler ∧
    (32 * ((2 ^ 48 : ℕ) : ℝ) * (2 : ℝ) ^ (-53 : ℤ) ≤ 1) ∧ ((2 ^ 48 : ℕ) : ℝ) * (2 : ℝ) ^ (-1022 : ℤ) ≤ 1 := by
  refine ⟨(C61_ieee _).1, by simp [SampleWise], by norm_num, ?_⟩
  have : (2 : ℝ) ^ (-1022 : ℤ) ≤ 2 ^ (-48 : ℤ) := zpow_le_zpow_right₀ (by norm_num) (by norm_num)
  calc ((2 ^ 48 : ℕ) : ℝ) * (2 : ℝ) ^ (-1022 : ℤ) ≤ ((2 ^ 48 : ℕ) : ℝ) * 2 ^ (-48 : ℤ) :=
        mul_le_mul_of_nonneg_left this (by positivity)
    _ = 1 := by norm_num

/-- **C68 (Chirps).** `n` samples exactly when `n` is a multiple of 8 or between 8 and 15; otherwise `ValueError`. -/
theorem C68_chirps_length_partial (h : SameName name "Chirps") (hn : 1 ≤ n) :
    (8 ∣ n ∨ (8 ≤ n ∧ n ≤ 15) → HasSamples n (demoSignal fl name (some (.int n)))) ∧
    (¬ (8 ∣ n ∨ (8 ≤ n ∧ n ≤ 15)) → demoSignal fl name (some (.int n)) = .error .value) := by
  rw [demoSignal_int (d := .chirps) h (by rintro (h | h) <;> cases h) hn]
  obtain ⟨h1, h2⟩ := chirps_cases hn
  refine ⟨fun h => ?_, fun h => ?_⟩
  · obtain ⟨f, e, l⟩ := h1 h
    simp only [demoBody, if_true, e]
    exact l
  · simp only [demoBody, if_true, h2 h]
    rfl

/-- **C68 (Piece-Regular and Piece-Polynomial).** `n` samples with mean zero exactly when 5 does not divide `n`;
otherwise `ValueError`. -/
theorem C68_piece_length_partial (h : SameName name "Piece-Regular" ∨ SameName name "Piece-Polynomial") (hn : 1 ≤ n)
    (ht : n ≤ (demoTimes fl n).length) :
    (¬ 5 ∣ n → HasSamples n (demoSignal fl name (some (.int n))) ∧ ZeroMean (demoSignal fl name (some (.int n)))) ∧
    (5 ∣ n → demoSignal fl name (some (.int n)) = .error .value) := by
  rcases h with h | h
  · rw [demoSignal_int (d := .pieceRegular) h (by rintro (h | h) <;> cases h) hn]
    obtain ⟨h1, h2⟩ := pieceRegular_cases fl hn (bumps := (demoTimes fl n).map bumpsAt) (by simpa using ht)
    refine ⟨fun h => ?_, fun h => ?_⟩
    · obtain ⟨f, e, l, m⟩ := h1 h
      simp only [demoBody, if_true, e]
      exact ⟨l, m⟩
    · simp only [demoBody, if_true, h2 h]
      rfl
  · rw [demoSignal_int (d := .piecePolynomial) h (by rintro (h | h) <;> cases h) hn]
    obtain ⟨h1, h2⟩ := piecePolynomial_cases hn
    refine ⟨fun h => ?_, fun h => ?_⟩
    · obtain ⟨f, e, l, m⟩ := h1 h
      simp only [demoBody, if_true, e]
      exact ⟨l, m⟩
    · simp only [demoBody, if_true, h2 h]
      rfl

/-- The nearest integer to the root. -/
theorem roundSqrt_near (n : ℕ) : |(roundSqrt n : ℝ) - Real.sqrt n| < 1 / 2 := by
  have h1 : n.sqrt * n.sqrt ≤ n := Nat.sqrt_le n
  have h2 : n < (n.sqrt + 1) * (n.sqrt + 1) := Nat.lt_succ_sqrt n
  have c1 : (n.sqrt : ℝ) ≤ Real.sqrt n := Real.le_sqrt_of_sq_le (by rw [sq]; exact_mod_cast h1)
  have c2 : Real.sqrt n < n.sqrt + 1 := by
    rw [Real.sqrt_lt' (by positivity), sq]; exact_mod_cast h2
  unfold roundSqrt
  rw [abs_lt]
  split_ifs with h
  · have c3 : Real.sqrt n < n.sqrt + 1 / 2 := by
      rw [Real.sqrt_lt' (by positivity)]
      have : (n : ℝ) ≤ n.sqrt * n.sqrt + n.sqrt := by exact_mod_cast h
      nlinarith
    constructor <;> linarith
  · have c3 : (n.sqrt : ℝ) + 1 / 2 < Real.sqrt n := by
      apply Real.lt_sqrt_of_sq_lt
      have : ((n.sqrt * n.sqrt + n.sqrt + 1 : ℕ) : ℝ) ≤ n := by exact_mod_cast (by omega : n.sqrt * n.sqrt + n.sqrt + 1 ≤ n)
      push_cast at this
      nlinarith
    push_cast
    constructor <;> linarith

/-- **C68 (Riemann).** Let `r` be the integer nearest to the root of `n`.  If `r²` is at most the number of times, there
are as many samples as times (`n` or `n + 1`); otherwise `IndexError`. -/
theorem C68_riemann_length_partial (h : SameName name "Riemann") (hn : 1 ≤ n) {r : ℕ} (hr : |(r : ℝ) - Real.sqrt n| < 1 / 2) :
    (r * r ≤ (demoTimes fl n).length →
      HasSamples (demoTimes fl n).length (demoSignal fl name (some (.int n)))) ∧
    (¬ r * r ≤ (demoTimes fl n).length → demoSignal fl name (some (.int n)) = .error .index) := by
  have e : r = roundSqrt n := by
    have h2 := roundSqrt_near n
    rw [abs_lt] at hr h2
    have a : (r : ℝ) < roundSqrt n + 1 := by linarith
    have b : (roundSqrt n : ℝ) < r + 1 := by linarith
    have a' : r < roundSqrt n + 1 := by exact_mod_cast a
    have b' : roundSqrt n < r + 1 := by exact_mod_cast b
    omega
  subst e
  rw [demoSignal_int (d := .riemann) h (by rintro (h | h) <;> cases h) hn]
  obtain ⟨h1, h2⟩ := riemann_cases n (demoTimes fl n)
  refine ⟨fun h => ?_, fun h => ?_⟩
  · obtain ⟨f, e, l⟩ := h1 h
    simp only [demoBody, e]
    exact l
  · simp only [demoBody, h2 h]
    rfl

/-- **C68 fails:** `demo_signal('Riemann', 512)` raises `IndexError`, `demo_signal('Riemann', 1024)` returns 1024
samples. -/
theorem C68_riemann_fails : demoSignal binary64 "Riemann" (some (.int 512)) = .error .index ∧
    HasSamples 1024 (demoSignal binary64 "Riemann" (some (.int 1024))) := by
  have l1 : (demoTimes binary64 512).length = 512 := demoTimes_pow (k := 9) (by norm_num)
  have l2 : (demoTimes binary64 1024).length = 1024 := demoTimes_pow (k := 10) (by norm_num)
  have r1 : roundSqrt 512 = 23 := by decide +kernel
  have r2 : roundSqrt 1024 = 32 := by decide +kernel
  constructor
  · have := (C68_riemann_length_partial (fl := binary64) (name := "Riemann") rfl (n := 512) (by norm_num) (roundSqrt_near 512)).2
    rw [l1, r1] at this
    exact this (by norm_num)
  · have := (C68_riemann_length_partial (fl := binary64) (name := "Riemann") rfl (n := 1024) (by norm_num) (roundSqrt_near 1024)).1
    rw [l2, r2] at this
    exact this (by norm_num)

/-- **C68 (HypChirps).** `n` samples if `np.arange(1.001, n + .001 + 1)` has `n` elements; otherwise `ValueError`, for two
or more samples (and elements). -/
theorem C68_hypchirps_length_partial (h : SameName name "HypChirps") (hn : 1 ≤ n) {L : ℕ}
    (hL : L = (arangeF fl (fl 1.001) (fl (fl (n + fl 0.001) + 1)) 1).length) :
    (L = n → HasSamples n (demoSignal fl name (some (.int n)))) ∧
    (L ≠ n → 2 ≤ n → L ≠ 1 → demoSignal fl name (some (.int n)) = .error .value) := by
  have e : L = hypLen fl n := by rw [hL, arangeF_length]; rfl
  subst e
  rw [demoSignal_int (d := .hypchirps) h (by rintro (h | h) <;> cases h) hn]
  obtain ⟨h1, h2⟩ := hypChirps_cases fl hn
  refine ⟨fun h => ?_, fun h h' h'' => ?_⟩
  · obtain ⟨f, e, l⟩ := h1 h
    simp only [demoBody, if_true, e]
    exact l
  · simp only [demoBody, if_true, h2 h h' h'']
    rfl

/-- **C68 fails:** `demo_signal('HypChirps', 7)` raises `ValueError` in double precision. -/
theorem C68_hypchirps_fails : demoSignal binary64 "HypChirps" (some (.int 7)) = .error .value := by
  have e : (arangeF binary64 (binary64 1.001) (binary64 (binary64 ((7 : ℕ) + binary64 0.001) + 1)) 1).length = 8 := by
    rw [arangeF_length]; exact hypLen_7
  exact (C68_hypchirps_length_partial (fl := binary64) (name := "HypChirps") rfl (n := 7) (by norm_num) rfl).2
    (by rw [e]; norm_num) (by norm_num) (by rw [e]; norm_num)

/-- **C68 (every signal can be had).** In double precision every signal that takes a length has 16 samples for
`n = 16`. -/
theorem C68_sixteen (hd : ¬ FixedLength d) :
    HasSamples 16 (demoSignal binary64 (demoName d) (some (.int 16))) := by
  have l1 : (demoTimes binary64 16).length = 16 := demoTimes_pow (k := 4) (by norm_num)
  have hf : SampleWise d → HasSamples 16 (demoSignal binary64 (demoName d) (some (.int 16))) :=
    fun h => C68_formula_length_pow2 (k := 4) rfl h (by norm_num)
  cases d with
  | hypchirps =>
    refine (C68_hypchirps_length_partial (fl := binary64) (name := "HypChirps") rfl (n := 16) (by norm_num) rfl).1 ?_
    rw [arangeF_length]
    exact hypLen_16
  | gabor => exact absurd (Or.inl rfl) hd
  | sineoneoverx => exact absurd (Or.inr rfl) hd
  | linchirps => exact C68_linchirps_length (n := 16) rfl (by norm_num)
  | chirps => exact (C68_chirps_length_partial (n := 16) rfl (by norm_num)).1 (by norm_num)
  | pieceRegular => exact ((C68_piece_length_partial (n := 16) (Or.inl rfl) (by norm_num) l1.ge).1 (by norm_num)).1
  | piecePolynomial => exact ((C68_piece_length_partial (n := 16) (Or.inr rfl) (by norm_num) l1.ge).1 (by norm_num)).1
  | riemann =>
    have r1 : roundSqrt 16 = 4 := by decide +kernel
    have := (C68_riemann_length_partial (fl := binary64) (name := "Riemann") rfl (n := 16) (by norm_num) (roundSqrt_near 16)).1
    rw [l1, r1] at this
    exact this (by norm_num)
  | _ => exact hf (by simp [SampleWise])

/-- **C68 fails:** `demo_signal('Piece-Polynomial', 1000)` and `demo_signal('Chirps', 1001)` raise `ValueError`. -/
theorem C68_piece_fails : demoSignal fl "Piece-Polynomial" (some (.int 1000)) = .error .value ∧
    demoSignal fl "Chirps" (some (.int 1001)) = .error .value := by
  constructor
  · have := demoSignal_int (fl := fl) (name := "Piece-Polynomial") (d := .piecePolynomial) rfl
      (by rintro (h | h) <;> cases h) (n := 1000) (by norm_num)
    rw [show ((1000 : ℕ) : ℤ) = 1000 from rfl] at this
    rw [this]
    simp only [demoBody, if_true, (piecePolynomial_cases (n := 1000) (by norm_num)).2 (by norm_num)]
    rfl
  · exact (C68_chirps_length_partial (fl := fl) (n := 1001) rfl (by norm_num)).2 (by norm_num)

/-- **C68 (`n` given as a float).** An integral float means the same as the integer, except for the four signals that need
an `int`, which raise `TypeError`. -/
theorem C68_float_n (h : SameName name (demoName d)) (hd : ¬ FixedLength d) (hn : 1 ≤ n) :
    (d ∈ [.hypchirps, .chirps, .pieceRegular, .piecePolynomial] →
      demoSignal fl name (some (.float n)) = .error .type) ∧
    (d ∉ [.hypchirps, .chirps, .pieceRegular, .piecePolynomial] →
      demoSignal fl name (some (.float n)) = demoSignal fl name (some (.int n))) := by
  have hc : (NArg.float (n : ℚ)).check = .ok (false, n) := by
    simp only [NArg.check]
    rw [if_neg]
    · simp
    · rintro (h | h)
      · have : n < 1 := by exact_mod_cast h
        omega
      · exact h (Rat.den_natCast n)
  rw [demoSignal_sized h hd hc, demoSignal_int h hd hn]
  constructor
  · intro hm
    simp only [List.mem_cons, List.not_mem_nil, or_false] at hm
    rcases hm with rfl | rfl | rfl | rfl <;> rfl
  · intro hm
    simp only [List.mem_cons, List.not_mem_nil, or_false, not_or] at hm
    cases d <;> first | rfl | simp at hm

/-! ## Magnitudes -/

theorem npSign_le (t : ℝ) : |npSign t| ≤ 1 := by
  unfold npSign
  split_ifs <;> norm_num

/-- **C68 (magnitudes).** The oscillating signals stay within their amplitudes. -/
theorem C68_bounded (hn : 1 ≤ n) (b : ℝ)
    (h : (d, b) ∈ [(Demo.hisine, (1 : ℝ)), (.losine, 1), (.linchirp, 1), (.quadchirp, 1), (.twochirp, 2), (.mishmash, 3),
      (.heavisine, 6), (.doppler, 1 / 2), (.linchirps, 1)]) :
    BoundedBy b (demoSignal fl (demoName d) (some (.int n))) := by
  have hs := fun x => Real.abs_sin_le_one x
  simp only [List.mem_cons, List.not_mem_nil, or_false, Prod.mk.injEq] at h
  have key : ∀ {d : Demo} {b : ℝ}, SampleWise d → (∀ t, |demoAt n t d| ≤ b) →
      BoundedBy b (demoSignal fl (demoName d) (some (.int n))) := by
    intro d b hd h
    rw [demoSignal_int (name := demoName d) rfl (sampleWise_sized hd) hn, sampleWise_body hd]
    intro v hv
    obtain ⟨t, -, rfl⟩ := List.mem_map.mp hv
    exact h t
  rcases h with ⟨rfl, rfl⟩ | ⟨rfl, rfl⟩ | ⟨rfl, rfl⟩ | ⟨rfl, rfl⟩ | ⟨rfl, rfl⟩ | ⟨rfl, rfl⟩ | ⟨rfl, rfl⟩ | ⟨rfl, rfl⟩ | ⟨rfl, rfl⟩
  · exact key (by simp [SampleWise]) fun t => hs _
  · exact key (by simp [SampleWise]) fun t => hs _
  · exact key (by simp [SampleWise]) fun t => hs _
  · exact key (by simp [SampleWise]) fun t => hs _
  · refine key (by simp [SampleWise]) fun t => (abs_add_le _ _).trans ?_
    linarith [hs (Real.pi * t * (n * t)), hs (Real.pi / 3 * t * (n * t))]
  · refine key (by simp [SampleWise]) fun t => (abs_add_le _ _).trans ((add_le_add_left (abs_add_le _ _) _).trans ?_)
    linarith [hs (Real.pi / 3 * t * (n * t ^ 2)), hs (Real.pi * (n * 0.6902) * t), hs (Real.pi * t * (n * 0.125 * t))]
  · refine key (by simp [SampleWise]) fun t => ?_
    have h1 := abs_le.mp (hs (4 * Real.pi * t))
    have h2 := abs_le.mp (npSign_le (t - 0.3))
    have h3 := abs_le.mp (npSign_le (0.72 - t))
    simp only [demoAt]
    rw [abs_le]
    constructor <;> linarith
  · refine key (by simp [SampleWise]) fun t => ?_
    simp only [demoAt]
    rw [abs_mul]
    have h1 : |Real.sqrt (t * (1 - t))| ≤ 1 / 2 := by
      rw [abs_of_nonneg (Real.sqrt_nonneg _), Real.sqrt_le_left (by norm_num)]
      nlinarith [sq_nonneg (t - 1 / 2)]
    calc |Real.sqrt (t * (1 - t))| * |Real.sin (2 * Real.pi * 1.05 / (t + 0.05))| ≤ 1 / 2 * 1 :=
          mul_le_mul h1 (hs _) (abs_nonneg _) (by norm_num)
      _ = 1 / 2 := by norm_num
  · rw [demoSignal_int (name := demoName .linchirps) (d := .linchirps) rfl (by rintro (h | h) <;> cases h) hn]
    intro v hv
    simp only [linChirps, List.map_map, List.mem_map, Function.comp_apply] at hv
    obtain ⟨x, hx, rfl⟩ := hv
    rw [abs_mul]
    have hc := fun x => Real.abs_cos_le_one x
    have h1 : |Real.sqrt ((x / n - 1 / n) * (1 - x / n))| ≤ 1 / 2 := by
      rw [abs_of_nonneg (Real.sqrt_nonneg _), Real.sqrt_le_left (by norm_num)]
      have : (0 : ℝ) < 1 / n := by positivity
      have h4 : (1 : ℝ) / n ≤ 1 := by
        rw [div_le_one (by positivity)]; exact_mod_cast hn
      nlinarith [sq_nonneg ((x / n - 1 / n) - (1 - x / n))]
    have h2 : |Real.cos (250 * n * Real.pi / 1024 * (x / n) ^ 2) +
        Real.cos (100 * n * Real.pi / 1024 * (x / n) + 250 * n * Real.pi / 1024 * (x / n) ^ 2)| ≤ 2 :=
      (abs_add_le _ _).trans (by
        have a := hc (250 * n * Real.pi / 1024 * (x / n) ^ 2)
        have b := hc (100 * n * Real.pi / 1024 * (x / n) + 250 * n * Real.pi / 1024 * (x / n) ^ 2)
        linarith)
    refine (mul_le_mul h1 h2 (abs_nonneg _) (by norm_num)).trans (by norm_num)

/-! ## C69: the sample data -/

variable {M : Type} {file : Reader → List M}

/-- **C69.** After any history of calls in which no returned array was written to, a reader returns the data of its file.
It is missing that writing to returned arrays does not matter, which is false, see `C69_writes_leak`. -/
theorem C69_reader_history_partial (h : List (DataOp M)) (hw : ∀ op ∈ h, ∃ r, op = .call r) (r : Reader) :
    (readerCall file (dataRun file h) r).1 = file r := by
  have key : ∀ (h : List (DataOp M)), (∀ op ∈ h, ∃ r, op = .call r) → ∀ c : ReaderCache M,
      (∀ r a, c r = some a → a = file r) → ∀ r a, h.foldl (dataStep file) c r = some a → a = file r := by
    intro h
    induction h with
    | nil => intro _ c hc r a ha; exact hc r a ha
    | cons op h ih =>
      intro hw c hc r a ha
      refine ih (fun o ho => hw o (List.mem_cons_of_mem _ ho)) _ ?_ r a ha
      obtain ⟨s, rfl⟩ := hw op List.mem_cons_self
      intro r' a' h'
      simp only [dataStep, readerCall] at h'
      split at h'
      · exact hc r' a' h'
      · by_cases e : r' = s
        · subst e
          simp only [Function.update_self] at h'
          injection h' with h'
          exact h'.symm
        · simp only [Function.update_of_ne e] at h'
          exact hc r' a' h'
  unfold readerCall
  split
  · rename_i a ha
    exact key h hw _ (by intro r a h; cases h) r a ha
  · rfl

/-- **C69 fails:** whatever happened before, an entry written to the array that a reader returned shows up in the
result of the next call. -/
theorem C69_writes_leak (h : List (DataOp M)) (r : Reader) (i : ℕ) (v : M) :
    (readerCall file (dataRun file (h ++ [.call r, .write r i v])) r).1 =
      ((readerCall file (dataRun file h) r).1).set i v := by
  unfold dataRun
  rw [List.foldl_append]
  set c := h.foldl (dataStep file) fun _ => none with hc
  simp only [List.foldl_cons, List.foldl_nil, dataStep]
  have h1 : (readerCall file c r).2 r = some (readerCall file c r).1 := by
    unfold readerCall
    split
    · assumption
    · simp
  have h2 : ∀ {c' : ReaderCache M} {a : List M}, c' r = some a → (readerCall file c' r).1 = a := by
    intro c' a h
    simp only [readerCall, h]
  refine h2 ?_
  rw [Function.update_self, h1]
  rfl

example : (readerCall (fun _ => [83, 83, 82]) (dataRun (fun _ => [83, 83, 82]) [.call .ascent, .call .ecg]) .ascent).1 =
      [83, 83, 82] ∧
    (readerCall (fun _ => [83, 83, 82]) (dataRun (fun _ => [83, 83, 82]) [.call .ascent, .write .ascent 1 0]) .ascent).1 =
      [83, 0, 82] := by decide

end Pywt
