import Verif.Proof.NormWarn
import Verif.Props.SwtAdjoint

/-!
# Property C75: what `swt` with `norm=True` says about energy
-/

set_option autoImplicit false

namespace Pywt

open Finset Spec

/-- **C75.** `swt` warns exactly if `norm=True` is asked for and the wavelet is not flagged orthogonal; the warning does not change
the result. -/
theorem C75_swt_warns {R M : Type} [Ring R] [AddCommGroup M] [Module R M] (o : WaveletObj R) (level : Option ℤ) (m : ℤ) (trim : Bool)
    (norm : Option R) (x : List M) {r : SwtCoeffs (List M)} {b : Bool} :
    swtWarn o level m trim norm x = .ok (r, b) ↔
      swt o.w level m trim norm x = .ok r ∧ (b = true ↔ norm ≠ none ∧ o.orthogonal = false) := by
  unfold swtWarn
  cases hs : swt o.w level m trim norm x with
  | error e => simp
  | ok v =>
    cases norm <;> cases o.orthogonal <;> cases b <;> simp [eq_comm]

/-- **C75 (user's filters).** A wavelet made from the user's filters is not flagged orthogonal, so `norm=True` warns, even where the
filters are orthogonal and the energy is kept exactly. -/
theorem C75_user_bank_warns {name : String} {filters : List (Arr ℝ)} {o : WaveletObj ℝ} (ho : waveletObjOfBank name filters = .ok o)
    (horth : OrthogonalBank o.w) {l m : ℕ} {x : List ℝ} {cs : List (List ℝ)} {b : Bool}
    (h : swtWarn o (some (l : ℤ)) (m : ℤ) true (some (1 / √2)) x = .ok (.trimmed cs, b)) :
    b = true ∧ (cs.map energy).sum = energy x := by
  have hf : o.orthogonal = false := by
    unfold waveletObjOfBank at ho
    cases hw : waveletOfBank filters with
    | error e => rw [hw] at ho; simp at ho
    | ok w =>
      rw [hw] at ho
      simp only [Py_bind_ok, Py_pure, Except.ok.injEq] at ho
      rw [← ho]
  obtain ⟨h1, h2⟩ := (C75_swt_warns _ _ _ _ _ _).mp h
  exact ⟨h2.mpr ⟨by simp, hf⟩, C17_swt_energy horth.1 (by rw [← horth.2.1, ← horth.2.2.1]; exact horth.2.2.2) inv_sqrt2_sq h1⟩

/-- Filters of length two: the Haar bank as a user would pass it. -/
example : ∃ o cs, waveletObjOfBank "mine" [Arr.ofList haarR.dec_lo, Arr.ofList haarR.dec_hi, Arr.ofList haarR.rec_lo,
      Arr.ofList haarR.rec_hi] = .ok o ∧ OrthogonalBank o.w ∧
    swtWarn o (some ((2 : ℕ) : ℤ)) ((0 : ℕ) : ℤ) true (some (1 / √2)) [(1 : ℝ), 2, 3, 4] = .ok (.trimmed cs, true) := by
  have he := swt_eq haarR_ok 2 0 true (some (1 / √2)) [(1 : ℝ), 2, 3, 4]
  rw [if_pos (by decide)] at he
  refine ⟨⟨"mine", 0, haarR, false, false, .unknown, "", "", 0, 0⟩, _, ?_, haarR_orthogonal,
    (C75_swt_warns _ _ _ _ _ _).mpr ⟨he, by simp⟩⟩
  rfl

/-- **C75 (energy).** For filters orthogonal up to `ε`, `l` levels of `swt` with `norm=True` and `trim_approx=True` change the energy
by a factor between `(1-ε)^l` and `(1+ε)^l`. -/
theorem C75_swt_energy {ε : ℝ} {w : Wavelet ℝ} (h : NearOrthogonal ε w) (hε : ε ≤ 1) {l m : ℕ} {x : List ℝ} {cs : List (List ℝ)}
    (hr : swt w (some (l : ℤ)) (m : ℤ) true (some (1 / √2)) x = .ok (.trimmed cs)) :
    (1 - ε) ^ l * energy x ≤ (cs.map energy).sum ∧ (cs.map energy).sum ≤ (1 + ε) ^ l * energy x := by
  rw [swt_eq h.1] at hr
  split at hr
  swap
  · simp at hr
  rename_i hc
  simp only [Except.ok.injEq, swtResult, if_true, SwtCoeffs.trimmed.injEq, Wavelet.normed, Wavelet.rescale] at hr
  have := swt_energy_near h inv_sqrt2_sq hε m hc.2.1 l
  rw [← hr]
  simpa only [List.map_cons, List.sum_cons, List.map_reverse, List.sum_reverse, List.map_map, Function.comp_def] using this

example : NearOrthogonal 0 haarR ∧
    ∃ cs, swt haarR (some ((2 : ℕ) : ℤ)) ((0 : ℕ) : ℤ) true (some (1 / √2)) [(1 : ℝ), 2, 3, 4] = .ok (.trimmed cs) := by
  have he := swt_eq haarR_ok 2 0 true (some (1 / √2)) [(1 : ℝ), 2, 3, 4]
  rw [if_pos (by decide)] at he
  refine ⟨⟨haarR_ok, by simp [haarR], by simp [haarR], fun p hp => le_of_eq (sum_eq_zero fun s _ => ?_)⟩, _, he⟩
  rw [haarR_PR p hp s, sub_self, abs_zero]

/-- A bound on the relative change of energy. -/
theorem energy_change {τ E S : ℝ} {l : ℕ} (h0 : 0 ≤ τ) (hτ1 : τ ≤ 1) (hl : l * τ ≤ 1) (hE : 0 ≤ E) (e1 : (1 - τ) ^ l * E ≤ S)
    (e2 : S ≤ (1 + τ) ^ l * E) : |S - E| ≤ 2 * (l * τ) * E := by
  have hp := one_add_pow_le h0 hl
  have hl0 : 0 ≤ (l : ℝ) * τ := by positivity
  have hb : 1 - l * τ ≤ (1 - τ) ^ l := by
    have := one_add_mul_le_pow (a := -τ) (by linarith) l
    calc _ = 1 + (l : ℝ) * -τ := by ring
      _ ≤ (1 + -τ) ^ l := this
      _ = _ := by ring
  rw [abs_le]
  constructor <;> nlinarith [mul_nonneg hl0 hE]

theorem tolerance_le (single : Bool) (fam : Family) : ((tolerance single fam).1 : ℝ) / (tolerance single fam).2 ≤ 1 := by
  cases single <;> cases fam <;> norm_num [tolerance]

/-- **C75 (no warning).** If `swt` with `norm=True` and `trim_approx=True` does not warn for a built-in wavelet, the energy changes
by at most `2·l·τ` of it, `τ` the tolerance of the family (`3·10⁻¹⁶` for Haar, Daubechies and Coiflet wavelets in double precision;
`0.0067` for `dmey`, see `C75_dmey_silent`). -/
theorem C75_no_warning_partial {name : String} {fam : Family} {order : ℕ} (h : (name, fam, order) ∈ wnameToCode)
    (hd : fam.isDiscrete = true) (single : Bool) {o : WaveletObj ℤ} (ho : waveletNamed single name = .ok o)
    {τ : ℝ} (hτ : τ = ((tolerance single fam).1 : ℝ) / (tolerance single fam).2) {l m : ℕ} (hl : l * τ ≤ 1) {x : List ℝ}
    {cs : List (List ℝ)}
    (hr : swtWarn (realObj o) (some (l : ℤ)) (m : ℤ) true (some (1 / √2)) x = .ok (.trimmed cs, false)) :
    |(cs.map energy).sum - energy x| ≤ 2 * (l * τ) * energy x := by
  obtain ⟨h1, h2⟩ := (C75_swt_warns _ _ _ _ _ _).mp hr
  have horth : o.orthogonal = true := by
    by_contra hc
    have : (false : Bool) = true := h2.mpr ⟨by simp, by simpa [realObj] using hc⟩
    simp at this
  have hn := C65_builtin_near_orthogonal h hd single ho horth
  rw [← hτ] at hn
  have hτ1 : τ ≤ 1 := hτ ▸ tolerance_le single fam
  obtain ⟨e1, e2⟩ := C75_swt_energy hn hτ1 h1
  exact energy_change (near_nonneg hn) hτ1 hl (energy_nonneg x) e1 e2

example : ∃ o cs, ("db2", Family.db, 2) ∈ wnameToCode ∧ waveletNamed false "db2" = .ok o ∧
    swtWarn (realObj o) (some ((2 : ℕ) : ℤ)) ((0 : ℕ) : ℤ) true (some (1 / √2)) [(1 : ℝ), 2, 3, 4] = .ok (.trimmed cs, false) := by
  have hm : ("db2", Family.db, 2) ∈ wnameToCode := by decide +kernel
  obtain ⟨o, h1, -, hw, -, -, hor, -⟩ := builtin_ok (single := false) hm rfl
  have hor : o.orthogonal = true := hor
  have he := swt_eq (realBank_ok hw) 2 0 true (some (1 / √2)) [(1 : ℝ), 2, 3, 4]
  rw [if_pos (by decide)] at he
  exact ⟨o, _, hm, h1, (C75_swt_warns _ _ _ _ _ _).mpr ⟨he, by simp [realObj, hor]⟩⟩

/-- One level of the impulse. -/
theorem swt_impulse {w : Wavelet ℤ} (hw : w.Ok) {N : ℕ} (hN : w.dec_len ≤ N) (h2 : N % 2 = 0) :
    ∃ cs, swt (realBank w) (some ((1 : ℕ) : ℤ)) ((0 : ℕ) : ℤ) true (some (1 / √2)) (impulse N) = .ok (.trimmed cs) ∧
      (cs.map energy).sum = (squares w : ℝ) / (2 ^ 160 * 2 ^ 160) / 2 := by
  have hw' : (realBank w).Ok := realBank_ok hw
  have h3 : 2 ≤ w.dec_len := hw.1
  have he := swt_eq hw' 1 0 true (some (1 / √2)) (impulse N)
  rw [if_pos ⟨le_refl _, by rw [impulse_length]; omega, by rw [impulse_length]; simpa using Nat.dvd_of_mod_eq_zero h2⟩] at he
  refine ⟨_, he, ?_⟩
  have ht := inv_sqrt2_sq
  have ht2 : 1 / √2 * (1 / √2) = 1 / 2 := by linarith
  have hi := impulse_energy hw hN
  simp only [Wavelet.normed, Wavelet.rescale, List.range_one, List.map_cons, List.map_nil, List.reverse_singleton, List.sum_cons,
    List.sum_nil, add_zero, swtApprox, swtDetail, atrous_scale, energy_map_mul, ht2, pow_zero]
  rw [← hi]
  ring

/-- **C75 (warning).** The warning is true of every built-in wavelet it is issued for, except `bior1.1` and `rbio1.1`: the impulse
of any even length at least that of the filters comes out with at least 0.5 per cent more energy. -/
theorem C75_warning_true {name : String} {fam : Family} {order : ℕ} (h : (name, fam, order) ∈ wnameToCode)
    (hd : fam.isDiscrete = true) (single : Bool) {o : WaveletObj ℤ} (ho : waveletNamed single name = .ok o)
    (horth : o.orthogonal = false) (hn1 : name ≠ "bior1.1") (hn2 : name ≠ "rbio1.1") {N : ℕ} (hN : o.w.dec_len ≤ N)
    (h2 : N % 2 = 0) :
    ∃ cs, swtWarn (realObj o) (some ((1 : ℕ) : ℤ)) ((0 : ℕ) : ℤ) true (some (1 / √2)) (impulse N) = .ok (.trimmed cs, true) ∧
      energy (impulse N) = 1 ∧ 1005 / 1000 ≤ (cs.map energy).sum := by
  obtain ⟨o', h1, hdw, hw, -, -, hor, -⟩ := builtin_ok (single := single) h hd
  obtain rfl : o' = o := by rw [h1] at ho; simpa using ho
  obtain ⟨cs, c1, c2⟩ := swt_impulse hw hN h2
  have h3 : 2 ≤ o'.w.dec_len := hw.1
  refine ⟨cs, (C75_swt_warns _ _ _ _ _ _).mpr ⟨c1, by simp [realObj, horth]⟩, energy_impulse (by omega), ?_⟩
  have hfam := not_orthogonal_family hd order (hor ▸ horth)
  obtain ⟨hk, hsq⟩ := bior_squares hfam hdw
  have hb : 2010 * 2 ^ 320 ≤ 1000 * squares o'.w := by
    rw [hsq]
    refine bior_gain hk fun h11 => ?_
    rcases eleven_names _ h hfam h11 with hh | hh
    · exact hn1 hh
    · exact hn2 hh
  have hb' : (2010 * 2 ^ 320 : ℝ) ≤ 1000 * squares o'.w := by exact_mod_cast hb
  rw [c2, le_div_iff₀ (by norm_num), le_div_iff₀ (by positivity), ← pow_add]
  norm_num only [show 160 + 160 = 320 from rfl]
  linarith

example : ("bior2.2", Family.bior, 22) ∈ wnameToCode ∧ Family.bior.isDiscrete = true ∧ "bior2.2" ≠ "bior1.1" ∧
    "bior2.2" ≠ "rbio1.1" ∧ (waveletNamed false "bior2.2").map (fun o => (o.orthogonal, decide (o.w.dec_len ≤ 10))) =
      .ok (false, true) ∧ 10 % 2 = 0 := by decide +kernel

/-- **C75 (finding).** The wavelets `bior1.1` and `rbio1.1` are copies of the Haar wavelet; the warning is issued although the energy
is kept up to the tolerance of the family, for every signal. -/
theorem C75_warning_overstates {name : String} (hname : name = "bior1.1" ∨ name = "rbio1.1") (single : Bool) {τ : ℝ}
    (hτ : τ = ((tolerance single .bior).1 : ℝ) / (tolerance single .bior).2) :
    ∃ o, waveletNamed single name = .ok o ∧ ∀ (l m : ℕ) (x : List ℝ) (cs : List (List ℝ)) (b : Bool), l * τ ≤ 1 →
      swtWarn (realObj o) (some (l : ℤ)) (m : ℤ) true (some (1 / √2)) x = .ok (.trimmed cs, b) →
      b = true ∧ |(cs.map energy).sum - energy x| ≤ 2 * (l * τ) * energy x := by
  obtain ⟨fam, hm, hd, ht⟩ : ∃ fam : Family, (name, fam, 11) ∈ wnameToCode ∧ fam.isDiscrete = true ∧
      tolerance single fam = tolerance single .bior ∧ (fam = .bior ∨ fam = .rbio) := by
    rcases hname with rfl | rfl
    · exact ⟨.bior, by decide +kernel, rfl, rfl, .inl rfl⟩
    · exact ⟨.rbio, by decide +kernel, rfl, rfl, .inr rfl⟩
  obtain ⟨ht, hfam⟩ := ht
  obtain ⟨o, h1, hdw, hw, -, -, hor, hpr⟩ := builtin_ok (single := single) hm hd
  obtain ⟨c2, c3⟩ := copy_mirror hfam hdw
  have c1 : o.orthogonal = false := by
    rw [hor]
    rcases hfam with rfl | rfl <;> rfl
  refine ⟨o, h1, fun l m x cs b hl hr => ?_⟩
  obtain ⟨r1, r2⟩ := (C75_swt_warns _ _ _ _ _ _).mp hr
  have hn : NearOrthogonal τ (realBank o.w) := by
    rw [hτ, ← ht]
    refine ⟨realBank_ok hw, ?_, ?_, hpr⟩
    · simp only [realBank, c2, List.map_reverse]
    · simp only [realBank, c3, List.map_reverse]
  have hτ1 : τ ≤ 1 := hτ ▸ tolerance_le single .bior
  obtain ⟨e1, e2⟩ := C75_swt_energy hn hτ1 r1
  exact ⟨r2.mpr ⟨by simp, by simpa [realObj] using c1⟩, energy_change (near_nonneg hn) hτ1 hl (energy_nonneg x) e1 e2⟩

example : "bior1.1" = "bior1.1" ∧ ((3 : ℕ) : ℝ) * (((tolerance false .bior).1 : ℝ) / (tolerance false .bior).2) ≤ 1 := by
  refine ⟨rfl, ?_⟩
  norm_num [tolerance]

/-- **C75 (finding).** For `dmey` there is no warning, although the energy is not kept: the impulse of any even length at least that
of the filters comes out with at least 0.2 per cent more energy. -/
theorem C75_dmey_silent (single : Bool) {o : WaveletObj ℤ} (ho : waveletNamed single "dmey" = .ok o) {N : ℕ} (hN : o.w.dec_len ≤ N)
    (h2 : N % 2 = 0) :
    ∃ cs, swtWarn (realObj o) (some ((1 : ℕ) : ℤ)) ((0 : ℕ) : ℤ) true (some (1 / √2)) (impulse N) = .ok (.trimmed cs, false) ∧
      energy (impulse N) = 1 ∧ 1002 / 1000 ≤ (cs.map energy).sum := by
  obtain ⟨o', h1, hdw, hw, -, -, hor, -⟩ :=
    builtin_ok (single := single) (show ("dmey", Family.dmey, 0) ∈ wnameToCode by decide +kernel) rfl
  obtain rfl : o' = o := by rw [h1] at ho; simpa using ho
  obtain ⟨cs, c1, c2⟩ := swt_impulse hw hN h2
  have h3 : 2 ≤ o'.w.dec_len := hw.1
  have hg := dmey_gain single
  rw [← dmey_squares hdw] at hg
  have hor' : o'.orthogonal = true := hor
  refine ⟨cs, (C75_swt_warns _ _ _ _ _ _).mpr ⟨c1, by simp [realObj, hor']⟩, energy_impulse (by omega), ?_⟩
  have hb' : (2004 * 2 ^ 320 : ℝ) ≤ 1000 * squares o'.w := by exact_mod_cast hg
  rw [c2, le_div_iff₀ (by norm_num), le_div_iff₀ (by positivity), ← pow_add]
  norm_num only [show 160 + 160 = 320 from rfl]
  linarith

example : ∃ o, waveletNamed false "dmey" = .ok o ∧ o.w.dec_len ≤ 10 ^ 6 ∧ 10 ^ 6 % 2 = 0 := by
  obtain ⟨o, h1, hdw, -⟩ := builtin_ok (single := false) (show ("dmey", Family.dmey, 0) ∈ wnameToCode by decide +kernel) rfl
  refine ⟨o, h1, ?_, by norm_num⟩
  have hc : fillCheck false (tolerance false .dmey) (fillFrom false .dmey 0) = true :=
    entryCheck_of_orderOk (single := false) (fam := .dmey) (order := 0) rfl
  obtain ⟨g, g1, g2⟩ := fill_pair hc hdw
  have h62 : g.F = 62 := by
    simp only [fillFrom, Option.some.injEq] at g1
    rw [← g1]
  have : o.w.dec_lo.length ≤ 62 := by
    rw [g2.dl, List.length_reverse, g2.len, List.length_take]
    omega
  have h : o.w.dec_len ≤ 62 := this
  omega

end Pywt
