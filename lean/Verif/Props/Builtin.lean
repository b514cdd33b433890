import Verif.Proof.BuiltinTop

/-!
# C35: the built-in discrete wavelets

The filters are the binary floating-point numbers the C library holds, in `float` (`single = true`) and in
`double` precision, computed from the decimal literals of `wavelets_coeffs.template.h`.  The transforms are
evaluated in exact arithmetic.
-/

namespace Pywt

open Spec

set_option autoImplicit false

/-- **C35 (tables).** `Wavelet(name)` succeeds for every discrete wavelet name in the table of names, and its
filters satisfy the perfect-reconstruction identities up to the tolerance of the family: `3·10⁻¹⁶` for Haar,
Daubechies and coiflets, `3·10⁻¹¹` for symlets, `2.1·10⁻¹²` for (reverse) biorthogonal wavelets, `6.7·10⁻³` for
the discrete Meyer wavelet; `2·10⁻⁷` in single precision. -/
theorem C35_tables {name : String} {fam : Family} {order : ℕ} (h : (name, fam, order) ∈ wnameToCode)
    (hd : fam.isDiscrete = true) (single : Bool) :
    ∃ o, waveletNamed single name = .ok o ∧ o.name = name ∧ o.w.Ok ∧
      PRWithin (((tolerance single fam).1 : ℝ) / (tolerance single fam).2) (realBank o.w).dec_lo
        (realBank o.w).dec_hi (realBank o.w).rec_lo (realBank o.w).rec_hi := by
  obtain ⟨o, h1, -, h2, h3, -, -, h4⟩ := builtin_ok (single := single) h hd
  exact ⟨o, h1, h3, h2, h4⟩

example : ("db7", Family.db, 7) ∈ wnameToCode ∧ Family.db.isDiscrete = true := by decide +kernel

/-- **C35 (error bound for any bank).** A filter bank that satisfies the perfect-reconstruction identities up to
`ε` reconstructs every sample up to `ε` times the largest extended sample within one filter length of the
signal. -/
theorem C35_error_bound {M : Type} [NormedAddCommGroup M] [NormedSpace ℝ M] {ε : ℝ} {w : Wavelet ℝ} (hw : w.Ok)
    (hpr : PRWithin ε w.dec_lo w.dec_hi w.rec_lo w.rec_hi) {mode : Mode} {x : List M} (hx : SignalOk mode x)
    {B : ℝ} (hB : ∀ p : ℤ, -w.dec_len ≤ p → p < x.length + w.dec_len → ‖ext mode x p‖ ≤ B) :
    ∃ cA cD y, dwt w mode x = .ok (cA, cD) ∧ idwt w mode (some cA) (some cD) = .ok y ∧
      y.length = x.length + x.length % 2 ∧ ∀ n < x.length, ‖y.getD n 0 - x.getD n 0‖ ≤ ε * B :=
  idwt_dwt_within hw hpr hx hB

/-- **C35.** For every built-in discrete wavelet, every signal (real, complex, …) and every mode:
`|idwt(dwt(x))[n] - x[n]|` is at most the tolerance of the family times the largest extended sample. -/
theorem C35_builtin_reconstructs {M : Type} [NormedAddCommGroup M] [NormedSpace ℝ M] {name : String}
    {fam : Family} {order : ℕ} (h : (name, fam, order) ∈ wnameToCode) (hd : fam.isDiscrete = true)
    (single : Bool) {mode : Mode} {x : List M} (hx : SignalOk mode x) :
    ∃ o, waveletNamed single name = .ok o ∧
      ∀ B : ℝ, (∀ p : ℤ, -o.w.dec_len ≤ p → p < x.length + o.w.dec_len → ‖ext mode x p‖ ≤ B) →
      ∃ cA cD y, dwt (realBank o.w) mode x = .ok (cA, cD) ∧
        idwt (realBank o.w) mode (some cA) (some cD) = .ok y ∧ y.length = x.length + x.length % 2 ∧
        ∀ n < x.length, ‖y.getD n 0 - x.getD n 0‖ ≤ ((tolerance single fam).1 : ℝ) / (tolerance single fam).2 * B := by
  obtain ⟨o, h1, -, h2, h3, -, -, h4⟩ := builtin_ok (single := single) h hd
  refine ⟨o, h1, fun B hB => ?_⟩
  have hl : (realBank o.w).dec_len = o.w.dec_len := by simp [realBank, Wavelet.dec_len]
  exact idwt_dwt_within (realBank_ok h2) h4 hx (by rw [hl]; exact hB)

/-- **C35.** In all modes but `smooth` and `antireflect` the extended samples are no larger than the samples, so
the error is at most the tolerance times the largest sample. -/
theorem C35_builtin_reconstructs_samples {M : Type} [NormedAddCommGroup M] [NormedSpace ℝ M] {name : String}
    {fam : Family} {order : ℕ} (h : (name, fam, order) ∈ wnameToCode) (hd : fam.isDiscrete = true)
    (single : Bool) {mode : Mode} (hm : Repeats mode) {x : List M} (hx : SignalOk mode x) {B : ℝ}
    (hB : ∀ v ∈ x, ‖v‖ ≤ B) :
    ∃ o cA cD y, waveletNamed single name = .ok o ∧ dwt (realBank o.w) mode x = .ok (cA, cD) ∧
      idwt (realBank o.w) mode (some cA) (some cD) = .ok y ∧ y.length = x.length + x.length % 2 ∧
      ∀ n < x.length, ‖y.getD n 0 - x.getD n 0‖ ≤ ((tolerance single fam).1 : ℝ) / (tolerance single fam).2 * B := by
  obtain ⟨o, h1, h2⟩ := C35_builtin_reconstructs h hd single hx (mode := mode)
  have hB0 : 0 ≤ B := by
    have hN := hx.1
    exact le_trans (norm_nonneg _) (hB (x[0]'(by omega)) (List.getElem_mem _))
  obtain ⟨cA, cD, y, h3⟩ := h2 B fun p _ _ => ext_le hm hB0 hB p
  exact ⟨o, cA, cD, y, h1, h3⟩

example : ("sym5", Family.sym, 5) ∈ wnameToCode ∧ Family.sym.isDiscrete = true ∧
    SignalOk .symmetric [(1 : ℝ), -2, 3] := by
  refine ⟨by decide +kernel, rfl, ?_⟩
  exact ⟨by simp, by simp⟩

/-- **C35 (loader).** `discrete_wavelet` never reads outside its tables, whatever the family and the order; it
returns a wavelet for exactly the orders below. -/
theorem C35_loader_total (single : Bool) (fam : Family) (order : ℕ) :
    (∃ w, discreteWavelet single fam order = .ok (some w) ∧ w.Ok) ∧ OrderExists fam order ∨
      discreteWavelet single fam order = .ok none ∧ ¬ OrderExists fam order := by
  by_cases h : orderOk fam order = true
  · obtain ⟨w, hw, hok, -⟩ := entryCheck_ok (entryCheck_of_orderOk (single := single) h)
    exact .inl ⟨⟨w, hw, hok⟩, orderOk_iff.mp h⟩
  · exact .inr ⟨discreteWavelet_none (by simpa using h), fun hn => h (orderOk_iff.mpr hn)⟩

/-- **C35 (names).** `Wavelet(name)` returns an object for exactly the names that, in lower case, are discrete
wavelets of the table, and raises `ValueError` for all others (`TypeError` for the empty name). -/
theorem C35_names (single : Bool) (name : String) :
    (name = "" ∧ waveletNamed single name = .error .type) ∨
    (name ≠ "" ∧ (∃ fam order, (name.toLower, fam, order) ∈ wnameToCode ∧ fam.isDiscrete = true) ∧
      ∃ o, waveletNamed single name = .ok o ∧ o.name = name.toLower) ∨
    (name ≠ "" ∧ (¬ ∃ fam order, (name.toLower, fam, order) ∈ wnameToCode ∧ fam.isDiscrete = true) ∧
      waveletNamed single name = .error .value) := by
  by_cases h0 : name = ""
  · exact .inl ⟨h0, by simp only [waveletNamed, if_pos h0]; rfl⟩
  · refine .inr ?_
    by_cases h : ∃ fam order, (name.toLower, fam, order) ∈ wnameToCode ∧ fam.isDiscrete = true
    · obtain ⟨fam, order, hm, hd⟩ := h
      obtain ⟨w, hw, -⟩ := entryCheck_ok (entryCheck_of_orderOk (single := single) (table_orderOk _ hm hd))
      obtain ⟨-, -, hl⟩ := table_lookup _ hm
      exact .inl ⟨h0, ⟨fam, order, hm, hd⟩, _, waveletNamed_ok h0 hl hd hw, rfl⟩
    · refine .inr ⟨h0, h, waveletNamed_err h0 ?_⟩
      rintro ⟨fam, order, hl, hd⟩
      exact h ⟨fam, order, wnameLookup_discrete hl hd, hd⟩

example : (waveletNamed false "DB2").map (fun o => (o.name, o.number, o.w.dec_len)) = .ok ("db2", 2, 4) := by
  decide +kernel
example : (waveletNamed false "cmor1.5-1.0").map (fun o => o.name) = .error .value := by decide +kernel

/-- **C35 (orthogonal).** A built-in wavelet that says it is orthogonal has as analysis filters the reversed
synthesis filters. -/
theorem C35_orthogonal_mirror {name : String} {fam : Family} {order : ℕ}
    (h : (name, fam, order) ∈ wnameToCode) (hd : fam.isDiscrete = true) (single : Bool) {o : WaveletObj ℤ}
    (ho : waveletNamed single name = .ok o) (horth : o.orthogonal = true) :
    o.w.dec_lo = o.w.rec_lo.reverse ∧ o.w.dec_hi = o.w.rec_hi.reverse := by
  obtain ⟨o', h1, h2, -, -, -, h5, -⟩ := builtin_ok (single := single) h hd
  have : o' = o := by rw [h1] at ho; simpa using ho
  subst this
  rw [horth] at h5
  refine orth_mirror ?_ ?_ h2
  · rintro rfl; simp [discreteInfo] at h5
  · rintro rfl; simp [discreteInfo] at h5

example : (waveletNamed true "coif3").map (fun o => o.orthogonal) = .ok true := by decide +kernel

/-- The impulse response of `idwt ∘ dwt` in zero mode at the impulse, for the wavelet with the given name. -/
def impulseGain (name : String) : Py ℚ := do
  let o ← waveletNamed false name
  let w : Wavelet ℚ := ⟨o.w.dec_lo.map fxVal, o.w.dec_hi.map fxVal, o.w.rec_lo.map fxVal, o.w.rec_hi.map fxVal⟩
  let (cA, cD) ← dwt w .zero [(1 : ℚ)]
  let y ← idwt w .zero (some cA) (some cD)
  pure (y.getD 0 0)

/-- **C35 (finding).** The discrete Meyer wavelet says it is orthogonal, but it is not: its reconstruction of the
signal `[1]` is off by more than one part in 500. -/
theorem C35_dmey_not_orthogonal :
    (waveletNamed false "dmey").map (fun o => o.orthogonal) = .ok true ∧
      ∃ v, impulseGain "dmey" = .ok v ∧ 1 + 1 / 500 < v := by
  refine ⟨by decide +kernel, ?_⟩
  have h : (match impulseGain "dmey" with | .ok v => decide (1 + 1 / 500 < v) | .error _ => false) = true := by
    decide +kernel
  split at h
  · rename_i v hv
    exact ⟨v, hv, by simpa using h⟩
  · simp at h

/-- **C35 (literals).** Every number of every table is held in double precision with relative error at most `2⁻⁵³`
of the decimal literal in the source. -/
theorem C35_literals_accurate {t : List Tables.Lit}
    (ht : t ∈ Tables.db ++ Tables.sym ++ Tables.coif ++ Tables.bior.flatten ++ [Tables.dmey, [Tables.sqrt2]])
    {l : Tables.Lit} (hl : l ∈ t) :
    |fxVal (litDouble l) - (l.1 : ℚ) / 10 ^ l.2| ≤ |(l.1 : ℚ) / 10 ^ l.2| / 2 ^ 53 := by
  have hall : ∀ t ∈ Tables.db ++ Tables.sym ++ Tables.coif ++ Tables.bior.flatten ++
      [Tables.dmey, [Tables.sqrt2]], ∀ l ∈ t, l.1 = 0 ∨ 2 ^ 52 * 10 ^ l.2 ≤ l.1.natAbs * 2 ^ fxBits := by
    decide +kernel
  rcases hall t ht l hl with h | h
  · obtain ⟨z, k⟩ := l
    simp only at h
    subst h
    have : litDouble (0, k) = 0 := by
      simp [litDouble, withSign, roundBits, roundDiv]
    rw [this]
    simp [fxVal]
  · exact litDouble_error l h

example : (25, 4) ∈ [((25, 4) : Tables.Lit)] ∧ litDouble (25, 1) = 5 * 2 ^ 159 := by decide +kernel

end Pywt
