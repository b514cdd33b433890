import Verif.Spec.Mirror
import Verif.Proof.Dwt
import Verif.Proof.BuiltinTop
import Verif.Proof.Spin

/-!
# Proofs for C85
-/

namespace Pywt

open Finset Spec

set_option autoImplicit false
set_option linter.unusedSectionVars false

variable {R M : Type} [CommRing R] [AddCommGroup M] [Module R M]

theorem at'_reverse (x : List M) {p : ℤ} (h0 : 0 ≤ p) (h1 : p < x.length) :
    at' x.reverse p = at' x ((x.length : ℤ) - 1 - p) := by
  unfold at'
  rw [List.getD_eq_getElem (hn := by rw [List.length_reverse]; omega), List.getD_eq_getElem (hn := by omega),
    List.getElem_reverse]
  congr 1
  omega

/-- The division with remainder is unique. -/
theorem divmod_unique {p m q r : ℤ} (h : p = m * q + r) (h0 : 0 ≤ r) (h1 : r < m) : p / m = q ∧ p % m = r := by
  have := Int.ediv_emod_unique (a := p) (b := m) (q := q) (r := r) (by omega)
  exact this.mpr ⟨by rw [h]; ring, h0, h1⟩

/-- The extended mirror image is the mirror image of the extended signal. -/
theorem ext_reverse {mode : Mode} {x : List M} (hx : SignalOk mode x)
    (hp : mode = .periodization → x.length % 2 = 0) (p : ℤ) :
    ext mode x.reverse p = ext mode x ((x.length : ℤ) - 1 - p) := by
  obtain ⟨h1, h2⟩ := hx
  set N : ℤ := (x.length : ℤ) with hN
  have hN1 : 1 ≤ N := by omega
  cases mode with
  | zero =>
    simp only [Spec.ext, List.length_reverse, ← hN]
    by_cases h : 0 ≤ p ∧ p < N
    · rw [if_pos h, if_pos (by omega), at'_reverse x h.1 h.2]
    · rw [if_neg h, if_neg (by omega)]
  | constant =>
    simp only [Spec.ext, List.length_reverse, ← hN]
    by_cases ha : p < 0
    · rw [if_pos ha, if_neg (by omega), if_neg (by omega), at'_reverse x le_rfl (by omega)]
      congr 1
      omega
    · rw [if_neg ha]
      by_cases hb : p < N
      · rw [if_pos hb, if_neg (by omega), if_pos (by omega), at'_reverse x (by omega) hb]
      · rw [if_neg hb, if_pos (by omega), at'_reverse x (by omega) (by omega)]
        congr 1
        omega
  | symmetric =>
    simp only [Spec.ext, List.length_reverse, ← hN]
    have hr0 := Int.emod_nonneg p (b := 2 * N) (by omega)
    have hr1 := Int.emod_lt_of_pos p (b := 2 * N) (by omega)
    have hd := Int.mul_ediv_add_emod p (2 * N)
    by_cases h : p % (2 * N) < N
    · have e := (divmod_unique (p := N - 1 - p) (m := 2 * N) (q := -(p / (2 * N))) (r := N - 1 - p % (2 * N))
        (by linear_combination hd) (by omega) (by omega)).2
      rw [e, if_pos h, if_pos (by omega), at'_reverse x hr0 h]
    · have e := (divmod_unique (p := N - 1 - p) (m := 2 * N) (q := -(p / (2 * N)) - 1) (r := 3 * N - 1 - p % (2 * N))
        (by linear_combination hd) (by omega) (by omega)).2
      rw [e, if_neg h, if_neg (by omega), at'_reverse x (by omega) (by omega)]
      congr 1
      omega
  | antisymmetric =>
    simp only [Spec.ext, List.length_reverse, ← hN]
    have hr0 := Int.emod_nonneg p (b := 2 * N) (by omega)
    have hr1 := Int.emod_lt_of_pos p (b := 2 * N) (by omega)
    have hd := Int.mul_ediv_add_emod p (2 * N)
    by_cases h : p % (2 * N) < N
    · have e := (divmod_unique (p := N - 1 - p) (m := 2 * N) (q := -(p / (2 * N))) (r := N - 1 - p % (2 * N))
        (by linear_combination hd) (by omega) (by omega)).2
      rw [e, if_pos h, if_pos (by omega), at'_reverse x hr0 h]
    · have e := (divmod_unique (p := N - 1 - p) (m := 2 * N) (q := -(p / (2 * N)) - 1) (r := 3 * N - 1 - p % (2 * N))
        (by linear_combination hd) (by omega) (by omega)).2
      rw [e, if_neg h, if_neg (by omega), at'_reverse x (by omega) (by omega)]
      congr 2
      omega
  | reflect =>
    have hN2 : 2 ≤ N := by have := h2 (Or.inl rfl); omega
    simp only [Spec.ext, List.length_reverse, ← hN]
    have hr0 := Int.emod_nonneg p (b := 2 * (N - 1)) (by omega)
    have hr1 := Int.emod_lt_of_pos p (b := 2 * (N - 1)) (by omega)
    have hd := Int.mul_ediv_add_emod p (2 * (N - 1))
    by_cases h : p % (2 * (N - 1)) < N
    · have e := (divmod_unique (p := N - 1 - p) (m := 2 * (N - 1)) (q := -(p / (2 * (N - 1))))
        (r := N - 1 - p % (2 * (N - 1))) (by linear_combination hd) (by omega) (by omega)).2
      rw [e, if_pos h, if_pos (by omega), at'_reverse x hr0 h]
    · have e := (divmod_unique (p := N - 1 - p) (m := 2 * (N - 1)) (q := -(p / (2 * (N - 1))) - 1)
        (r := 3 * (N - 1) - p % (2 * (N - 1))) (by linear_combination hd) (by omega) (by omega)).2
      rw [e, if_neg h, if_neg (by omega), at'_reverse x (by omega) (by omega)]
      congr 1
      omega
  | antireflect =>
    have hN2 : 2 ≤ N := by have := h2 (Or.inr rfl); omega
    simp only [Spec.ext, List.length_reverse, ← hN]
    have hr0 := Int.emod_nonneg p (b := 2 * (N - 1)) (by omega)
    have hr1 := Int.emod_lt_of_pos p (b := 2 * (N - 1)) (by omega)
    have hd := Int.mul_ediv_add_emod p (2 * (N - 1))
    have ha : at' x.reverse (N - 1) = at' x 0 := by
      rw [at'_reverse x (by omega) (by omega)]
      congr 1
      omega
    have hb : at' x.reverse 0 = at' x (N - 1) := by
      rw [at'_reverse x (by omega) (by omega)]
      congr 1
      omega
    rw [ha, hb]
    by_cases h : p % (2 * (N - 1)) < N
    · obtain ⟨e, e'⟩ := divmod_unique (p := N - 1 - p) (m := 2 * (N - 1)) (q := -(p / (2 * (N - 1))))
        (r := N - 1 - p % (2 * (N - 1))) (by linear_combination hd) (by omega) (by omega)
      rw [e, e', if_pos h, if_pos (by omega), at'_reverse x hr0 h]
      module
    · obtain ⟨e, e'⟩ := divmod_unique (p := N - 1 - p) (m := 2 * (N - 1)) (q := -(p / (2 * (N - 1))) - 1)
        (r := 3 * (N - 1) - p % (2 * (N - 1))) (by linear_combination hd) (by omega) (by omega)
      rw [e, e', if_neg h, if_neg (by omega), at'_reverse x (by omega) (by omega),
        show (x.length : ℤ) - 1 - (2 * (N - 1) - p % (2 * (N - 1))) = 2 * (N - 1) - (3 * (N - 1) - p % (2 * (N - 1))) by omega]
      module
  | periodic =>
    simp only [Spec.ext, List.length_reverse, ← hN]
    have hr0 := Int.emod_nonneg p (b := N) (by omega)
    have hr1 := Int.emod_lt_of_pos p (b := N) (by omega)
    have hd := Int.mul_ediv_add_emod p N
    have e := (divmod_unique (p := N - 1 - p) (m := N) (q := -(p / N)) (r := N - 1 - p % N)
        (by linear_combination hd) (by omega) (by omega)).2
    rw [e, at'_reverse x hr0 hr1]
  | periodization =>
    have he := hp rfl
    have e1 : evenPad x = x := by unfold evenPad; rw [if_neg (by omega)]
    have e2 : evenPad x.reverse = x.reverse := by unfold evenPad; rw [if_neg (by rw [List.length_reverse]; omega)]
    simp only [Spec.ext, e1, e2, List.length_reverse, ← hN]
    have hr0 := Int.emod_nonneg p (b := N) (by omega)
    have hr1 := Int.emod_lt_of_pos p (b := N) (by omega)
    have hd := Int.mul_ediv_add_emod p N
    have e := (divmod_unique (p := N - 1 - p) (m := N) (q := -(p / N)) (r := N - 1 - p % N)
        (by linear_combination hd) (by omega) (by omega)).2
    rw [e, at'_reverse x hr0 hr1]
  | smooth =>
    simp only [Spec.ext, List.length_reverse, ← hN]
    have ha : at' x.reverse (N - 1) = at' x 0 := by
      rw [at'_reverse x (by omega) (by omega)]
      congr 1
      omega
    have hb : at' x.reverse 0 = at' x (N - 1) := by
      rw [at'_reverse x (by omega) (by omega)]
      congr 1
      omega
    by_cases h : N < 2
    · rw [if_pos h, if_pos h, hb]
      congr 1
      omega
    · have hc : at' x.reverse 1 = at' x (N - 2) := by
        rw [at'_reverse x (by omega) (by omega)]
        congr 1
        omega
      have hd : at' x.reverse (N - 2) = at' x 1 := by
        rw [at'_reverse x (by omega) (by omega)]
        congr 1
        omega
      rw [if_neg h, if_neg h, ha, hb, hc, hd]
      by_cases h3 : p < 0
      · rw [if_pos h3, if_neg (by omega), if_neg (by omega)]
        congr 2
        omega
      · rw [if_neg h3]
        by_cases h4 : p < N
        · rw [if_pos h4, if_neg (by omega), if_pos (by omega), at'_reverse x (by omega) h4]
        · rw [if_neg h4, if_pos (by omega)]
          congr 2
          omega

theorem conv_symAbout {f : List R} {s : ℕ} {σ : R} (h : SymAbout f s σ) (e : ℤ → M) (p : ℤ) :
    conv f e p = ∑ j ∈ range (s + 1), f.getD j 0 • e (p - j) := by
  unfold conv
  have h1 : ∑ j ∈ range f.length, f.getD j 0 • e (p - j) = ∑ j ∈ range (max f.length (s + 1)), f.getD j 0 • e (p - j) := by
    refine sum_subset (by intro j; simp; omega) fun j _ hj => ?_
    rw [mem_range, not_lt] at hj
    rw [List.getD_eq_default _ _ hj, zero_smul]
  rw [h1]
  refine (sum_subset (by intro j; simp; omega) fun j _ hj => ?_).symm
  rw [mem_range, not_lt] at hj
  by_cases hl : j < f.length
  · rw [h.1 j hl (by omega), zero_smul]
  · rw [List.getD_eq_default _ _ (by omega), zero_smul]

/-- Filtering the mirror image with a symmetric filter. -/
theorem conv_mirror {f : List R} {s : ℕ} {σ : R} (h : SymAbout f s σ) {e e' : ℤ → M} {c : ℤ} (he : ∀ p, e' p = e (c - p)) (p : ℤ) :
    conv f e' p = σ • conv f e (c - p + s) := by
  rw [conv_symAbout h, conv_symAbout h, ← sum_range_reflect, smul_sum]
  refine sum_congr rfl fun j hj => ?_
  rw [mem_range] at hj
  rw [show s + 1 - 1 - j = s - j by omega, h.2 j hj, mul_smul, he]
  congr 3
  omega

theorem analysis_mirror {mode : Mode} (hm : mode ≠ .periodization) {x : List M} (hx : SignalOk mode x) {f : List R} {s : ℕ}
    {σ : R} (h : SymAbout f s σ) {o o' : ℕ} (ho : o < coeffLen mode x.length f.length)
    (ho' : o' < coeffLen mode x.length f.length) (hs : 2 * (o + o') + 3 = x.length + s) :
    (analysis mode f x.reverse).getD o 0 = σ • (analysis mode f x).getD o' 0 := by
  have hg : ∀ (v : List M) (i : ℕ), i < coeffLen mode v.length f.length →
      (analysis mode f v).getD i 0 = conv f (ext mode v) (2 * (i : ℤ) + 1) := by
    intro v i hi
    rw [List.getD_eq_getElem (hn := by rw [analysis_length]; exact hi)]
    cases mode <;> simp [analysis] at hm ⊢
  rw [hg _ _ (by rw [List.length_reverse]; exact ho), hg _ _ ho', conv_mirror h (ext_reverse hx (fun h => absurd h hm))]
  congr 2
  omega

/-- In periodization the middle of the filter is the only centre with the right parity. -/
theorem analysis_mirror_per {x : List M} (h1 : 1 ≤ x.length) (h2 : x.length % 2 = 0) {f : List R} (hf : 2 ≤ f.length)
    (hf2 : f.length % 2 = 0) {σ : R} (h : SymAbout f (f.length - 1) σ) :
    analysis .periodization f x.reverse = ((analysis .periodization f x).reverse).map (σ • ·) := by
  refine List.ext_getElem (by simp [analysis_length]) fun i g1 g2 => ?_
  rw [analysis_length, List.length_reverse] at g1
  simp only [coeffLen, if_true] at g1
  rw [List.getElem_map, List.getElem_reverse]
  simp only [analysis, List.getElem_map, List.getElem_range, List.length_map, List.length_range]
  rw [conv_mirror h (ext_reverse ⟨h1, by simp⟩ (fun _ => h2))]
  congr 2
  omega

theorem analysis_mirror_half {mode : Mode} {x : List M} (hx : SignalOk mode x) (h2 : x.length % 2 = 0) {f : List R}
    (hf : 2 ≤ f.length) (hf2 : f.length % 2 = 0) {σ : R} (h : SymAbout f (f.length - 1) σ) :
    analysis mode f x.reverse = ((analysis mode f x).reverse).map (σ • ·) := by
  by_cases hm : mode = .periodization
  · subst hm
    exact analysis_mirror_per hx.1 h2 hf hf2 h
  · refine List.ext_getElem (by simp [analysis_length]) fun i g1 g2 => ?_
    have g1' := g1
    rw [analysis_length, List.length_reverse] at g1'
    have hc : coeffLen mode x.length f.length = (x.length + f.length - 1) / 2 := by unfold coeffLen; rw [if_neg hm]
    have := hx.1
    rw [List.getElem_map, List.getElem_reverse, ← List.getD_eq_getElem _ 0, ← List.getD_eq_getElem _ 0, analysis_length]
    exact analysis_mirror hm hx h g1' (by omega) (by omega)

/-! ## Built-in wavelets -/

/-- The check of one wavelet. -/
def phaseCheck (single : Bool) (fam : Family) (order : ℕ) : Bool :=
  match discreteWavelet single fam order with
  | .ok (some w) => decide (HalfSample w ∨ WholeSample w)
  | _ => false

theorem table_phase : ∀ e ∈ wnameToCode, (discreteInfo e.2.1 e.2.2).2.2.1 = .symmetric →
    phaseCheck false e.2.1 e.2.2 = true ∧ phaseCheck true e.2.1 e.2.2 = true := by
  decide +kernel

theorem symAbout_real {f : List ℤ} {s : ℕ} {σ : ℤ} (h : SymAbout f s σ) :
    SymAbout (f.map fun z => (fxVal z : ℝ)) s (σ : ℝ) := by
  have hg : ∀ j, (f.map fun z => (fxVal z : ℝ)).getD j 0 = (fxVal (f.getD j 0) : ℝ) := by
    intro j
    have := List.getD_map (l := f) (d := 0) (n := j) (fun z => (fxVal z : ℝ))
    rw [← this]
    congr 1
    simp [fxVal]
  refine ⟨fun j hj hs => ?_, fun j hj => ?_⟩
  · rw [hg, h.1 j (by simpa using hj) hs]
    simp [fxVal]
  · rw [hg, hg, h.2 j hj]
    simp [fxVal]
    ring

theorem phase_real {w : Wavelet ℤ} (h : HalfSample w ∨ WholeSample w) :
    HalfSample (realBank w) ∨ WholeSample (realBank w) := by
  have hl : (realBank w).dec_len = w.dec_len := by simp [realBank, Wavelet.dec_len]
  rcases h with h | h
  · left
    unfold HalfSample
    rw [hl]
    have h1 := symAbout_real h.1
    have h2 := symAbout_real h.2
    push_cast at h1 h2
    exact ⟨h1, h2⟩
  · right
    unfold WholeSample
    rw [hl]
    have h1 := symAbout_real h.1
    have h2 := symAbout_real h.2
    push_cast at h1 h2
    exact ⟨h1, h2⟩

theorem waveletNamed_entry {single : Bool} {name : String} {o : WaveletObj ℤ} (h : waveletNamed single name = .ok o) :
    ∃ e ∈ wnameToCode, e.2.1.isDiscrete = true ∧ discreteWavelet single e.2.1 e.2.2 = .ok (some o.w) ∧
      o.symmetry = (discreteInfo e.2.1 e.2.2).2.2.1 := by
  simp only [waveletNamed] at h
  by_cases h0 : name = ""
  · simp [h0] at h
  rw [if_neg h0] at h
  simp only [Py_bind_ok, Py_pure] at h
  cases hl : wnameLookup name.toLower with
  | error e => rw [hl] at h; simp [Py_bind_error] at h
  | ok c =>
    obtain ⟨fam, number⟩ := c
    rw [hl] at h
    simp only [Py_bind_ok] at h
    have hmem : ∃ n, (n, fam, number) ∈ wnameToCode := by
      simp only [wnameLookup] at hl
      split at hl
      · rename_i c hc
        simp only [Except.ok.injEq] at hl
        subst hl
        exact ⟨_, lookup_mem hc⟩
      · simp at hl
    obtain ⟨n, hn⟩ := hmem
    by_cases hd : fam.isDiscrete = true
    · simp only [hd, not_true, if_false, Py_bind_ok] at h
      cases hw : discreteWavelet single fam number with
      | error e => rw [hw] at h; simp [liftC, Py_bind_error] at h
      | ok w =>
        rw [hw] at h
        simp only [liftC, Py_bind_ok] at h
        cases w with
        | none => simp at h
        | some w =>
          simp only [Except.ok.injEq] at h
          subst h
          exact ⟨_, hn, hd, hw, rfl⟩
    · simp [hd, Py_bind_error] at h

end Pywt
