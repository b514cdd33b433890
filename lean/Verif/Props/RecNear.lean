import Verif.Proof.RecNear

/-!
# Property C81: edited coefficients of arrays, for the built-in orthogonal wavelets
-/

set_option autoImplicit false

namespace Pywt

open Finset Spec

/-- **C81 (`waverecn`).** Filters orthogonal up to `ε`, `l` levels along `d` axes. Coefficients of any values with the layout of
those of an array `x` are accepted by `waverecn`; the result has the shape of `x`, and its energy is at most `(1+ε)^(d·l)` times
that of the coefficients. -/
theorem C81_waverecn_energy {ε : ℝ} (h0 : 0 ≤ ε) (hε : ε ≤ 1) {st : List (Stage ℝ)} (hne : st ≠ []) {x : Arr ℝ}
    {wavelet : PerAxis (Wavelet ℝ)} {mode : PerAxis Mode} {axes : Option (List ℤ)} {l : ℕ}
    (hr : Resolves x.ndim wavelet mode axes st) (hst : NearStages ε st x.shape (2 ^ l)) {A B : Arr ℝ}
    {ds es : List (List (Key × Arr ℝ))}
    (hx : wavedecn x wavelet mode (some (l : ℤ)) axes = .ok (.arr A :: ds.map Item.ofDict))
    (hB : B.shape = A.shape) (hes : layout es = layout ds) :
    ∃ y, waverecn (.arr B :: es.map Item.ofDict) wavelet mode axes = .ok (.arr y) ∧ y.shape = x.shape ∧
      energy y.data ≤ (1 + ε) ^ (st.length * l) *
        (energy B.data + (es.map fun d => (d.map fun p => energy p.2.data).sum).sum) := by
  rw [← energy_flatC]
  exact waverecn_near_energy h0 hε hne hr hst hx hB hes

/-- **C81 (distances).** The coefficients of two arrays are as far apart as the arrays, up to the factors `(1-ε)^(d·l)` and
`(1+ε)^(d·l)` for the squares. -/
theorem C81_wavedecn_dist {ε : ℝ} (h0 : 0 ≤ ε) (hε : ε ≤ 1) {st : List (Stage ℝ)} (hne : st ≠ []) {x y : Arr ℝ}
    {wavelet : PerAxis (Wavelet ℝ)} {mode : PerAxis Mode} {axes : Option (List ℤ)} {l : ℕ}
    (hr : Resolves x.ndim wavelet mode axes st) (hst : NearStages ε st x.shape (2 ^ l)) (hs : y.shape = x.shape)
    {A B : Arr ℝ} {ds es : List (List (Key × Arr ℝ))}
    (hx : wavedecn x wavelet mode (some (l : ℤ)) axes = .ok (.arr A :: ds.map Item.ofDict))
    (hy : wavedecn y wavelet mode (some (l : ℤ)) axes = .ok (.arr B :: es.map Item.ofDict)) :
    (1 - ε) ^ (st.length * l) * Spec.Arr.dist2 x y ≤ Spec.Arr.dist2 A B + dist2D ds es ∧
      Spec.Arr.dist2 A B + dist2D ds es ≤ (1 + ε) ^ (st.length * l) * Spec.Arr.dist2 x y := by
  obtain ⟨A', ds', B', es', c1, c2, c3, c4, c5⟩ := C51_wavedecn_linear (x := x) (y := y) hne hr
    (fun s hs => ⟨(hst.2 s hs).2.2.1, (hst.2 s hs).2.1.1⟩) hst.1 hs.symm hx (1 : ℝ) (-1)
  simp only [List.cons.injEq, Item.arr.injEq] at c1
  obtain ⟨rfl, c1⟩ := c1
  obtain rfl := map_ofDict_inj c1
  rw [hy] at c2
  simp only [Except.ok.injEq, List.cons.injEq, Item.arr.injEq] at c2
  obtain ⟨rfl, c2⟩ := c2
  obtain rfl := map_ofDict_inj c2
  obtain ⟨D, gs, d1, -, d3, d4⟩ := C79_wavedecn_energy (x := Arr.lincomb (1 : ℝ) (-1) x y) h0 hε hne hr hst
  rw [c5] at d1
  simp only [Except.ok.injEq, List.cons.injEq, Item.arr.injEq] at d1
  obtain ⟨rfl, d1⟩ := d1
  obtain rfl := map_ofDict_inj d1
  have e1 : energy (Arr.lincomb (1 : ℝ) (-1) A B).data = Spec.Arr.dist2 A B := energy_lincomb c3
  have e2 := energy_lincombDs c4
  have e3 : energy (Arr.lincomb (1 : ℝ) (-1) x y).data = Spec.Arr.dist2 x y := energy_lincomb hs.symm
  unfold Arr.energy at e2
  rw [e1, e2, e3] at d3 d4
  exact ⟨d3, d4⟩

/-- **C81 (edits).** `waverecn` of edited coefficients is away from the array `x` by at most `√((1+ε)^(d·l))` times the change of
the coefficients, plus `(1+ε)^(d·l) - 1` times the norm of `x`. -/
theorem C81_edit_error {ε : ℝ} (h0 : 0 ≤ ε) (hε : ε ≤ 1) {st : List (Stage ℝ)} (hne : st ≠ []) {x : Arr ℝ}
    {wavelet : PerAxis (Wavelet ℝ)} {mode : PerAxis Mode} {axes : Option (List ℤ)} {l : ℕ}
    (hr : Resolves x.ndim wavelet mode axes st) (hst : NearStages ε st x.shape (2 ^ l)) {A B : Arr ℝ}
    {ds es : List (List (Key × Arr ℝ))}
    (hx : wavedecn x wavelet mode (some (l : ℤ)) axes = .ok (.arr A :: ds.map Item.ofDict))
    (hB : B.shape = A.shape) (hes : layout es = layout ds) :
    ∃ y, waverecn (.arr B :: es.map Item.ofDict) wavelet mode axes = .ok (.arr y) ∧ y.shape = x.shape ∧
      distance y.data x.data ≤ √((1 + ε) ^ (st.length * l)) * √(Spec.Arr.dist2 B A + dist2D es ds) +
        ((1 + ε) ^ (st.length * l) - 1) * norm2 x.data := by
  rw [← dist2_flatC hB hes]
  exact waverecn_near_edit h0 hε hne hr hst hx hB hes

/-- **C81 (round trip).** `waverecn(wavedecn(x))` is away from `x` by at most `(1+ε)^(d·l) - 1` times the norm of `x`. -/
theorem C81_round_trip {ε : ℝ} (h0 : 0 ≤ ε) (hε : ε ≤ 1) {st : List (Stage ℝ)} (hne : st ≠ []) {x : Arr ℝ}
    {wavelet : PerAxis (Wavelet ℝ)} {mode : PerAxis Mode} {axes : Option (List ℤ)} {l : ℕ}
    (hr : Resolves x.ndim wavelet mode axes st) (hst : NearStages ε st x.shape (2 ^ l)) :
    ∃ cs y, wavedecn x wavelet mode (some (l : ℤ)) axes = .ok cs ∧ waverecn cs wavelet mode axes = .ok (.arr y) ∧
      y.shape = x.shape ∧ distance y.data x.data ≤ ((1 + ε) ^ (st.length * l) - 1) * norm2 x.data := by
  obtain ⟨A, ds, hx, -⟩ := C79_wavedecn_energy h0 hε hne hr hst
  obtain ⟨y, y1, y2, y3⟩ := waverecn_near_edit h0 hε hne hr hst hx rfl rfl
  refine ⟨_, y, hx, y1, y2, ?_⟩
  rw [dist2_self, Real.sqrt_zero, mul_zero, zero_add] at y3
  exact y3

/-- The stages of built-in orthogonal wavelets in periodization mode. -/
theorem nearStages_builtin {single : Bool} {τ : ℝ} {wavelet : PerAxis (WaveletObj ℤ)}
    (hw : ∀ o ∈ given wavelet, BuiltinWithin single τ o ∧ o.orthogonal = true) {axes : Option (List ℤ)} {st : List (Stage ℝ)}
    {x : Arr ℝ} {l : ℕ} (hr : Resolves x.ndim (mapObjs (fun o => realBank o.w) wavelet) (.one .periodization) axes st)
    (hx : (st.map (·.1)).Nodup ∧ ∀ s ∈ st, s.1 < x.shape.length ∧ 1 ≤ x.shape.getD s.1 0 ∧ 2 ^ l ∣ x.shape.getD s.1 0) :
    NearStages τ st x.shape (2 ^ l) := by
  have hg : ∀ {β : Type} (f : WaveletObj ℤ → β), given (mapObjs f wavelet) = (given wavelet).map f := by
    intro β f
    cases wavelet <;> simp [mapObjs, given]
  refine ⟨hx.1, fun s hs => ⟨?_, ?_, hx.2 s hs⟩⟩
  · have := hr.2.2
    simp only [PerAxis.expand, Except.ok.injEq] at this
    have hm := List.mem_map_of_mem (f := fun s : Stage ℝ => s.2.2) hs
    rw [← this] at hm
    exact List.eq_of_mem_replicate hm
  · have hm := List.mem_map_of_mem (f := fun s : Stage ℝ => s.2.1) hs
    obtain ⟨-, w, hwm, e⟩ := (expand_exists hr.2.1 (fun v => v = s.2.1)).mp ⟨_, hm, rfl⟩
    rw [← e]
    rw [hg] at hwm
    obtain ⟨o, ho, rfl⟩ := List.mem_map.mp hwm
    obtain ⟨⟨name, fam, order, b1, b2, b3, b4⟩, b5⟩ := hw o ho
    exact near_mono (C65_builtin_near_orthogonal b1 b2 single b3 b5) b4

/-- **C81 (built-in wavelets).** `waverecn` with `mode='periodization'` and built-in wavelets flagged orthogonal, whose tables are
exact up to `τ`, `l` levels along `d` axes: for coefficients edited in any way the result is away from the array by at most
`√(1+2·d·l·τ)` times the change of the coefficients plus `2·d·l·τ` times the norm of the array. -/
theorem C81_builtin {single : Bool} {τ : ℝ} (h0 : 0 ≤ τ) (hτ : τ ≤ 1) {wavelet : PerAxis (WaveletObj ℤ)}
    (hw : ∀ o ∈ given wavelet, BuiltinWithin single τ o ∧ o.orthogonal = true) {axes : Option (List ℤ)} {st : List (Stage ℝ)}
    (hne : st ≠ []) {x : Arr ℝ} {l : ℕ}
    (hr : Resolves x.ndim (mapObjs (fun o => realBank o.w) wavelet) (.one .periodization) axes st)
    (hx : (st.map (·.1)).Nodup ∧ ∀ s ∈ st, s.1 < x.shape.length ∧ 1 ≤ x.shape.getD s.1 0 ∧ 2 ^ l ∣ x.shape.getD s.1 0)
    (hl : (st.length * l : ℕ) * τ ≤ 1) {A B : Arr ℝ} {ds es : List (List (Key × Arr ℝ))}
    (hd : wavedecn x (mapObjs (fun o => realBank o.w) wavelet) (.one .periodization) (some (l : ℤ)) axes =
      .ok (.arr A :: ds.map Item.ofDict))
    (hB : B.shape = A.shape) (hes : layout es = layout ds) :
    ∃ y, waverecn (.arr B :: es.map Item.ofDict) (mapObjs (fun o => realBank o.w) wavelet) (.one .periodization) axes =
        .ok (.arr y) ∧ y.shape = x.shape ∧
      distance y.data x.data ≤ √(1 + 2 * ((st.length * l : ℕ) * τ)) * √(Spec.Arr.dist2 B A + dist2D es ds) +
        2 * ((st.length * l : ℕ) * τ) * norm2 x.data := by
  obtain ⟨y, y1, y2, y3⟩ := C81_edit_error h0 hτ hne hr (nearStages_builtin hw hr hx) hd hB hes
  refine ⟨y, y1, y2, y3.trans ?_⟩
  have hp := one_add_pow_le h0 hl
  refine add_le_add (mul_le_mul_of_nonneg_right (Real.sqrt_le_sqrt hp) (Real.sqrt_nonneg _))
    (mul_le_mul_of_nonneg_right (by linarith) (Real.sqrt_nonneg _))

/-- The hypotheses are met by `db2` along both axes of every 4×8 array, two levels, with all details replaced by zeros. -/
example (x : Arr ℝ) (hx : x.shape = [4, 8]) : ∃ o, waveletNamed false "db2" = .ok o ∧
    (BuiltinWithin false (1 / 100) o ∧ o.orthogonal = true) ∧
    ∃ st, Resolves x.ndim (mapObjs (fun o => realBank o.w) (.one o)) (.one .periodization) (some [0, -1]) st ∧ st ≠ [] ∧
      ((st.map (·.1)).Nodup ∧ ∀ s ∈ st, s.1 < x.shape.length ∧ 1 ≤ x.shape.getD s.1 0 ∧ 2 ^ 2 ∣ x.shape.getD s.1 0) ∧
      ((st.length * 2 : ℕ) : ℝ) * (1 / 100) ≤ 1 ∧ NearStages (1 / 100) st x.shape (2 ^ 2) ∧
      ∃ A ds, wavedecn x (mapObjs (fun o => realBank o.w) (.one o)) (.one .periodization) (some ((2 : ℕ) : ℤ)) (some [0, -1]) =
        .ok (.arr A :: ds.map Item.ofDict) ∧
        layout (ds.map fun d => d.map fun p => (p.1, (Arr.zero p.2.shape : Arr ℝ))) = layout ds := by
  have hm : ("db2", Family.db, 2) ∈ wnameToCode := by decide +kernel
  obtain ⟨o, h1, -, hw, -⟩ := builtin_ok (single := false) hm rfl
  have horth : (waveletNamed false "db2").map (fun o => o.orthogonal) = .ok true := by decide +kernel
  rw [h1] at horth
  have hb : BuiltinWithin false (1 / 100) o ∧ o.orthogonal = true :=
    ⟨⟨_, _, _, hm, rfl, h1, by norm_num [tolerance]⟩, by simpa [Except.map] using horth⟩
  have hr : Resolves x.ndim (mapObjs (fun o => realBank o.w) (.one o)) (.one .periodization) (some [0, -1])
      [(0, realBank o.w, .periodization), (1, realBank o.w, .periodization)] := by
    unfold Arr.ndim
    rw [hx]
    exact ⟨rfl, rfl, rfl⟩
  have hs : (([(0, realBank o.w, .periodization), (1, realBank o.w, .periodization)] : List (Stage ℝ)).map (·.1)).Nodup ∧
      ∀ s ∈ ([(0, realBank o.w, .periodization), (1, realBank o.w, .periodization)] : List (Stage ℝ)),
        s.1 < x.shape.length ∧ 1 ≤ x.shape.getD s.1 0 ∧ 2 ^ 2 ∣ x.shape.getD s.1 0 := by
    rw [hx]
    refine ⟨by simp, fun s hs => ?_⟩
    simp only [List.mem_cons, List.not_mem_nil, or_false] at hs
    rcases hs with rfl | rfl
    · exact ⟨by simp, by simp, by norm_num⟩
    · exact ⟨by simp, by simp, by norm_num⟩
  have hn := nearStages_builtin (τ := 1 / 100) (wavelet := .one o) (by
    intro o' ho
    simp only [given, List.mem_singleton] at ho
    subst ho
    exact hb) hr hs
  obtain ⟨A, ds, e, -⟩ := C79_wavedecn_energy (by norm_num) (by norm_num) (by simp) hr hn
  refine ⟨o, h1, hb, _, hr, by simp, hs, by norm_num, hn, A, ds, e, ?_⟩
  simp [layout, List.map_map, Function.comp_def, Arr.zero, Arr.ofFn]

end Pywt
