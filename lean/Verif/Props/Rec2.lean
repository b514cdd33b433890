import Verif.Proof.Rec2

/-!
# Property C82: images — `waverec2` is `waverecn`, and edited coefficients of images
-/

set_option autoImplicit false

namespace Pywt

open Finset Spec

section
variable {R M : Type} [CommRing R] [AddCommGroup M] [Module R M]

/-- **C82 (`waverec2` is `waverecn`).** In every mode: the array rebuilt by `waverec2` from `cA` and triples `(cH, cV, cD)` that
fit together is the array that `waverecn` rebuilds from `cA` and dicts with `cV`, `cH`, `cD` under `'ad'`, `'da'`, `'dd'`. -/
theorem C82_waverec2_eq_waverecn {A : Arr M} {ps : List (Arr M × Arr M × Arr M)} {wavelet : PerAxis (Wavelet R)}
    {mode : PerAxis Mode} {axes : List ℤ} {s t : Stage R} (hr : Resolves A.ndim wavelet mode (some axes) [s, t])
    (hst : s.1 ≠ t.1) (hp : ∀ p ∈ ps, p.2.1.shape = p.1.shape ∧ p.2.2.shape = p.1.shape)
    (h0 : ∀ p ∈ ps.head?, p.1.shape = A.shape) (hf : RecnFits [s, t] (ps.map tripleDict) A.shape) :
    ∃ y, waverec2 (.arr A :: ps.map Item.ofTriple) wavelet mode axes = .ok (.arr y) ∧
      waverecn (.arr A :: ps.map fun p => .dict [(['a', 'd'], some p.2.1), (['d', 'a'], some p.1), (['d', 'd'], some p.2.2)])
        wavelet mode (some axes) = .ok (.arr y) := by
  refine ⟨_, waverec2_values rfl hr (by simp [hst]) ((recnFits_tripleDict rfl ps _ hp).mp hf), ?_⟩
  rw [← cascade_tripleDict rfl ps A hp, ← ofDict_triples]
  refine waverecn_values hr hf ?_
  intro d hd
  cases ps with
  | nil => simp at hd
  | cons p ps =>
    simp only [List.map_cons, List.head?_cons, Option.mem_def, Option.some.injEq] at hd
    subst hd
    exact (hp p (by simp)).1.trans (h0 p (by simp))

end

/-- `wavedec2` in terms of `wavedecn`, and `waverec2` of edited coefficients in terms of `waverecn`. -/
theorem edited2 {ε : ℝ} {s t : Stage ℝ} {x : Arr ℝ}
    {wavelet : PerAxis (Wavelet ℝ)} {mode : PerAxis Mode} {axes : List ℤ} {l : ℕ}
    (hr : Resolves x.ndim wavelet mode (some axes) [s, t]) (hst : NearStages ε [s, t] x.shape (2 ^ l)) {A B : Arr ℝ}
    {ps qs : List (Arr ℝ × Arr ℝ × Arr ℝ)}
    (hx : wavedec2 x wavelet mode (some (l : ℤ)) axes = .ok (.arr A :: ps.map Item.ofTriple))
    (hB : B.shape = A.shape) (hqs : qs.map tripleShape = ps.map tripleShape) :
    wavedecn x wavelet mode (some (l : ℤ)) (some axes) = .ok (.arr A :: (ps.map tripleDict).map Item.ofDict) ∧
      layout (qs.map tripleDict) = layout (ps.map tripleDict) ∧
      ∀ y, waverecn (.arr B :: (qs.map tripleDict).map Item.ofDict) wavelet mode (some axes) = .ok (.arr y) →
        waverec2 (.arr B :: qs.map Item.ofTriple) wavelet mode axes = .ok (.arr y) := by
  have hne : s.1 ≠ t.1 := by simpa using hst.1
  obtain ⟨A', ps', e1, e2⟩ := C20_wavedec2_eq_wavedecn hr
    (fun s hs => ⟨(hst.2 s hs).2.2.1, (hst.2 s hs).2.1.1⟩) hne l hx
  simp only [List.cons.injEq, Item.arr.injEq] at e1
  obtain ⟨rfl, e1⟩ := e1
  obtain rfl := map_ofTriple_inj e1
  rw [← ofDict_triples] at e2
  have hl := layout_triples hqs
  refine ⟨e2, hl, fun y hy => ?_⟩
  obtain ⟨f1, f2, f3⟩ := recnFits_near (by simp) hr hst e2 hB hl
  have hq := doubling_triples f3
  obtain ⟨z, z1, z2⟩ := C82_waverec2_eq_waverecn (A := B) (ps := qs) (f1.symm ▸ hr) hne hq (by
    intro p hp
    cases qs with
    | nil => simp at hp
    | cons q qs =>
      simp only [List.head?_cons, Option.mem_def, Option.some.injEq] at hp
      subst hp
      exact f3.2.1 (['d', 'a'], q.1) (by simp [tripleDict])) f2
  rw [← ofDict_triples, hy] at z2
  simp only [Except.ok.injEq, Item.arr.injEq] at z2
  rw [z2]
  exact z1

/-- **C82 (`wavedec2`).** Banks orthogonal up to `ε`: `l` levels of `wavedec2` keep the energy of an image up to the factors
`(1-ε)^(2l)` and `(1+ε)^(2l)`. -/
theorem C82_wavedec2_energy {ε : ℝ} (h0 : 0 ≤ ε) (hε : ε ≤ 1) {s t : Stage ℝ} {x : Arr ℝ}
    {wavelet : PerAxis (Wavelet ℝ)} {mode : PerAxis Mode} {axes : List ℤ} {l : ℕ}
    (hr : Resolves x.ndim wavelet mode (some axes) [s, t]) (hst : NearStages ε [s, t] x.shape (2 ^ l)) :
    ∃ (A : Arr ℝ) (ps : List (Arr ℝ × Arr ℝ × Arr ℝ)),
      wavedec2 x wavelet mode (some l) axes = .ok (.arr A :: ps.map Item.ofTriple) ∧ ps.length = l ∧
      (1 - ε) ^ (2 * l) * energy x.data ≤
        energy A.data + (ps.map fun p => energy p.1.data + energy p.2.1.data + energy p.2.2.data).sum ∧
      energy A.data + (ps.map fun p => energy p.1.data + energy p.2.1.data + energy p.2.2.data).sum ≤
        (1 + ε) ^ (2 * l) * energy x.data := by
  have hne : s.1 ≠ t.1 := by simpa using hst.1
  have hb : ∀ u ∈ [s, t], u.1 < x.ndim ∧ u.2.1.Ok := fun s hs => ⟨(hst.2 s hs).2.2.1, (hst.2 s hs).2.1.1⟩
  have h2 := C20_wavedec2_explicit_level hr hb hne (l : ℤ)
  rw [if_neg (by omega), Int.toNat_natCast,
    if_pos (show LevelsOkN [s, t] x.shape l from fun j hj => (hst.level hj).stagesOk)] at h2
  have e : wavedec2 x wavelet mode (some l) axes = .ok (.arr (x.approxN [s, t] l) ::
      (((List.range l).map fun j => x.triple [s, t] j).reverse).map Item.ofTriple) := by
    rw [h2]
    unfold Arr.cascade2
    rw [List.map_reverse, List.map_map]
    rfl
  refine ⟨_, _, e, by simp, ?_⟩
  obtain ⟨e2, -, -⟩ := edited2 hr hst e rfl rfl
  obtain ⟨A, ds, c1, -, c3, c4⟩ := C79_wavedecn_energy h0 hε (by simp) hr hst
  rw [e2] at c1
  simp only [Except.ok.injEq, List.cons.injEq, Item.arr.injEq] at c1
  obtain ⟨rfl, c1⟩ := c1
  obtain rfl := map_ofDict_inj c1
  rw [energy_triples] at c3 c4
  exact ⟨c3, c4⟩

/-- **C82 (`waverec2`).** Coefficients of any values with the layout of those of an image are accepted; the energy of the result is
at most `(1+ε)^(2l)` times theirs. -/
theorem C82_waverec2_energy {ε : ℝ} (h0 : 0 ≤ ε) (hε : ε ≤ 1) {s t : Stage ℝ} {x : Arr ℝ}
    {wavelet : PerAxis (Wavelet ℝ)} {mode : PerAxis Mode} {axes : List ℤ} {l : ℕ}
    (hr : Resolves x.ndim wavelet mode (some axes) [s, t]) (hst : NearStages ε [s, t] x.shape (2 ^ l)) {A B : Arr ℝ}
    {ps qs : List (Arr ℝ × Arr ℝ × Arr ℝ)}
    (hx : wavedec2 x wavelet mode (some (l : ℤ)) axes = .ok (.arr A :: ps.map Item.ofTriple))
    (hB : B.shape = A.shape) (hqs : qs.map tripleShape = ps.map tripleShape) :
    ∃ y, waverec2 (.arr B :: qs.map Item.ofTriple) wavelet mode axes = .ok (.arr y) ∧ y.shape = x.shape ∧
      energy y.data ≤ (1 + ε) ^ (2 * l) *
        (energy B.data + (qs.map fun p => energy p.1.data + energy p.2.1.data + energy p.2.2.data).sum) := by
  obtain ⟨e1, e2, e3⟩ := edited2 hr hst hx hB hqs
  obtain ⟨y, y1, y2, y3⟩ := C81_waverecn_energy h0 hε (by simp) hr hst e1 hB e2
  rw [energy_triples] at y3
  exact ⟨y, e3 y y1, y2, y3⟩

/-- **C82 (edits).** `waverec2` of edited coefficients is away from the image by at most `√((1+ε)^(2l))` times the change of the
coefficients plus `(1+ε)^(2l) - 1` times the norm of the image. -/
theorem C82_edit_error {ε : ℝ} (h0 : 0 ≤ ε) (hε : ε ≤ 1) {s t : Stage ℝ} {x : Arr ℝ}
    {wavelet : PerAxis (Wavelet ℝ)} {mode : PerAxis Mode} {axes : List ℤ} {l : ℕ}
    (hr : Resolves x.ndim wavelet mode (some axes) [s, t]) (hst : NearStages ε [s, t] x.shape (2 ^ l)) {A B : Arr ℝ}
    {ps qs : List (Arr ℝ × Arr ℝ × Arr ℝ)}
    (hx : wavedec2 x wavelet mode (some (l : ℤ)) axes = .ok (.arr A :: ps.map Item.ofTriple))
    (hB : B.shape = A.shape) (hqs : qs.map tripleShape = ps.map tripleShape) :
    ∃ y, waverec2 (.arr B :: qs.map Item.ofTriple) wavelet mode axes = .ok (.arr y) ∧ y.shape = x.shape ∧
      distance y.data x.data ≤ √((1 + ε) ^ (2 * l)) * √(Spec.Arr.dist2 B A + dist2T qs ps) +
        ((1 + ε) ^ (2 * l) - 1) * norm2 x.data := by
  obtain ⟨e1, e2, e3⟩ := edited2 hr hst hx hB hqs
  obtain ⟨y, y1, y2, y3⟩ := C81_edit_error h0 hε (by simp) hr hst e1 hB e2
  rw [dist2D_triples] at y3
  exact ⟨y, e3 y y1, y2, y3⟩

/-- **C82 (built-in wavelets).** `wavedec2`, any edit, `waverec2` with built-in wavelets flagged orthogonal whose tables are exact
up to `τ`, in periodization mode: the result is away from the image by at most `√(1+4·l·τ)` times the change of the coefficients
plus `4·l·τ` times the norm of the image. -/
theorem C82_builtin {single : Bool} {τ : ℝ} (h0 : 0 ≤ τ) (hτ : τ ≤ 1) {wavelet : PerAxis (WaveletObj ℤ)}
    (hw : ∀ o ∈ given wavelet, BuiltinWithin single τ o ∧ o.orthogonal = true) {axes : List ℤ} {s t : Stage ℝ}
    {x : Arr ℝ} {l : ℕ}
    (hr : Resolves x.ndim (mapObjs (fun o => realBank o.w) wavelet) (.one .periodization) (some axes) [s, t])
    (hst : s.1 ≠ t.1)
    (hx : ∀ u ∈ [s, t], u.1 < x.shape.length ∧ 1 ≤ x.shape.getD u.1 0 ∧ 2 ^ l ∣ x.shape.getD u.1 0)
    (hl : 2 * l * τ ≤ 1) :
    ∃ (A : Arr ℝ) (ps : List (Arr ℝ × Arr ℝ × Arr ℝ)),
      wavedec2 x (mapObjs (fun o => realBank o.w) wavelet) (.one .periodization) (some (l : ℤ)) axes =
        .ok (.arr A :: ps.map Item.ofTriple) ∧
      ∀ (B : Arr ℝ) (qs : List (Arr ℝ × Arr ℝ × Arr ℝ)), B.shape = A.shape → qs.map tripleShape = ps.map tripleShape →
        ∃ y, waverec2 (.arr B :: qs.map Item.ofTriple) (mapObjs (fun o => realBank o.w) wavelet) (.one .periodization) axes =
            .ok (.arr y) ∧ y.shape = x.shape ∧
          distance y.data x.data ≤ √(1 + 4 * l * τ) * √(Spec.Arr.dist2 B A + dist2T qs ps) + 4 * l * τ * norm2 x.data := by
  have hn := nearStages_builtin (l := l) hw hr ⟨by simp [hst], hx⟩
  obtain ⟨A, ps, e, -⟩ := C82_wavedec2_energy h0 hτ hr hn
  refine ⟨A, ps, e, fun B qs hB hqs => ?_⟩
  obtain ⟨y, y1, y2, y3⟩ := C82_edit_error h0 hτ hr hn e hB hqs
  refine ⟨y, y1, y2, y3.trans ?_⟩
  have hp := one_add_pow_le (l := 2 * l) h0 (by push_cast; exact hl)
  push_cast at hp
  refine add_le_add (mul_le_mul_of_nonneg_right (Real.sqrt_le_sqrt (by linarith)) (Real.sqrt_nonneg _))
    (mul_le_mul_of_nonneg_right (by linarith) (Real.sqrt_nonneg _))

/-- The hypotheses are met by `db2` on every 8×4 image, two levels. -/
example (x : Arr ℝ) (hx : x.shape = [8, 4]) : ∃ o, waveletNamed false "db2" = .ok o ∧
    (BuiltinWithin false (1 / 100) o ∧ o.orthogonal = true) ∧
    ∃ s t : Stage ℝ, Resolves x.ndim (mapObjs (fun o => realBank o.w) (.one o)) (.one .periodization) (some [-2, -1]) [s, t] ∧
      s.1 ≠ t.1 ∧ (∀ u ∈ [s, t], u.1 < x.shape.length ∧ 1 ≤ x.shape.getD u.1 0 ∧ 2 ^ 2 ∣ x.shape.getD u.1 0) ∧
      (2 * (2 : ℕ) * (1 / 100) : ℝ) ≤ 1 ∧ NearStages (1 / 100) [s, t] x.shape (2 ^ 2) := by
  have hm : ("db2", Family.db, 2) ∈ wnameToCode := by decide +kernel
  obtain ⟨o, h1, -, hw, -⟩ := builtin_ok (single := false) hm rfl
  have horth : (waveletNamed false "db2").map (fun o => o.orthogonal) = .ok true := by decide +kernel
  rw [h1] at horth
  have hb : BuiltinWithin false (1 / 100) o ∧ o.orthogonal = true :=
    ⟨⟨_, _, _, hm, rfl, h1, by norm_num [tolerance]⟩, by simpa [Except.map] using horth⟩
  have hr : Resolves x.ndim (mapObjs (fun o => realBank o.w) (.one o)) (.one .periodization) (some [-2, -1])
      [(0, realBank o.w, .periodization), (1, realBank o.w, .periodization)] := by
    unfold Arr.ndim
    rw [hx]
    exact ⟨rfl, rfl, rfl⟩
  have hs : ∀ s ∈ ([(0, realBank o.w, .periodization), (1, realBank o.w, .periodization)] : List (Stage ℝ)),
        s.1 < x.shape.length ∧ 1 ≤ x.shape.getD s.1 0 ∧ 2 ^ 2 ∣ x.shape.getD s.1 0 := by
    rw [hx]
    intro s hs
    simp only [List.mem_cons, List.not_mem_nil, or_false] at hs
    rcases hs with rfl | rfl
    · exact ⟨by simp, by simp, by norm_num⟩
    · exact ⟨by simp, by simp, by norm_num⟩
  exact ⟨o, h1, hb, _, _, hr, by simp, hs, by norm_num, nearStages_builtin (wavelet := .one o) (by
    intro o' ho
    simp only [given, List.mem_singleton] at ho
    subst ho
    exact hb) hr ⟨by simp, hs⟩⟩

/-- The hypotheses of `C82_waverec2_eq_waverecn` are met in a mode other than periodization: a 2×2 approximation with 2×2 details. -/
example (A a b c : Arr ℚ) (hA : A.shape = [2, 2]) (ha : a.shape = [2, 2]) (hb : b.shape = [2, 2]) (hc : c.shape = [2, 2]) :
    Resolves A.ndim (.one haarQ) (.one .symmetric) (some [0, 1]) [(0, haarQ, .symmetric), (1, haarQ, .symmetric)] ∧
      RecnFits [(0, haarQ, .symmetric), (1, haarQ, .symmetric)] ([(a, b, c)].map tripleDict) A.shape := by
  have h1 : SynthFits [(0, haarQ, Mode.symmetric), (1, haarQ, .symmetric)] [2, 2] := by
    refine ⟨by simp, ?_⟩
    intro s hs
    simp only [List.mem_cons, List.not_mem_nil, or_false] at hs
    rcases hs with rfl | rfl
    · exact ⟨by decide, haarQ_ok, by decide⟩
    · exact ⟨by decide, haarQ_ok, by decide⟩
  refine ⟨by unfold Arr.ndim; rw [hA]; exact ⟨rfl, rfl, rfl⟩, ?_⟩
  rw [(recnFits_tripleDict rfl [(a, b, c)] A.shape (by simp [ha, hb, hc]))]
  simp only [List.map_cons, List.map_nil, RecnFits]
  have e' : detailShape (dict3 (a, b, c)) A.shape = [2, 2] := ha
  rw [e', hA]
  exact ⟨dict3_ok ha hb hc, Near.refl _, h1, trivial⟩

end Pywt
