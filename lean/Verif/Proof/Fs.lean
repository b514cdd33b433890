import Verif.Spec.Fs
import Verif.Proof.LineOps

/-! The fully separable transform. -/

namespace Pywt

open Finset Spec

set_option linter.unusedSectionVars false

section
variable {R M M' : Type} [Ring R] [AddCommGroup M] [Module R M] [AddCommGroup M'] [Module R M']

/-! ### Naturality -/

theorem approx_map (φ : M →ₗ[R] M') (mode : Mode) (lo : List R) (n : ℕ) (x : List M) :
    approx mode lo n (x.map φ) = (approx mode lo n x).map φ := by
  induction n with
  | zero => rfl
  | succ n ih => rw [approx_succ, approx_succ, ih, analysis_map]

theorem detail_map (φ : M →ₗ[R] M') (mode : Mode) (lo hi : List R) (n : ℕ) (x : List M) :
    detail mode lo hi n (x.map φ) = (detail mode lo hi n x).map φ := by
  unfold detail
  rw [approx_map, analysis_map]

theorem cascade_map (φ : M →ₗ[R] M') (mode : Mode) (lo hi : List R) (n : ℕ) (x : List M) :
    cascade mode lo hi n (x.map φ) = (cascade mode lo hi n x).map fun l => l.map φ := by
  unfold cascade
  rw [List.map_cons, List.map_reverse, List.map_map, approx_map]
  congr 2
  apply List.map_congr_left
  intro j _
  exact detail_map φ mode lo hi j x

theorem chunks_map {α β : Type} (f : α → β) (ns : List ℕ) (l : List α) :
    chunks ns (l.map f) = (chunks ns l).map fun l => l.map f := by
  induction ns generalizing l with
  | nil => rfl
  | cons n ns ih => simp [chunks, ← ih, List.map_take, List.map_drop]

theorem recombine_map (φ : M →ₗ[R] M') (mode : Mode) (lo hi : List R) (a : List M)
    (ds : List (List M)) :
    recombine mode lo hi (a.map φ) (ds.map fun l => l.map φ) =
      (recombine mode lo hi a ds).map φ := by
  unfold recombine
  induction ds generalizing a with
  | nil => rfl
  | cons d ds ih =>
    simp only [List.map_cons, List.foldl_cons, List.length_map, ← List.map_take, synthesis_map, ih]

theorem recombineLine_map (φ : M →ₗ[R] M') (mode : Mode) (lo hi : List R) (lens : List ℕ)
    (l : List M) :
    recombineLine mode lo hi lens (l.map φ) = (recombineLine mode lo hi lens l).map φ := by
  unfold recombineLine
  rw [chunks_map]
  cases chunks lens l with
  | nil => rfl
  | cons a ds => exact recombine_map φ mode lo hi a ds

/-! ### Lengths -/

theorem cascade_lens {mode : Mode} {lo hi : List R} (h : hi.length = lo.length) (n : ℕ)
    (x : List M) :
    (cascade mode lo hi n x).map List.length = cascadeLens mode lo.length x.length n := by
  unfold cascade cascadeLens
  rw [List.map_cons, List.map_reverse, List.map_map, approx_length]
  congr 2
  apply List.map_congr_left
  intro j _
  simp only [Function.comp_apply]
  rw [detail_length _ _ _ h, approx_length]

theorem cascade_flatten_length {mode : Mode} {lo hi : List R} (h : hi.length = lo.length) (n : ℕ)
    (x : List M) :
    (cascade mode lo hi n x).flatten.length = (cascadeLens mode lo.length x.length n).sum := by
  rw [List.length_flatten, cascade_lens h]

theorem cascade_getD_length {mode : Mode} {lo hi : List R} (h : hi.length = lo.length) (n : ℕ)
    (x : List M) (j : ℕ) :
    ((cascade mode lo hi n x).getD j []).length =
      (cascadeLens mode lo.length x.length n).getD j 0 := by
  rw [← cascade_lens h]
  simp only [List.getD_eq_getElem?_getD, List.getElem?_map]
  cases (cascade mode lo hi n x)[j]? <;> rfl

theorem chunks_flatten {α : Type} (ls : List (List α)) :
    chunks (ls.map List.length) ls.flatten = ls := by
  induction ls with
  | nil => rfl
  | cons l ls ih => simp [chunks, ih]

theorem chunks_length {α : Type} (ns : List ℕ) (l : List α) : (chunks ns l).length = ns.length := by
  induction ns generalizing l with
  | nil => rfl
  | cons n ns ih => simp [chunks, ih]

theorem chunks_lens {α : Type} (ns : List ℕ) (l : List α) (h : ns.sum ≤ l.length) :
    (chunks ns l).map List.length = ns := by
  induction ns generalizing l with
  | nil => rfl
  | cons n ns ih =>
    simp only [List.sum_cons] at h
    simp only [chunks, List.map_cons, List.length_take]
    rw [ih _ (by rw [List.length_drop]; omega)]
    congr 1
    omega

theorem chunks_getD {α : Type} (ns : List ℕ) (l : List α) {j : ℕ} (hj : j < ns.length) :
    (chunks ns l).getD j [] = (l.drop (ns.take j).sum).take (ns.getD j 0) := by
  induction ns generalizing l j with
  | nil => simp at hj
  | cons n ns ih =>
    cases j with
    | zero => simp [chunks]
    | succ j =>
      simp only [chunks, List.getD_cons_succ, List.take_succ_cons, List.sum_cons]
      rw [ih _ (by simpa using hj), List.drop_drop]

theorem recombine_length {mode : Mode} {lo hi : List R} (ds : List (List M)) :
    ∀ a : List M, RecOk mode lo.length a.length (ds.map List.length) →
      (recombine mode lo hi a ds).length = recLen mode lo.length a.length (ds.map List.length) := by
  unfold recombine recLen
  induction ds with
  | nil => intro a _; rfl
  | cons d ds ih =>
    intro a h
    obtain ⟨h1, h2, h3⟩ := h
    have ht : (a.take d.length).length = d.length := by rw [List.length_take]; omega
    simp only [List.foldl_cons, List.map_cons]
    have hl : (synthesis mode lo hi (a.take d.length) d).length =
        synthLen mode d.length lo.length := by rw [synthesis_length, ht]
    rw [ih _ (by rw [hl]; exact h3), hl]

theorem recombineLine_length {mode : Mode} {lo hi : List R} {n : ℕ} {ns : List ℕ}
    (h : RecOk mode lo.length n ns) {l : List M} (hl : (n :: ns).sum ≤ l.length) :
    (recombineLine mode lo hi (n :: ns) l).length = recLen mode lo.length n ns := by
  simp only [List.sum_cons] at hl
  have h1 : (l.take n).length = n := by rw [List.length_take]; omega
  have h2 : (chunks ns (l.drop n)).map List.length = ns :=
    chunks_lens _ _ (by rw [List.length_drop]; omega)
  simp only [recombineLine, chunks]
  rw [recombine_length _ _ (by rw [h1, h2]; exact h), h1, h2]

/-! ### The matrices -/

theorem isMat_flatten {mode : Mode} {lo hi : List R} (h : hi.length = lo.length) (n N : ℕ) :
    IsMat R (M := M) N (cascadeLens mode lo.length N n).sum
      fun l => (cascade mode lo hi n l).flatten := by
  refine isMat_of_natural (g' := fun l => (cascade mode lo hi n l).flatten) ?_ ?_
  · intro φ l
    rw [cascade_map, List.map_flatten]
  · intro l hl
    rw [cascade_flatten_length h, hl]

theorem isMat_recombine {mode : Mode} {lo hi : List R} {n : ℕ} {ns : List ℕ}
    (h : RecOk mode lo.length n ns) :
    IsMat R (M := M) (n :: ns).sum (recLen mode lo.length n ns)
      (recombineLine mode lo hi (n :: ns)) := by
  refine isMat_of_natural (g' := recombineLine mode lo hi (n :: ns)) ?_ ?_
  · intro φ l
    rw [recombineLine_map]
  · intro l hl
    exact recombineLine_length h (by rw [hl])

theorem isMat_slice {off n N : ℕ} (h : off + n ≤ N) :
    IsMat R (M := M) N n fun l => (l.drop off).take n := by
  refine isMat_of_natural (g' := fun l => (l.drop off).take n) ?_ ?_
  · intro φ l
    rw [List.map_take, List.map_drop]
  · intro l hl
    rw [List.length_take, List.length_drop, hl]
    omega

/-! ### Concatenation and slices along an axis -/

theorem line_update (b : Arr M) (ax : ℕ) (idx : ℕ → ℕ) :
    ((List.range (b.shape.getD ax 0)).map fun j => b.get fun k => if k = ax then j else idx k) =
      b.line ax idx := by
  unfold Arr.line
  apply List.map_congr_left
  intro j _
  congr 1
  funext k
  rw [Function.update_apply]

theorem concatAxis_ok {axis : ℤ} {ax : ℕ} {x : Arr M} (ha : AxisIs x.ndim axis ax)
    {c : Arr M} {cs : List (Arr M)} (hs : ∀ b ∈ c :: cs, SameBut ax b.shape x.shape)
    {g : List M → List M}
    (hg : ∀ idx : ℕ → ℕ, (∀ k < x.shape.length, k ≠ ax → idx k < x.shape.getD k 0) →
      (c :: cs).flatMap (fun b => b.line ax idx) = g (x.line ax idx)) :
    concatAxis axis (c :: cs) = .ok
      (x.along ax ((c :: cs).map fun b => b.shape.getD ax 0).sum g) := by
  have hc := hs c (by simp)
  have hax : ax < x.shape.length := ha.2
  have hca : AxisIs c.ndim axis ax := by rw [Arr.ndim, hc.length]; exact ha
  have e : (cs.any fun b => b.shape.set ax 0 ≠ c.shape.set ax 0) = false := by
    rw [List.any_eq_false]
    intro b hb
    have : b.shape.set ax 0 = c.shape.set ax 0 := (hs b (by simp [hb])).trans hc.symm
    simp [this]
  simp only [concatAxis, hca.normAxis, Py_bind_ok, e, Bool.false_eq_true, if_false, Py_pure,
    line_update]
  congr 1
  set n := ((c :: cs).map fun b => b.shape.getD ax 0).sum with hn
  have hsh : c.shape.set ax n = x.shape.set ax n := by
    refine SameBut.eq ((SameBut.set _ _).trans (hc.trans (SameBut.set _ _).symm)) ?_
    rw [getD_set (by rw [hc.length]; exact hax), getD_set hax, if_pos rfl, if_pos rfl]
  refine Arr.ext_get (by rw [Arr.shape_ofFn, Arr.shape_along, hsh]) fun idx hidx => ?_
  rw [Arr.shape_ofFn] at hidx
  rw [Arr.get_ofFn _ hidx, Arr.along_get hax (by rw [← hsh]; exact hidx), hg]
  · intro k hk hka
    rw [hsh] at hidx
    exact ((inB_set hax).mp hidx).2 k hk hka
  · intro f g hfg
    have : ∀ b ∈ c :: cs, b.line ax f = b.line ax g := by
      intro b hb
      refine b.line_congr fun k hk _ => hfg k ?_
      rw [List.length_set, hc.length, ← (hs b hb).length]
      exact hk
    simp only
    rw [hfg ax (by rw [List.length_set, hc.length]; exact hax)]
    congr 1
    simp only [List.flatMap_def]
    rw [List.map_congr_left this]

theorem flatMap_lines_cascade {ax : ℕ} {mode : Mode} {lo hi : List R} (hhl : hi.length = lo.length)
    {n : ℕ} {x : Arr M} (ha : ax < x.shape.length) {idx : ℕ → ℕ}
    (hidx : ∀ k < x.shape.length, k ≠ ax → idx k < x.shape.getD k 0) :
    (x.cascadeAlong ax mode lo hi n).flatMap (fun c => c.line ax idx) =
      (cascade mode lo hi n (x.line ax idx)).flatten := by
  rw [List.flatMap_def, cascadeAlong_lines hhl ha hidx]

theorem shapesAt_ok {axis : ℤ} {ax ndim : ℕ} (ha : AxisIs ndim axis ax) (cs : List (Arr M))
    (h : ∀ c ∈ cs, c.ndim = ndim) :
    shapesAt axis cs = .ok (cs.map fun c => c.shape.getD ax 0) := by
  induction cs with
  | nil => rfl
  | cons c cs ih =>
    have hc : AxisIs c.shape.length axis ax := by
      have := h c (by simp)
      unfold Arr.ndim at this
      rw [this]; exact ha
    simp only [shapesAt, shapeAt, hc.pyIndex, Py_pure, Py_bind_ok,
      ih fun c hc => h c (by simp [hc]), List.map_cons]

theorem cascadeAlong_lens {ax : ℕ} {mode : Mode} {lo hi : List R} {n : ℕ} {x : Arr M}
    (ha : ax < x.shape.length) :
    (x.cascadeAlong ax mode lo hi n).map (fun c => c.shape.getD ax 0) =
      cascadeLens mode lo.length (x.shape.getD ax 0) n := by
  have e : ∀ m, (x.shape.set ax m).getD ax 0 = m := by
    intro m; rw [getD_set ha, if_pos rfl]
  simp only [Arr.cascadeAlong, cascadeLens, List.map_cons, List.map_reverse, List.map_map,
    Function.comp_def, Arr.shape_along, e]

theorem cascadeAlong_sameBut {ax : ℕ} {mode : Mode} {lo hi : List R} {n : ℕ} {x : Arr M} :
    ∀ c ∈ x.cascadeAlong ax mode lo hi n, SameBut ax c.shape x.shape := by
  intro c hc
  simp only [Arr.cascadeAlong, List.mem_cons, List.mem_reverse, List.mem_map] at hc
  rcases hc with rfl | ⟨j, _, rfl⟩ <;> exact SameBut.set _ _

/-- Slicing one axis. -/
theorem sliceAlong_ok {arr : Arr M} {axis : ℤ} {ax : ℕ} (ha : AxisIs arr.ndim axis ax) {off n : ℕ}
    (h : off + n ≤ arr.shape.getD ax 0) :
    sliceAlong arr axis ⟨off, some (off + n)⟩ =
      .ok (arr.along ax n fun l => (l.drop off).take n) := by
  have hax : ax < arr.shape.length := ha.2
  have hsl : SlFor arr.shape ((List.replicate arr.ndim Slice.full).set ax ⟨off, some (off + n)⟩)
      (fun k => if k = ax then off else 0) (arr.shape.set ax n) := by
    refine ⟨by simp [Arr.ndim], by simp, ?_⟩
    intro k hk
    have hk' : k < (List.replicate arr.ndim Slice.full).length := by simpa [Arr.ndim] using hk
    by_cases hka : k = ax
    · subst hka
      simp only
      rw [getD_set hax, if_pos rfl, if_pos trivial,
        List.getD_eq_getElem (hn := by simpa using hk'), List.getElem_set_self]
      constructor
      · simp only [Slice.lo]; omega
      · simp only [Slice.len, Slice.lo, Option.getD_some]; omega
    · simp only
      rw [getD_set hax, if_neg hka, if_neg hka,
        List.getD_eq_getElem (hn := by simpa using hk'), List.getElem_set_ne (Ne.symm hka)]
      constructor
      · simp [Slice.full, Slice.lo]
      · simp [Slice.full, Slice.lo, Slice.len]
  have e1 : ¬ arr.ndim < ((List.replicate arr.ndim Slice.full).set ax
      (⟨off, some (off + n)⟩ : Slice)).length := by simp
  unfold sliceAlong
  rw [pySet_eq (n := ax) (by simpa using ha.2) (by simpa using ha.1)]
  simp only [Py_bind_ok, Arr.getSlices, if_neg e1, Py_pure]
  congr 1
  rw [sliceShape_eq hsl]
  refine Arr.ext_get (by rw [Arr.shape_ofFn, Arr.shape_along]) fun idx hidx => ?_
  rw [Arr.shape_ofFn] at hidx
  rw [Arr.get_ofFn _ hidx, Arr.along_get hax hidx]
  · have hi : idx ax < n := by
      have := ((inB_set hax).mp hidx).1
      exact this
    rw [List.getD_eq_getElem (hn := by
      rw [List.length_take, List.length_drop, Arr.line_length]; omega), List.getElem_take,
      List.getElem_drop, Arr.line_getElem]
    refine arr.get_congr fun k hk => ?_
    rw [sliceLo_eq hsl hk]
    by_cases hka : k = ax
    · subst hka; rw [if_pos rfl, Function.update_self]
    · rw [if_neg hka, Function.update_of_ne hka, Nat.zero_add]
  · intro f g hfg
    refine arr.get_congr fun k hk => ?_
    rw [hfg k (by simpa using hk)]

theorem sliceAll_ok {arr : Arr M} {axis : ℤ} {ax : ℕ} (ha : AxisIs arr.ndim axis ax) (ns : List ℕ) :
    ∀ off, off + ns.sum ≤ arr.shape.getD ax 0 →
      ∃ cs : List (Arr M), sliceAll arr axis (offsetSlices ns off) = .ok (cs.map some) ∧
        (∀ c ∈ cs, SameBut ax c.shape arr.shape) ∧
        cs.map (fun c => c.shape.getD ax 0) = ns ∧
        ∀ idx : ℕ → ℕ, (∀ k < arr.shape.length, k ≠ ax → idx k < arr.shape.getD k 0) →
          cs.map (fun c => c.line ax idx) = chunks ns ((arr.line ax idx).drop off) := by
  have hax : ax < arr.shape.length := ha.2
  induction ns with
  | nil => intro off _; exact ⟨[], rfl, by simp, rfl, fun _ _ => rfl⟩
  | cons n ns ih =>
    intro off h
    simp only [List.sum_cons] at h
    obtain ⟨cs, c1, c2, c3, c4⟩ := ih (off + n) (by omega)
    refine ⟨(arr.along ax n fun l => (l.drop off).take n) :: cs, ?_, ?_, ?_, ?_⟩
    · simp only [offsetSlices, sliceAll]
      rw [sliceAlong_ok ha (by omega), c1]
      rfl
    · intro c hc
      rcases List.mem_cons.mp hc with rfl | hc
      · exact SameBut.set _ _
      · exact c2 c hc
    · rw [List.map_cons, c3, Arr.shape_along, getD_set hax, if_pos rfl]
    · intro idx hidx
      rw [List.map_cons, c4 idx hidx, Arr.line_along hax hidx]
      · simp [chunks, List.drop_drop]
      · rw [List.length_take, List.length_drop, Arr.line_length]; omega

/-- One step of `fswaverecn`. -/
theorem fsRecStep_ok {w : Wavelet R} (hw : w.Ok) {mode : Mode} {arr : Arr M} {axis : ℤ} {ax : ℕ}
    (ha : AxisIs arr.ndim axis ax) {n : ℕ} {ns : List ℕ} (hr : RecOk mode w.rec_len n ns)
    (hs : arr.shape.getD ax 0 = (n :: ns).sum) :
    ∃ cs, sliceAll arr axis (offsetSlices (n :: ns) 0) = .ok cs ∧
      waverecA w mode axis cs = .ok (some (arr.along ax (recLen mode w.rec_len n ns)
        (recombineLine mode w.rec_lo w.rec_hi (n :: ns)))) := by
  have hax : ax < arr.shape.length := ha.2
  obtain ⟨cs, c1, c2, c3, c4⟩ := sliceAll_ok ha (n :: ns) 0 (by omega)
  refine ⟨_, c1, ?_⟩
  cases cs with
  | nil => simp at c3
  | cons c cs =>
    simp only [List.map_cons, List.cons.injEq] at c3
    have hcs := c2 c (by simp)
    have hca : AxisIs c.ndim axis ax := by rw [Arr.ndim, hcs.length]; exact ha
    obtain ⟨y, y1, y2, y3⟩ := waverecALoop_ok hw cs c hca
      (fun d hd => (c2 d (by simp [hd])).trans hcs.symm) (by rw [c3.1, c3.2]; exact hr)
    have e : waverecA w mode axis ((c :: cs).map some) = .ok (some y) := by
      rw [← y1]
      cases cs <;> rfl
    rw [e]
    congr 2
    rw [c3.1, c3.2] at y2
    have hsh : y.shape = (arr.along ax (recLen mode w.rec_len n ns)
        (recombineLine mode w.rec_lo w.rec_hi (n :: ns))).shape := by
      rw [y2, Arr.shape_along]
      refine SameBut.eq ((SameBut.set _ _).trans (hcs.trans (SameBut.set _ _).symm)) ?_
      rw [getD_set (by rw [hcs.length]; exact hax), getD_set hax, if_pos rfl, if_pos rfl]
    refine Arr.ext_line (axis := ax) (by rw [hsh]; simpa [Arr.shape_along] using hax) hsh ?_
    intro idx hidx
    rw [hsh, Arr.shape_along] at hidx
    have hidx' : ∀ k < arr.shape.length, k ≠ ax → idx k < arr.shape.getD k 0 := by
      intro k hk hka
      have := hidx k (by simpa using hk) hka
      rwa [getD_set hax, if_neg hka] at this
    have h4 := c4 idx hidx'
    rw [y3 idx (fun k hk hka => by
      rw [hcs.getD hka]; exact hidx' k (by rw [← hcs.length]; exact hk) hka),
      Arr.line_along hax hidx']
    · simp only [recombineLine]
      rw [List.drop_zero] at h4
      rw [← h4]
      rfl
    · exact recombineLine_length hr (by rw [Arr.line_length, hs])

end

end Pywt
