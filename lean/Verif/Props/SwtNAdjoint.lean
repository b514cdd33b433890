import Verif.Proof.SwtNAdjoint
import Verif.Props.Variance

/-!
# Property C78: the n-D inverse stationary transforms solve the least-squares problem
-/

set_option autoImplicit false

namespace Pywt

open Finset Spec

/-- **C78 (transpose).** For all filter banks, `iswtn(·, w', norm=True)` with the inverse filter banks `w'` is the transpose of
`swtn(·, w, trim_approx=True, norm=True)`.  (`s` is the factor `1/√2` of `swtn`, `s' = 2 s` the factor `√2` of `iswtn`.) -/
theorem C78_swtn_adjoint {R : Type} [CommRing R] [Invertible (2 : R)] {wavelet : PerAxis (Wavelet R)} {axes : Option (List ℤ)}
    {s s' : R} (hs : s' = 2 * s) {st : List (SStage R)} {x : Arr R} (hr : SwtResolves x.ndim wavelet axes (some s) st) (hst : st ≠ [])
    {l : ℕ} (hl : 1 ≤ l) (hf : SwtnFits st l x.shape) {A : Arr R} (hA : A.shape = x.shape) {es : List (List (List Char × Arr R))}
    (hes : es.length = l) (hd : ∀ e ∈ es, DetailsOf st.length x.shape e) :
    ∃ cA ds y, swtn x wavelet (l : ℤ) 0 axes true (some s) = .ok (.trimmed cA ds) ∧
      iswtn (.trimmed A es) wavelet.inverse axes (some s') = .ok y ∧ y.shape = x.shape ∧
      cA.sprod A + (List.zipWith dictProd ds es).sum = x.sprod y := by
  have hd0 : st.length ≠ 0 := fun h => hst (List.length_eq_zero_iff.mp h)
  have hnd : 1 ≤ x.ndim := by
    obtain ⟨s0, hs0⟩ := List.exists_mem_of_ne_nil st hst
    have := (hf.2 s0 hs0).1
    unfold Arr.ndim
    omega
  have hfwd := swtn_ok (m := 0) hr hnd (l := l) (by rw [zero_add]; exact hf) true
  rw [if_pos rfl, Nat.cast_zero] at hfwd
  have hlen : (adjStages st).length = st.length := by simp [adjStages]
  have hinv := iswtn_trimmed (A := A) (ds := es) (swtResolves_inverse hs (by unfold Arr.ndim at hr ⊢; rw [hA]; exact hr))
    (by rw [hes, hA]; exact swtnFits_inverse hf) (by rintro rfl; simp at hes; omega)
    (fun d hdm => by rw [hlen, hA]; exact detailsOf_dict hd0 (hd d hdm))
  obtain ⟨c1, c2⟩ := iswtnCascade_sprod (fun s hs => ⟨(hf.2 s hs).1, (hf.2 s hs).2.1, (hf.2 s hs).2.2.1⟩) l A es hA hes hd
  exact ⟨_, _, _, hfwd, by unfold iswtn; rw [hinv], c1, c2⟩

section
variable {K : Type} [Field K] [Invertible (2 : K)]

/-- **C78 (least squares).** For orthogonal filter banks and `norm=True`, take any coefficient arrays `A`, `es` of the right number
and shape (edited ones, say).  `y = iswtn([A] + es)` is the one and only array whose stationary transform is closest to them: for
every array `z`, `‖swtn(z) - (A, es)‖² = ‖z - y‖² + ‖swtn(y) - (A, es)‖²`. -/
theorem C78_iswtn_least_squares {wavelet : PerAxis (Wavelet K)} (h : AllOrthogonal wavelet) {axes : Option (List ℤ)} {s s' : K}
    (hs : 2 * (s * s) = 1) (hs' : s' = 2 * s) {st : List (SStage K)} {A : Arr K} (hr : SwtResolves A.ndim wavelet axes (some s) st)
    (hst : st ≠ []) {l : ℕ} (hl : 1 ≤ l) (hf : SwtnFits st l A.shape) {es : List (List (List Char × Arr K))} (hes : es.length = l)
    (hd : ∀ e ∈ es, DetailsOf st.length A.shape e) :
    ∃ y cA ds, iswtn (.trimmed A es) wavelet axes (some s') = .ok y ∧ y.shape = A.shape ∧
      swtn y wavelet (l : ℤ) 0 axes true (some s) = .ok (.trimmed cA ds) ∧
      ∀ z : Arr K, z.shape = A.shape → ∃ zA zs, swtn z wavelet (l : ℤ) 0 axes true (some s) = .ok (.trimmed zA zs) ∧
        coefDist zA zs A es = dist2 z.data y.data + coefDist cA ds A es := by
  have hinv := perAxis_inverse h
  have hnd : 1 ≤ A.ndim := by
    obtain ⟨s0, hs0⟩ := List.exists_mem_of_ne_nil st hst
    have := (hf.2 s0 hs0).1
    unfold Arr.ndim
    omega
  have key : ∀ z : Arr K, z.shape = A.shape → ∃ zA zs y, swtn z wavelet (l : ℤ) 0 axes true (some s) = .ok (.trimmed zA zs) ∧
      iswtn (.trimmed A es) wavelet axes (some s') = .ok y ∧ y.shape = A.shape ∧
      coefDist zA zs A es = energy z.data - 2 * Spec.sprod z.data y.data +
        (energy A.data + (es.map fun d => (d.map fun p => energy p.2.data).sum).sum) := by
    intro z hz
    have hrz : SwtResolves z.ndim wavelet axes (some s) st := by unfold Arr.ndim at hr ⊢; rw [hz]; exact hr
    have hfz : SwtnFits st l z.shape := by rw [hz]; exact hf
    obtain ⟨zA, zs, y, z1, z2, z3, z4⟩ := C78_swtn_adjoint hs' hrz hst hl hfz hz.symm hes (by rw [hz]; exact hd)
    rw [hinv] at z2
    obtain ⟨zA', zs', e1, e2, -⟩ := C76_swtn h hs hrz (by unfold Arr.ndim at hnd ⊢; rw [hz]; exact hnd) (m := 0) (l := l)
      (by rw [zero_add]; exact hfz)
    rw [Nat.cast_zero, z1] at e1
    simp only [Except.ok.injEq, SwtN.trimmed.injEq] at e1
    obtain ⟨rfl, rfl⟩ := e1
    have hform := swtn_ok (m := 0) hrz (by unfold Arr.ndim at hnd ⊢; rw [hz]; exact hnd) (l := l) (by rw [zero_add]; exact hfz) true
    rw [if_pos rfl, Nat.cast_zero, z1] at hform
    simp only [Except.ok.injEq, SwtN.trimmed.injEq] at hform
    have hAs : zA.shape = A.shape := by rw [hform.1, swtnApprox_shape, hz]
    have hds : zs.map dictShape = es.map dictShape := by
      have r1 : es.map dictShape = List.replicate l (((words st.length).filter fun k => k ≠ List.replicate st.length 'a').map
          fun k => (k, A.shape)) := by
        refine List.eq_replicate_iff.mpr ⟨by simp [hes], fun b hb => ?_⟩
        obtain ⟨e, he, rfl⟩ := List.mem_map.mp hb
        exact hd e he
      rw [r1]
      refine List.eq_replicate_iff.mpr ⟨by rw [hform.2]; simp, fun b hb => ?_⟩
      obtain ⟨e, he, rfl⟩ := List.mem_map.mp hb
      rw [hform.2, List.mem_reverse, List.mem_map] at he
      obtain ⟨j, -, rfl⟩ := he
      rw [← hz]
      exact swtnDict_shape st 0 z j
    refine ⟨zA, zs, y, z1, z2, z3.trans hz, ?_⟩
    unfold coefDist
    rw [dictsDist_expand hds, dist2_expand (by rw [zA.ok, A.ok, hAs]), ← Arr.sprod_data hAs.symm, ← Arr.sprod_data z3, ← z4, ← e2]
    ring
  obtain ⟨-, -, y, -, y1, y2, -⟩ := key A rfl
  obtain ⟨cA, ds, y', c1, c2, c3, c4⟩ := key y y2
  rw [y1] at c2
  obtain rfl := Except.ok.inj c2
  refine ⟨y, cA, ds, y1, y2, c1, fun z hz => ?_⟩
  obtain ⟨zA, zs, y', d1, d2, d3, d4⟩ := key z hz
  rw [y1] at d2
  obtain rfl := Except.ok.inj d2
  refine ⟨zA, zs, d1, ?_⟩
  rw [d4, c4, sprod_self, dist2_expand (by rw [z.ok, y.ok, hz, y2])]
  ring

/-- **C78 (least squares, 2-D).** The same for `iswt2` and `swt2`. -/
theorem C78_iswt2_least_squares {wavelet : PerAxis (Wavelet K)} (h : AllOrthogonal wavelet) {axes : List ℤ} {s s' : K}
    (hs : 2 * (s * s) = 1) (hs' : s' = 2 * s) {st : List (SStage K)} (hst : st.length = 2) {A : Arr K}
    (hr : SwtResolves A.ndim wavelet (some axes) (some s) st) {l : ℕ} (hl : 1 ≤ l) (hf : SwtnFits st l A.shape)
    {ps : List (Arr K × Arr K × Arr K)} (hps : ps.length = l)
    (hd : ∀ p ∈ ps, p.1.shape = A.shape ∧ p.2.1.shape = A.shape ∧ p.2.2.shape = A.shape) :
    ∃ y cA cs, iswt2 (.trimmed A ps) wavelet (some s') axes = .ok y ∧ y.shape = A.shape ∧
      swt2 y wavelet (l : ℤ) 0 axes true (some s) = .ok (.trimmed cA cs) ∧
      ∀ z : Arr K, z.shape = A.shape → ∃ zA zs, swt2 z wavelet (l : ℤ) 0 axes true (some s) = .ok (.trimmed zA zs) ∧
        coefDist2 zA zs A ps = dist2 z.data y.data + coefDist2 cA cs A ps := by
  have hne : st ≠ [] := by rintro rfl; simp at hst
  have hdw : ∀ e ∈ ps.map dictW, DetailsOf st.length A.shape e := by
    intro e he
    obtain ⟨p, hp, rfl⟩ := List.mem_map.mp he
    rw [hst]
    exact dictW_details (hd p hp)
  obtain ⟨y, cA, ds, y1, y2, y3, y4⟩ := C78_iswtn_least_squares h hs hs' hr hne hl hf (es := ps.map dictW) (by simp [hps]) hdw
  have hri : SwtResolves A.ndim wavelet (some axes) (some s') (adjStages st) := by
    have := swtResolves_inverse hs' hr
    rwa [perAxis_inverse h] at this
  have hla : (adjStages st).length = 2 := by simp [adjStages, hst]
  have hy : iswt2 (.trimmed A ps) wavelet (some s') axes = .ok y := by
    have hpn : ps ≠ [] := by rintro rfl; simp at hps; omega
    rw [(C46_iswt2_values hla hri (by rw [hps]; exact swtnFits_inverse hf) hpn hd).1, ← cascade_dictW hla]
    have := C46_iswtn_values (A := A) (ds := ps.map dictW) hri (by rw [List.length_map, hps]; exact swtnFits_inverse hf)
      (by simpa using hpn) (fun d hdm => by rw [hla, ← hst]; exact detailsOf_dict (by omega) (hdw d hdm))
    unfold iswtn at y1
    rw [this] at y1
    exact y1
  have hfwd : ∀ (z zA : Arr K) (zs : List (List (List Char × Arr K))), z.shape = A.shape →
      swtn z wavelet (l : ℤ) 0 (some axes) true (some s) = .ok (.trimmed zA zs) →
      ∃ qs, swt2 z wavelet (l : ℤ) 0 axes true (some s) = .ok (.trimmed zA qs) ∧ zs = qs.map dictW := by
    intro z zA zs hz hzs
    have hrz : SwtResolves z.ndim wavelet (some axes) (some s) st := by unfold Arr.ndim at hr ⊢; rw [hz]; exact hr
    have hnd : 1 ≤ z.ndim := by
      obtain ⟨s0, hs0⟩ := List.exists_mem_of_ne_nil st hne
      have := (hf.2 s0 hs0).1
      unfold Arr.ndim
      rw [hz]
      omega
    have hfz : SwtnFits st (0 + l) z.shape := by rw [zero_add, hz]; exact hf
    have e1 := swtn_ok (m := 0) hrz hnd hfz true
    rw [if_pos rfl, Nat.cast_zero, hzs] at e1
    simp only [Except.ok.injEq, SwtN.trimmed.injEq] at e1
    have e2 := (C45_swt2_values hst hrz hfz).2
    rw [Nat.cast_zero] at e2
    rw [e1.1, e1.2]
    refine ⟨_, e2, ?_⟩
    rw [List.map_reverse, List.map_map]
    exact congrArg List.reverse (List.map_congr_left fun j _ => swtnDict_dictW hst z j)
  obtain ⟨cs, c1, rfl⟩ := hfwd y cA ds y2 y3
  refine ⟨y, cA, cs, hy, y2, c1, fun z hz => ?_⟩
  obtain ⟨zA, zs, z1, z2⟩ := y4 z hz
  obtain ⟨qs, q1, rfl⟩ := hfwd z zA zs hz z1
  refine ⟨zA, qs, q1, ?_⟩
  rw [coefDist_dictW, coefDist_dictW] at z2
  exact z2

end

section
variable {K : Type} [Field K] [LinearOrder K] [IsStrictOrderedRing K] [Invertible (2 : K)]

theorem coefDist_nonneg (A : Arr K) (ds : List (List (List Char × Arr K))) (B : Arr K) (es : List (List (List Char × Arr K))) :
    0 ≤ coefDist A ds B es := by
  unfold coefDist
  refine add_nonneg (dist2_nonneg _ _) (List.sum_nonneg fun v hv => ?_)
  obtain ⟨i, hi, rfl⟩ := List.mem_iff_getElem.mp hv
  rw [List.getElem_zipWith]
  refine List.sum_nonneg fun v hv => ?_
  obtain ⟨i, hi, rfl⟩ := List.mem_iff_getElem.mp hv
  rw [List.getElem_zipWith]
  exact dist2_nonneg _ _

/-- **C78 (edits).** Hence the reconstruction of edited stationary coefficients is at most as far from the array as the edited
coefficients are from those of the array. -/
theorem C78_edit_contracts {wavelet : PerAxis (Wavelet K)} (h : AllOrthogonal wavelet) {axes : Option (List ℤ)} {s s' : K}
    (hs : 2 * (s * s) = 1) (hs' : s' = 2 * s) {st : List (SStage K)} {x : Arr K} (hr : SwtResolves x.ndim wavelet axes (some s) st)
    (hst : st ≠ []) {l : ℕ} (hl : 1 ≤ l) (hf : SwtnFits st l x.shape) {A : Arr K} (hA : A.shape = x.shape)
    {es : List (List (List Char × Arr K))} (hes : es.length = l) (hd : ∀ e ∈ es, DetailsOf st.length x.shape e) :
    ∃ cA ds y, swtn x wavelet (l : ℤ) 0 axes true (some s) = .ok (.trimmed cA ds) ∧
      iswtn (.trimmed A es) wavelet axes (some s') = .ok y ∧ y.shape = x.shape ∧
      dist2 x.data y.data ≤ coefDist cA ds A es := by
  obtain ⟨y, cA, ds, y1, y2, -, y4⟩ := C78_iswtn_least_squares h hs hs' (A := A) (by unfold Arr.ndim at hr ⊢; rw [hA]; exact hr) hst hl
    (by rw [hA]; exact hf) hes (by rw [hA]; exact hd)
  obtain ⟨zA, zs, z1, z2⟩ := y4 x hA.symm
  refine ⟨zA, zs, y, z1, y1, y2.trans hA, ?_⟩
  have := coefDist_nonneg cA ds A es
  linarith

end

/-- The hypotheses of all four are met by 4×2 arrays of coefficients with the Haar wavelet along both axes. -/
example : let A : Arr ℝ := ⟨[4, 2], [1, 2, 3, 4, 5, 6, 7, 8], rfl⟩
    let e : List (List Char × Arr ℝ) := [(['a', 'd'], A), (['d', 'a'], A), (['d', 'd'], A)]
    let st : List (SStage ℝ) := [(0, haarR.normed (some (1 / Real.sqrt 2))), (1, haarR.normed (some (1 / Real.sqrt 2)))]
    AllOrthogonal (.one haarR) ∧ 2 * ((1 / Real.sqrt 2) * (1 / Real.sqrt 2)) = 1 ∧ Real.sqrt 2 = 2 * (1 / Real.sqrt 2) ∧
      SwtResolves A.ndim (.one haarR) (some [0, -1]) (some (1 / Real.sqrt 2)) st ∧ st ≠ [] ∧ SwtnFits st 1 A.shape ∧ [e].length = 1 ∧
      (∀ d ∈ [e], DetailsOf st.length A.shape d) ∧
      ∀ p ∈ [(A, A, A)], p.1.shape = A.shape ∧ p.2.1.shape = A.shape ∧ p.2.2.shape = A.shape := by
  refine ⟨haarR_orthogonal, inv_sqrt2_sq, sqrt2_eq, ⟨rfl, _, rfl, rfl⟩, by simp, ⟨by decide, ?_⟩, rfl, ?_, by simp⟩
  · intro s hs
    simp only [List.mem_cons, List.not_mem_nil, or_false] at hs
    rcases hs with rfl | rfl
    · exact ⟨by decide, haarR_ok.normed _, by decide, by decide⟩
    · exact ⟨by decide, haarR_ok.normed _, by decide, by decide⟩
  · intro d hd
    rw [List.mem_singleton] at hd
    rw [hd]
    rfl

end Pywt
