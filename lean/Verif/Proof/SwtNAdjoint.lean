import Verif.Proof.Variance
import Verif.Proof.AdjointN
import Verif.Spec.SwtNAdjoint

/-!
# Proofs for C78
-/

namespace Pywt

open Finset Spec

set_option autoImplicit false
set_option linter.unusedSectionVars false

section
variable {R : Type} [CommRing R]

theorem Arr.sprod_data {x y : Arr R} (h : y.shape = x.shape) : x.sprod y = Spec.sprod x.data y.data := by
  rw [x.sprod_box y (by rw [h]) fun _ => 0, sprod_eq, x.ok, ← prodTo_length]
  have := sum_box x.shape x.shape.length (fun p => x.data.getD p 0 * y.data.getD p 0) fun _ => 0
  rw [← this]
  have e : (fun i => x.get i * y.get i) = fun i => x.data.getD (ravelIx x.shape i x.shape.length) 0 *
      y.data.getD (ravelIx x.shape i x.shape.length) 0 := by
    funext i
    unfold Arr.get
    rw [h]
  rw [e]

theorem foldr_sumAxis_factor {shape : List ℕ} (F : (ℕ → ℕ) → R) (t : R) (L : List ℕ) :
    L.foldr (sumAxis shape) (fun i => t * F i) = fun idx => t * L.foldr (sumAxis shape) F idx := by
  induction L with
  | nil => rfl
  | cons k L ih =>
    funext idx
    simp only [List.foldr_cons, ih, sumAxis, mul_sum]

/-- The stages of the inverse: reversed filters, twice as large. -/
def adjStages (st : List (SStage R)) : List (SStage R) := st.map fun s => (s.1, s.2.inverse.rescale 2)

theorem adj_recFilter (w : Wavelet R) (c : Char) : (w.inverse.rescale 2).recFilter c = (w.decFilter c).reverse.map (· * 2) := by
  unfold Wavelet.recFilter Wavelet.decFilter Wavelet.inverse Wavelet.rescale
  split <;> rfl

variable [Invertible (2 : R)]

theorem line_sprod {f x c : List R} (hf : f.length % 2 = 0) (s : ℕ) (hx : 1 ≤ x.length) (hc : c.length = x.length) :
    Spec.sprod (atrous f s x) c = ⅟2 * Spec.sprod x (atrousInv (f.reverse.map (· * 2)) s c) := by
  rw [atrous_sprod hf s hx hc, atrousInv_mul, sprod_map_mul, mul_comm (Spec.sprod _ _), ← mul_assoc, invOf_mul_self, one_mul]

theorem along_sprod {f : List R} (hf : f.length % 2 = 0) {x u : Arr R} {ax : ℕ} (ha : ax < x.shape.length)
    (hx : 1 ≤ x.shape.getD ax 0) (hu : u.shape = x.shape) (step : ℕ) :
    (x.along ax (x.shape.getD ax 0) (atrous f step)).sprod u =
      ⅟2 * x.sprod (u.along ax (u.shape.getD ax 0) (atrousInv (f.reverse.map (· * 2)) step)) := by
  have hsh : (x.along ax (x.shape.getD ax 0) (atrous f step)).shape = x.shape := by rw [Arr.shape_along, list_set_getD]
  have hsu : (u.along ax (u.shape.getD ax 0) (atrousInv (f.reverse.map (· * 2)) step)).shape = x.shape := by
    rw [Arr.shape_along, list_set_getD, hu]
  rw [Arr.sprod_lines _ u (by rw [hsh, hu]) (axis := ax) (by rw [hsh]; exact ha) (by rw [hsh, hu]) fun _ => 0,
    Arr.sprod_lines x _ (by rw [hsu]) ha (by rw [hsu]) fun _ => 0, hsh]
  have hm := congrFun (foldr_sumAxis_factor (shape := x.shape) (fun i => Spec.sprod (x.line ax i)
    ((u.along ax (u.shape.getD ax 0) (atrousInv (f.reverse.map (· * 2)) step)).line ax i)) (⅟2 : R)
    ((List.range x.shape.length).erase ax)) fun _ => 0
  rw [← hm]
  refine foldr_sumAxis_congr _ [] (fun _ _ => rfl) ?_ _ (by simp)
  intro i hi
  have hi1 : ∀ k < x.shape.length, k ≠ ax → i k < x.shape.getD k 0 := by
    intro k hk hks
    exact hi k (by simpa using (List.Nodup.mem_erase_iff List.nodup_range).2 ⟨hks, List.mem_range.2 hk⟩)
  rw [Arr.line_along ha hi1 (by rw [atrous_length, Arr.line_length]),
    Arr.line_along (by rw [hu]; exact ha) (by rw [hu]; exact hi1) (by simp [atrousInv, Arr.line_length])]
  exact line_sprod hf step (by rw [Arr.line_length]; exact hx) (by rw [Arr.line_length, Arr.line_length, hu])

theorem swtUnband_shape (st : List (SStage R)) (step : ℕ) : ∀ (k : List Char) (x : Arr R), (x.swtUnband st step k).shape = x.shape := by
  induction st with
  | nil => intro k x; rfl
  | cons s st ih =>
    intro k x
    cases k with
    | nil => rfl
    | cons c k => rw [Arr.swtUnband, Arr.shape_along, ih, list_set_getD]

/-- One subband. -/
theorem swtBand_sprod (step : ℕ) : ∀ (st : List (SStage R)) {k : List Char} {x u : Arr R},
    (∀ s ∈ st, s.1 < x.shape.length ∧ s.2.Ok ∧ 1 ≤ x.shape.getD s.1 0) → k.length = st.length → u.shape = x.shape →
    (x.swtBand st step k).sprod u = ⅟2 ^ st.length * x.sprod (u.swtUnband (adjStages st) step k)
  | [], k, x, u, _, hk, _ => by
      obtain rfl : k = [] := List.length_eq_zero_iff.mp hk
      simp [Arr.swtBand, Arr.swtUnband, adjStages]
  | s :: st, [], x, u, _, hk, _ => by simp at hk
  | s :: st, c :: k, x, u, h, hk, hu => by
      obtain ⟨h1, h2, h3⟩ := h s (by simp)
      have hsh : (x.along s.1 (x.shape.getD s.1 0) (atrous (s.2.decFilter c) step)).shape = x.shape := by
        rw [Arr.shape_along, list_set_getD]
      have ih := swtBand_sprod step st (k := k) (x := x.along s.1 (x.shape.getD s.1 0) (atrous (s.2.decFilter c) step)) (u := u)
        (fun t ht => by rw [hsh]; exact h t (by simp [ht])) (by simpa using hk) (by rw [hsh, hu])
      have hys : (u.swtUnband (adjStages st) step k).shape = x.shape := by rw [swtUnband_shape, hu]
      have ho := along_sprod (f := s.2.decFilter c) (by rw [decFilter_len h2]; exact h2.2.1) (x := x)
        (u := u.swtUnband (adjStages st) step k) h1 h3 hys step
      rw [Arr.swtBand, ih, ho, List.length_cons, pow_succ]
      have e : u.swtUnband (adjStages (s :: st)) step (c :: k) = (u.swtUnband (adjStages st) step k).along s.1 (u.shape.getD s.1 0)
          (atrousInv ((s.2.decFilter c).reverse.map (· * 2)) step) := by
        rw [← adj_recFilter]
        rfl
      rw [e, hys, hu, mul_assoc]

/-- One level. -/
theorem iswtnStep_sprod (step : ℕ) {st : List (SStage R)} {x : Arr R} {band : List Char → Arr R}
    (h : ∀ s ∈ st, s.1 < x.shape.length ∧ s.2.Ok ∧ 1 ≤ x.shape.getD s.1 0) (hb : ∀ k, (band k).shape = x.shape) :
    ((words st.length).map fun k => (x.swtBand st step k).sprod (band k)).sum =
      x.sprod (Arr.iswtnStep (adjStages st) step band x.shape) := by
  have hlen : (adjStages st).length = st.length := by simp [adjStages]
  have hsh : (Arr.iswtnStep (adjStages st) step band x.shape).shape = x.shape := rfl
  rw [x.sprod_box _ (by rw [hsh]) fun _ => 0]
  have e1 : (List.range x.shape.length).foldr (sumAxis x.shape)
      (fun i => x.get i * (Arr.iswtnStep (adjStages st) step band x.shape).get i) (fun _ => 0) =
      (List.range x.shape.length).foldr (sumAxis x.shape)
      (fun i => (⅟2 : R) ^ st.length * ((words st.length).map fun k =>
        x.get i * ((band k).swtUnband (adjStages st) step k).get i).sum) fun _ => 0 := by
    refine foldr_sumAxis_congr _ [] (fun _ _ => rfl) ?_ _ (by simp)
    intro i hi
    rw [C46_iswtn_level (adjStages st) step band hb fun k hk => hi k (by simpa using hk), hlen, smul_eq_mul, List.sum_map_mul_left]
    ring
  rw [e1, congrFun (foldr_sumAxis_factor _ _ _) _, foldr_sumAxis_list, ← List.sum_map_mul_left]
  refine congrArg List.sum (List.map_congr_left fun k hk => ?_)
  rw [swtBand_sprod step st h (mem_words.1 hk).1 (hb k), x.sprod_box _ (by rw [swtUnband_shape, hb]) fun _ => 0]

/-- All levels. -/
theorem iswtnCascade_sprod {st : List (SStage R)} {x : Arr R}
    (h : ∀ s ∈ st, s.1 < x.shape.length ∧ s.2.Ok ∧ 1 ≤ x.shape.getD s.1 0) (n : ℕ) :
    ∀ (A : Arr R) (es : List (List (List Char × Arr R))), A.shape = x.shape → es.length = n →
      (∀ e ∈ es, DetailsOf st.length x.shape e) →
      (iswtnCascade (adjStages st) es A).shape = x.shape ∧
      (swtnApprox st 0 x n).sprod A +
        (List.zipWith dictProd ((List.range n).map (swtnDict st 0 true x)).reverse es).sum =
        x.sprod (iswtnCascade (adjStages st) es A) := by
  have hlen : (adjStages st).length = st.length := by simp [adjStages]
  induction n with
  | zero =>
    intro A es hA hes _
    obtain rfl := List.length_eq_zero_iff.mp hes
    exact ⟨hA, by simp [swtnApprox, iswtnCascade]⟩
  | succ n ih =>
    intro A es hA hes hd
    cases es with
    | nil => simp at hes
    | cons e es =>
      have hn : es.length = n := by simpa using hes
      have he := hd e (by simp)
      have hkeys : e.map (·.1) = (words st.length).filter fun k => k ≠ List.replicate st.length 'a' := by
        have := congrArg (List.map Prod.fst) he
        simpa [dictShape, List.map_map, Function.comp_def] using this
      have hshapes : ∀ p ∈ e, p.2.shape = A.shape := by
        intro p hp
        have : (p.1, p.2.shape) ∈ dictShape e := List.mem_map.2 ⟨p, hp, rfl⟩
        rw [he] at this
        obtain ⟨k, -, e1⟩ := List.mem_map.1 this
        simp only [Prod.mk.injEq] at e1
        rw [← e1.2, hA]
      have hdok : DictOk e st.length A.shape := by
        refine ⟨by rw [hkeys]; exact (words_nodup _).filter _, fun p hp => ⟨?_, hshapes p hp⟩⟩
        have : p.1 ∈ e.map (·.1) := List.mem_map_of_mem hp
        rw [hkeys, List.mem_filter] at this
        exact this.1
      set y := swtnApprox st 0 x n with hy
      have hys : y.shape = x.shape := swtnApprox_shape _ _ _ _
      have hband : ∀ k, (bandOf e A st.length k).shape = y.shape := fun k => by rw [bandOf_shape hdok k, hA, hys]
      have hone := iswtnStep_sprod (2 ^ n) (st := st) (x := y) (by rw [hys]; exact h) hband
      obtain ⟨i1, i2⟩ := ih (Arr.iswtnStep (adjStages st) (2 ^ n) (bandOf e A st.length) y.shape) es hys hn
        fun d hdm => hd d (by simp [hdm])
      have hcas : iswtnCascade (adjStages st) (e :: es) A =
          iswtnCascade (adjStages st) es (Arr.iswtnStep (adjStages st) (2 ^ n) (bandOf e A st.length) y.shape) := by
        rw [iswtnCascade, hn, hlen, hA, hys]
      rw [hcas]
      refine ⟨i1, ?_⟩
      rw [← i2, ← hone, words_split]
      have ha : (bandOf e A st.length) (List.replicate st.length 'a') = A := by simp [bandOf]
      rw [ha, List.range_succ, List.map_append, List.reverse_append]
      simp only [List.map_cons, List.map_nil, List.reverse_cons, List.reverse_nil, List.nil_append, List.cons_append,
        List.zipWith_cons_cons, List.sum_cons]
      have hap : swtnApprox st 0 x (n + 1) = y.swtBand st (2 ^ n) (List.replicate st.length 'a') := by
        rw [swtnApprox, zero_add]
      rw [hap, add_assoc]
      congr 2
      unfold dictProd
      have hee : ((words st.length).filter fun k => k ≠ List.replicate st.length 'a').map
          (fun k => (k, bandOf e A st.length k)) = e := by
        refine dict_eq_map ((words_nodup _).filter _) hkeys fun k hk => ?_
        have hk' := List.mem_filter.1 hk
        unfold bandOf
        rw [if_neg (by simpa using hk'.2)]
        have : k ∈ e.map (·.1) := by rw [hkeys]; exact hk
        cases hl : e.lookup k with
        | some v => rfl
        | none =>
          obtain ⟨p, hp, rfl⟩ := List.mem_map.mp this
          rw [List.lookup_eq_none_iff] at hl
          have := hl p hp
          simp at this
      conv_lhs => rw [← hee]
      unfold swtnDict swtnBand
      simp only [Bool.not_true, Bool.false_or, zero_add]
      rw [List.zipWith_map]
      simp only [List.zipWith_self]
      rfl

/-! ### The arguments of the inverse -/

theorem rescale_inverse (w : Wavelet R) (s : R) : (w.rescale s).inverse.rescale 2 = w.inverse.rescale (2 * s) := by
  have e : (fun v : R => v * 2) ∘ (fun v => v * s) = fun v => v * (2 * s) := by
    funext v
    simp only [Function.comp_apply]
    ring
  simp [Wavelet.rescale, Wavelet.inverse, List.map_map, ← List.map_reverse, e]

theorem swtResolves_inverse {ndim : ℕ} {wavelet : PerAxis (Wavelet R)} {axes : Option (List ℤ)} {s s' : R} (hs : s' = 2 * s)
    {st : List (SStage R)} (h : SwtResolves ndim wavelet axes (some s) st) :
    SwtResolves ndim wavelet.inverse axes (some s') (adjStages st) := by
  obtain ⟨h1, ws, h2, h3⟩ := h
  refine ⟨?_, ws.map Wavelet.inverse, ?_, ?_⟩
  · cases axes <;> simpa [adjStages, List.map_map, Function.comp_def] using h1
  · rw [show (adjStages st).length = st.length by simp [adjStages]]
    exact expand_inverse h2
  · have e : (adjStages st).map (·.2) = (st.map (·.2)).map fun w => w.inverse.rescale 2 := by
      simp [adjStages, List.map_map, Function.comp_def]
    rw [e, h3, List.map_map, List.map_map]
    refine List.map_congr_left fun w _ => ?_
    simp only [Function.comp_apply, Wavelet.normed, hs]
    exact rescale_inverse w s

theorem rescale_ok {w : Wavelet R} (hw : w.Ok) (t : R) : (w.rescale t).Ok := hw.normed (some t)

theorem swtnFits_inverse {st : List (SStage R)} {L : ℕ} {S : List ℕ} (h : SwtnFits st L S) : SwtnFits (adjStages st) L S := by
  obtain ⟨h1, h2⟩ := h
  refine ⟨by simpa [adjStages, List.map_map, Function.comp_def] using h1, fun t ht => ?_⟩
  obtain ⟨s, hs, rfl⟩ := List.mem_map.1 ht
  obtain ⟨a1, a2, a3, a4⟩ := h2 s hs
  exact ⟨a1, rescale_ok (inverse_ok a2) 2, a3, a4⟩

theorem detailsOf_dict {d : ℕ} (hd : d ≠ 0) {S : List ℕ} {e : List (List Char × Arr R)} (h : DetailsOf d S e) :
    DictOk e d S ∧ e ≠ [] := by
  have hkeys : e.map (·.1) = (words d).filter fun k => k ≠ List.replicate d 'a' := by
    have := congrArg (List.map Prod.fst) h
    simpa [dictShape, List.map_map, Function.comp_def] using this
  refine ⟨⟨by rw [hkeys]; exact (words_nodup _).filter _, fun p hp => ⟨?_, ?_⟩⟩, ?_⟩
  · have : p.1 ∈ e.map (·.1) := List.mem_map_of_mem hp
    rw [hkeys, List.mem_filter] at this
    exact this.1
  · have : (p.1, p.2.shape) ∈ dictShape e := List.mem_map.2 ⟨p, hp, rfl⟩
    rw [h] at this
    obtain ⟨k, -, e1⟩ := List.mem_map.1 this
    simp only [Prod.mk.injEq] at e1
    exact e1.2.symm
  · rintro rfl
    have : List.replicate d 'd' ∈ (words d).filter fun k => k ≠ List.replicate d 'a' := by
      rw [List.mem_filter]
      refine ⟨mem_words.2 ⟨by simp, fun c hc => .inr (by rw [List.mem_replicate] at hc; exact hc.2)⟩, ?_⟩
      cases d with
      | zero => exact absurd rfl hd
      | succ d => simp [List.replicate_succ]
    rw [← hkeys] at this
    simp at this

/-! ### Distances -/

theorem dictDist_expand : ∀ {d e : List (List Char × Arr R)}, dictShape d = dictShape e →
    (List.zipWith (fun p q : List Char × Arr R => dist2 p.2.data q.2.data) d e).sum =
      (d.map fun p => energy p.2.data).sum - 2 * dictProd d e + (e.map fun p => energy p.2.data).sum
  | [], [], _ => by simp [dictProd]
  | [], _ :: _, h => by simp [dictShape] at h
  | _ :: _, [], h => by simp [dictShape] at h
  | p :: d, q :: e, h => by
      simp only [dictShape, List.map_cons, List.cons.injEq, Prod.mk.injEq] at h
      have ih := dictDist_expand (d := d) (e := e) h.2
      have hl : p.2.data.length = q.2.data.length := by rw [p.2.ok, q.2.ok, h.1.2]
      simp only [dictProd, List.zipWith_cons_cons, List.sum_cons, List.map_cons] at ih ⊢
      rw [ih, dist2_expand hl, Arr.sprod_data h.1.2.symm]
      ring

theorem dictsDist_expand : ∀ {ds es : List (List (List Char × Arr R))}, ds.map dictShape = es.map dictShape →
    (List.zipWith (fun d e => (List.zipWith (fun p q : List Char × Arr R => dist2 p.2.data q.2.data) d e).sum) ds es).sum =
      (ds.map fun d => (d.map fun p => energy p.2.data).sum).sum - 2 * (List.zipWith dictProd ds es).sum +
        (es.map fun d => (d.map fun p => energy p.2.data).sum).sum
  | [], [], _ => by simp
  | [], _ :: _, h => by simp at h
  | _ :: _, [], h => by simp at h
  | d :: ds, e :: es, h => by
      simp only [List.map_cons, List.cons.injEq] at h
      have ih := dictsDist_expand (ds := ds) (es := es) h.2
      simp only [List.zipWith_cons_cons, List.sum_cons, List.map_cons]
      rw [ih, dictDist_expand h.1]
      ring

theorem swtnDict_shape (st : List (SStage R)) (m : ℕ) (x : Arr R) (j : ℕ) : DetailsOf st.length x.shape (swtnDict st m true x j) := by
  unfold DetailsOf dictShape swtnDict
  simp only [Bool.not_true, Bool.false_or, List.map_map]
  refine List.map_congr_left fun k _ => ?_
  simp only [Function.comp_apply, swtnBand, swtBand_shape, swtnApprox_shape]

theorem inverse_of_orthogonal {w : Wavelet R} (h : OrthogonalBank w) : w.inverse = w := by
  obtain ⟨-, h1, h2, -⟩ := h
  unfold Wavelet.inverse
  rw [h1, h2, List.reverse_reverse, List.reverse_reverse, ← h1, ← h2]

end

theorem perAxis_inverse {K : Type} [Field K] [Invertible (2 : K)] {wavelet : PerAxis (Wavelet K)} (h : AllOrthogonal wavelet) : wavelet.inverse = wavelet := by
  cases wavelet with
  | one w => exact congrArg PerAxis.one (inverse_of_orthogonal h)
  | many ws =>
    refine congrArg PerAxis.many ?_
    conv_rhs => rw [← List.map_id ws]
    exact List.map_congr_left fun w hw => inverse_of_orthogonal (h w hw)

/-! ### 2-D -/

section
variable {R : Type} [CommRing R] [Invertible (2 : R)]

/-- The dict of three detail arrays, in the order of the words. -/
def dictW (p : Arr R × Arr R × Arr R) : List (List Char × Arr R) := [(['a', 'd'], p.2.1), (['d', 'a'], p.1), (['d', 'd'], p.2.2)]

theorem bandOf_dictW (p : Arr R × Arr R × Arr R) (A : Arr R) : bandOf (dictW p) A 2 = bandOf (dict3 p) A 2 := by
  funext k
  unfold bandOf
  congr 2
  unfold dictW
  by_cases h1 : k = ['a', 'd']
  · subst h1; rfl
  by_cases h2 : k = ['d', 'a']
  · subst h2; rfl
  simp only [List.lookup_cons, beq_eq_false_iff_ne.mpr h1, beq_eq_false_iff_ne.mpr h2]

theorem cascade_dictW {st : List (SStage R)} (hl : st.length = 2) : ∀ (ps : List (Arr R × Arr R × Arr R)) (A : Arr R),
    iswtnCascade st (ps.map dictW) A = iswtnCascade st (ps.map dict3) A
  | [], _ => rfl
  | p :: ps, A => by
      simp only [List.map_cons, iswtnCascade, List.length_map, hl, bandOf_dictW]
      exact cascade_dictW hl ps _

theorem dictW_details {S : List ℕ} {p : Arr R × Arr R × Arr R} (h : p.1.shape = S ∧ p.2.1.shape = S ∧ p.2.2.shape = S) :
    DetailsOf 2 S (dictW p) := by
  have hw : (words 2).filter (fun k => decide (k ≠ List.replicate 2 'a')) = [['a', 'd'], ['d', 'a'], ['d', 'd']] := by decide
  unfold DetailsOf dictShape dictW
  rw [hw]
  simp [h.1, h.2.1, h.2.2]

theorem coefDist_dictW (A : Arr R) (ps : List (Arr R × Arr R × Arr R)) (B : Arr R) (qs : List (Arr R × Arr R × Arr R)) :
    coefDist A (ps.map dictW) B (qs.map dictW) = coefDist2 A ps B qs := by
  unfold coefDist coefDist2
  rw [List.zipWith_map]
  congr 3
  funext p q
  simp only [dictW, List.zipWith_cons_cons, List.zipWith_nil_left, List.sum_cons, List.sum_nil]
  ring

theorem swtnDict_dictW {st : List (SStage R)} (hl : st.length = 2) (x : Arr R) (j : ℕ) :
    swtnDict st 0 true x j = dictW (swtnBand st 0 x j ['d', 'a'], swtnBand st 0 x j ['a', 'd'], swtnBand st 0 x j ['d', 'd']) := by
  have hw : (words 2).filter (fun k => decide (k ≠ List.replicate 2 'a')) = [['a', 'd'], ['d', 'a'], ['d', 'd']] := by decide
  unfold swtnDict dictW
  simp only [Bool.not_true, Bool.false_or, hl, hw, List.map_cons, List.map_nil]

end

end Pywt
