import Verif.Proof.Adjoint
import Verif.Proof.EnergyN
import Verif.Proof.SynthN
import Verif.Proof.MraN
import Verif.Proof.MultilevelN
import Verif.Proof.DwtIdwtN
import Verif.Proof.Edit
import Verif.Spec.AdjointN

/-!
# The adjoint of the n-D transform (helpers for C71)
-/

namespace Pywt

open Spec Finset

set_option linter.unusedSectionVars false

variable {R : Type} [CommRing R]

theorem Arr.sprod_local (x y : Arr R) (hl : y.shape.length = x.shape.length) :
    Arr.Local x.shape.length fun idx => x.get idx * y.get idx := by
  intro g h hgh
  simp only
  rw [x.get_congr hgh, y.get_congr (by rw [hl]; exact hgh)]

theorem Arr.sprod_box (x y : Arr R) (hl : y.shape.length = x.shape.length) (idx : ℕ → ℕ) :
    x.sprod y = (List.range x.shape.length).foldr (sumAxis x.shape) (fun i => x.get i * y.get i) idx := by
  have e := Arr.sumBy_box (fun r : R => r) (Arr.ofFn x.shape fun idx => x.get idx * y.get idx) idx
  simp only [Arr.sumBy, List.map_id', Arr.shape_ofFn] at e
  unfold Arr.sprod
  rw [e]
  refine foldr_sumAxis_congr _ [] (fun _ _ => rfl) ?_ idx (by simp)
  intro i hi
  exact Arr.get_ofFn (x.sprod_local y hl) fun k hk => hi k (by simpa using hk)

/-- The scalar product is the sum of those of the lines. -/
theorem Arr.sprod_lines (x y : Arr R) (hl : y.shape.length = x.shape.length) {axis : ℕ} (ha : axis < x.shape.length)
    (hy : x.shape.getD axis 0 ≤ y.shape.getD axis 0) (idx : ℕ → ℕ) :
    x.sprod y = ((List.range x.shape.length).erase axis).foldr (sumAxis x.shape)
      (fun i => Spec.sprod (x.line axis i) (y.line axis i)) idx := by
  rw [x.sprod_box y hl idx]
  have hp : (List.range x.shape.length).Perm ((List.range x.shape.length).erase axis ++ [axis]) :=
    (List.perm_cons_erase (List.mem_range.mpr ha)).trans (List.perm_append_singleton _ _).symm
  rw [hp.foldr_eq' (f := sumAxis x.shape) (fun k _ l _ F => sumAxis_comm _ _ _ _), List.foldr_append]
  refine congrFun (congrArg (fun F => List.foldr (sumAxis x.shape) F _) ?_) idx
  funext i
  simp only [List.foldr_cons, List.foldr_nil, sumAxis]
  rw [sprod_eq, Arr.line_length]
  refine sum_congr rfl fun v hv => ?_
  rw [mem_range] at hv
  have h1 : v < (x.line axis i).length := by rw [Arr.line_length]; exact hv
  have h2 : v < (y.line axis i).length := by rw [Arr.line_length]; omega
  rw [List.getD_eq_getElem _ _ h1, List.getD_eq_getElem _ _ h2, Arr.line_getElem, Arr.line_getElem]

theorem foldr_sumAxis_list {shape : List ℕ} {ι : Type} (l : List ι) (F : ι → (ℕ → ℕ) → R) (K : List ℕ) (idx : ℕ → ℕ) :
    K.foldr (sumAxis shape) (fun i => (l.map fun k => F k i).sum) idx =
      (l.map fun k => K.foldr (sumAxis shape) (F k) idx).sum := by
  induction l with
  | nil =>
    simp only [List.map_nil, List.sum_nil]
    induction K generalizing idx with
    | nil => rfl
    | cons k K ih => simp [sumAxis, ih]
  | cons k l ih =>
    simp only [List.map_cons, List.sum_cons]
    rw [foldr_sumAxis_add]
    simp only [ih]

/-- The scalar product with a sum. -/
theorem Arr.sprod_sum {ι : Type} {x y : Arr R} {l : List ι} {f : ι → Arr R}
    (hl : y.shape.length = x.shape.length) (hf : ∀ k ∈ l, (f k).shape.length = x.shape.length)
    (h : ∀ idx, InB x.shape idx → y.get idx = (l.map fun k => (f k).get idx).sum) :
    x.sprod y = (l.map fun k => x.sprod (f k)).sum := by
  rw [x.sprod_box y hl fun _ => 0]
  have e : (l.map fun k => x.sprod (f k)) = l.map fun k =>
      (List.range x.shape.length).foldr (sumAxis x.shape) (fun i => x.get i * (f k).get i) fun _ => 0 :=
    List.map_congr_left fun k hk => x.sprod_box (f k) (hf k hk) _
  rw [e, ← foldr_sumAxis_list]
  refine foldr_sumAxis_congr _ [] (fun _ _ => rfl) ?_ _ (by simp)
  intro i hi
  rw [h i fun k hk => hi k (by simpa using hk), ← List.sum_map_mul_left]

theorem inverse_recFilter (w : Wavelet R) (c : Char) : w.inverse.recFilter c = (w.decFilter c).reverse := by
  unfold Wavelet.recFilter Wavelet.decFilter Wavelet.inverse
  split <;> rfl

theorem decFilter_len {w : Wavelet R} (hw : w.Ok) (c : Char) : (w.decFilter c).length = w.dec_len := by
  unfold Wavelet.decFilter
  split
  · rfl
  · exact hw.2.2.1

/-- One axis. -/
theorem analyze_sprod {s : Stage R} (hw : s.2.1.Ok) {x y : Arr R} (c : Char) (ha : s.1 < x.shape.length)
    (hm : NoCopies s.2.2 (x.shape.getD s.1 0)) (hl : y.shape.length = x.shape.length)
    (hy : ∀ j, (x.analyze s c).shape.getD j 0 ≤ y.shape.getD j 0)
    (hya : y.shape.getD s.1 0 = coeffLen s.2.2 (x.shape.getD s.1 0) s.2.1.dec_len) {m : ℕ}
    (hm2 : m = synthLen s.2.2 (y.shape.getD s.1 0) s.2.1.dec_len) (hxm : x.shape.getD s.1 0 ≤ m) :
    (x.analyze s c).sprod y = x.sprod (y.along s.1 m (synthesis1 s.2.2 (s.2.1.inverse.recFilter c))) := by
  have hsh : (x.analyze s c).shape.length = x.shape.length := by rw [Arr.shape_analyze]; simp
  have hay : s.1 < y.shape.length := by omega
  rw [Arr.sprod_lines (x.analyze s c) y (by omega) (axis := s.1) (by omega) (hy _) fun _ => 0,
    Arr.sprod_lines x _ (by rw [Arr.shape_along]; simpa using hl) ha
      (by rw [Arr.shape_along, getD_set hay, if_pos rfl]; exact hxm) fun _ => 0, hsh]
  refine foldr_sumAxis_congr _ [] ?_ ?_ _ (by simp)
  · intro k hk
    have hk' : k ≠ s.1 := by
      rintro rfl
      exact (List.Nodup.mem_erase_iff List.nodup_range).1 hk |>.1 rfl
    rw [Arr.shape_analyze, getD_set ha, if_neg hk']
  · intro i hi
    have hi1 : ∀ k < x.shape.length, k ≠ s.1 → i k < (x.analyze s c).shape.getD k 0 := by
      intro k hk hks
      exact hi k (by simpa using (List.Nodup.mem_erase_iff List.nodup_range).2 ⟨hks, List.mem_range.2 hk⟩)
    have hi2 : ∀ k < x.shape.length, k ≠ s.1 → i k < x.shape.getD k 0 := by
      intro k hk hks
      have := hi1 k hk hks
      rwa [Arr.shape_analyze, getD_set ha, if_neg hks] at this
    have hi3 : ∀ k < y.shape.length, k ≠ s.1 → i k < y.shape.getD k 0 := fun k hk hks =>
      lt_of_lt_of_le (hi1 k (by omega) hks) (hy k)
    rw [Arr.line_along hay hi3 (by
      rw [synthesis1_length, Arr.line_length, hm2, inverse_recFilter, List.length_reverse, decFilter_len hw])]
    rw [inverse_recFilter]
    unfold Arr.analyze
    rw [Arr.line_along ha hi2 (by rw [analysis_length, Arr.line_length, decFilter_len hw])]
    refine analysis_sprod (by rw [Arr.line_length]; exact hm) (by rw [decFilter_len hw]; exact hw.2.1)
      (by rw [decFilter_len hw]; exact hw.1) ?_
    rw [Arr.line_length, Arr.line_length, hya, decFilter_len hw]

/-- The stages with the inverse filter banks. -/
def invStages (st : List (Stage R)) : List (Stage R) := st.map fun s => (s.1, s.2.1.inverse, s.2.2)

theorem synthLen_ge {mode : Mode} {N F : ℕ} (hm : NoCopies mode N) (hF : 2 ≤ F) (hF2 : F % 2 = 0) :
    N ≤ synthLen mode (coeffLen mode N F) F := by
  rcases hm with rfl | ⟨rfl, he⟩ <;> simp only [synthLen, coeffLen] <;> simp <;> omega

/-- One subband. -/
theorem subband_sprod (st : List (Stage R)) : ∀ {k : Key} {x u : Arr R}, (st.map (·.1)).Nodup →
    (∀ s ∈ st, s.1 < x.shape.length ∧ s.2.1.Ok ∧ NoCopies s.2.2 (x.shape.getD s.1 0)) → k.length = st.length →
    u.shape = decShape st x.shape →
    ((u.resynth (invStages st) k).shape.length = x.shape.length ∧
      (∀ j, x.shape.getD j 0 ≤ (u.resynth (invStages st) k).shape.getD j 0) ∧
      ∀ j, j ∉ st.map (·.1) → (u.resynth (invStages st) k).shape.getD j 0 = u.shape.getD j 0) ∧
    (x.subband st k).sprod u = x.sprod (u.resynth (invStages st) k) := by
  induction st with
  | nil =>
    intro k x u _ _ hk hu
    cases k with
    | cons c k => simp at hk
    | nil =>
      simp only [decShape, List.foldl_nil] at hu
      simp only [invStages, List.map_nil, Arr.resynth, Arr.subband]
      exact ⟨⟨by rw [hu], fun j => by rw [hu], fun _ _ => trivial⟩, trivial⟩
  | cons s st ih =>
    intro k x u hn hst hk hu
    cases k with
    | nil => simp at hk
    | cons c k =>
      simp only [List.map_cons, List.nodup_cons] at hn
      obtain ⟨a1, a2, a3⟩ := hst s (by simp)
      have hsh : (x.analyze s c).shape.length = x.shape.length := by rw [Arr.shape_analyze]; simp
      have hu' : u.shape = decShape st (x.analyze s c).shape := by
        rw [hu, Arr.shape_analyze]
        rfl
      have hst' : ∀ t ∈ st, t.1 < (x.analyze s c).shape.length ∧ t.2.1.Ok ∧
          NoCopies t.2.2 ((x.analyze s c).shape.getD t.1 0) := by
        intro t ht
        obtain ⟨b1, b2, b3⟩ := hst t (by simp [ht])
        refine ⟨by omega, b2, ?_⟩
        have hne : t.1 ≠ s.1 := fun e => hn.1 (e ▸ List.mem_map_of_mem ht)
        rw [Arr.shape_analyze, getD_set a1, if_neg hne]
        exact b3
      obtain ⟨⟨i1, i2, i3⟩, i4⟩ := ih (k := k) (x := x.analyze s c) (u := u) hn.2 hst' (by simpa using hk) hu'
      have hus : u.shape.getD s.1 0 = coeffLen s.2.2 (x.shape.getD s.1 0) s.2.1.dec_len := by
        rw [hu', (decShape_getD hn.2 fun t ht => (hst' t ht).1).1 _ hn.1, Arr.shape_analyze, getD_set a1, if_pos rfl]
      have hys := (i3 s.1 hn.1).trans hus
      have hge : x.shape.getD s.1 0 ≤ synthLen s.2.2 (u.shape.getD s.1 0) s.2.1.inverse.rec_len := by
        rw [hus, inverse_rec_len]
        exact synthLen_ge a3 a2.1 a2.2.1
      have ha' : s.1 < (u.resynth (invStages st) k).shape.length := by omega
      have er : u.resynth (invStages (s :: st)) (c :: k) = (u.resynth (invStages st) k).along s.1
          (synthLen s.2.2 (u.shape.getD s.1 0) s.2.1.inverse.rec_len)
          (synthesis1 s.2.2 (s.2.1.inverse.recFilter c)) := rfl
      rw [er]
      refine ⟨⟨by rw [Arr.shape_along, List.length_set]; omega, fun j => ?_, fun j hj => ?_⟩, ?_⟩
      · rw [Arr.shape_along, getD_set ha']
        split
        · rename_i e
          rw [e]
          exact hge
        · rename_i e
          have := i2 j
          rwa [Arr.shape_analyze, getD_set a1, if_neg e] at this
      · simp only [List.map_cons, List.mem_cons, not_or] at hj
        rw [Arr.shape_along, getD_set ha', if_neg hj.1]
        exact i3 j hj.2
      · simp only [Arr.subband]
        rw [i4]
        exact analyze_sprod a2 c a1 a3 (by omega) i2 hys (by rw [i3 s.1 hn.1, inverse_rec_len]) hge

theorem expand_inverse {p : PerAxis (Wavelet R)} {n : ℕ} {l : List (Wavelet R)} (h : p.expand n = .ok l) :
    p.inverse.expand n = .ok (l.map Wavelet.inverse) := by
  cases p with
  | one a =>
    simp only [PerAxis.expand, Except.ok.injEq] at h
    subst h
    simp [PerAxis.inverse, PerAxis.expand]
  | many q =>
    match q with
    | [] =>
      simp only [PerAxis.expand] at h
      split at h
      · simp at h
      · rename_i hq
        simp only [Except.ok.injEq] at h
        subst h
        simp only [PerAxis.inverse, PerAxis.expand, List.map_nil]
        rw [if_neg hq]
    | [a] =>
      simp only [PerAxis.expand, Except.ok.injEq] at h
      subst h
      simp [PerAxis.inverse, PerAxis.expand]
    | a :: b :: q =>
      simp only [PerAxis.expand] at h
      split at h
      · simp at h
      · rename_i hq
        simp only [Except.ok.injEq] at h
        subst h
        simp only [PerAxis.inverse, PerAxis.expand, List.map_cons]
        rw [if_neg (by simpa using hq)]

theorem resolves_inverse {ndim : ℕ} {wavelet : PerAxis (Wavelet R)} {mode : PerAxis Mode} {axes : Option (List ℤ)}
    {st : List (Stage R)} (h : Resolves ndim wavelet mode axes st) :
    Resolves ndim wavelet.inverse mode axes (invStages st) := by
  obtain ⟨h1, h2, h3⟩ := h
  refine ⟨?_, ?_, ?_⟩
  · cases axes <;> simpa [invStages, List.map_map, Function.comp_def] using h1
  · rw [show (invStages st).length = st.length by simp [invStages], expand_inverse h2]
    simp [invStages, List.map_map, Function.comp_def]
  · rw [show (invStages st).length = st.length by simp [invStages], h3]
    simp [invStages, List.map_map, Function.comp_def]

theorem lenOk_noCopies {mode : Mode} {N : ℕ} (hN : 1 ≤ N) (h : NoCopies mode N) : LenOk mode N :=
  ⟨hN, by rcases h with rfl | ⟨rfl, -⟩ <;> simp⟩

/-- Distinct axes, each with a well-formed wavelet, not empty, and extended without copies. -/
def AdjStages (st : List (Stage R)) (shape : List ℕ) : Prop :=
  (st.map (·.1)).Nodup ∧ ∀ s ∈ st, s.1 < shape.length ∧ s.2.1.Ok ∧ 1 ≤ shape.getD s.1 0 ∧ NoCopies s.2.2 (shape.getD s.1 0)

theorem AdjStages.stagesOk {st : List (Stage R)} {shape : List ℕ} (h : AdjStages st shape) : StagesOk st shape :=
  stagesOk_of_lens h.1 fun s hs => ⟨(h.2 s hs).1, (h.2 s hs).2.1, lenOk_noCopies (h.2 s hs).2.2.1 (h.2 s hs).2.2.2⟩

theorem AdjStages.synthFits {st : List (Stage R)} {shape : List ℕ} (h : AdjStages st shape) :
    SynthFits (invStages st) (decShape st shape) := by
  obtain ⟨hn, h⟩ := h
  refine ⟨by simpa [invStages, List.map_map, Function.comp_def] using hn, fun t ht => ?_⟩
  obtain ⟨s, hs, rfl⟩ := List.mem_map.1 ht
  obtain ⟨a1, a2, a3, a4⟩ := h s hs
  refine ⟨by rw [decShape_length]; exact a1, inverse_ok a2, ?_⟩
  simp only
  rw [(decShape_getD hn fun t ht => (h t ht).1).2 s hs, inverse_rec_len]
  exact a3.trans (synthLen_ge a4 a2.1 a2.2.1)

/-- All subbands of one level. -/
theorem idwtn_adjoint {x : Arr R} {wavelet : PerAxis (Wavelet R)} {mode : PerAxis Mode} {axes : Option (List ℤ)}
    {st : List (Stage R)} (hr : Resolves x.ndim wavelet mode axes st) (hst : AdjStages st x.shape) {u : Key → Arr R}
    (hu : ∀ k ∈ words st.length, (u k).shape = decShape st x.shape) :
    ∃ y, idwtn ((words st.length).map fun k => (k, some (u k))) wavelet.inverse mode axes = .ok (some y) ∧
      y.shape.length = x.shape.length ∧ (∀ j, x.shape.getD j 0 ≤ y.shape.getD j 0) ∧
      y.shape = synthShape (invStages st) (decShape st x.shape) ∧
      ((words st.length).map fun k => (x.subband st k).sprod (u k)).sum = x.sprod y := by
  have hlen : (invStages st).length = st.length := by simp [invStages]
  have hne : ∃ k, k ∈ words st.length := ⟨List.replicate st.length 'a', mem_words.2 ⟨by simp, fun c hc => .inl (by
    rw [List.mem_replicate] at hc; exact hc.2)⟩⟩
  have hfit := hst.synthFits
  obtain ⟨y, h1, h2, h3⟩ := idwtn_values (c := (words st.length).map fun k => (k, some (u k)))
    (S := decShape st x.shape) (st := invStages st) (by simpa [List.map_map, Function.comp_def] using words_nodup _)
    (by
      intro k v hv
      obtain ⟨k', hk', e⟩ := List.mem_map.1 hv
      simp only [Prod.mk.injEq, Option.some.injEq] at e
      obtain ⟨rfl, rfl⟩ := e
      rw [hlen]
      exact ⟨hk', hu k' hk'⟩)
    (by
      obtain ⟨k, hk⟩ := hne
      exact ⟨k, u k, List.mem_map.2 ⟨k, hk, rfl⟩⟩)
    (by rw [decShape_length]; exact resolves_inverse hr) hfit
  rw [hlen] at h3
  have hsub : ∀ k ∈ words st.length, _ := fun k hk =>
    subband_sprod st (k := k) (x := x) (u := u k) hst.1
      (fun s hs => ⟨(hst.2 s hs).1, (hst.2 s hs).2.1, (hst.2 s hs).2.2.2⟩) (mem_words.1 hk).1 (hu k hk)
  have hshape : ∀ k ∈ words st.length, ((u k).resynth (invStages st) k).shape = y.shape := fun k hk => by
    rw [h2]
    exact ((u k).resynth_get hfit (by rw [hlen]; exact (mem_words.1 hk).1) (hu k hk)).1
  obtain ⟨k0, hk0⟩ := hne
  have hyl : y.shape.length = x.shape.length := by rw [← hshape k0 hk0]; exact (hsub k0 hk0).1.1
  have hyg : ∀ j, x.shape.getD j 0 ≤ y.shape.getD j 0 := by rw [← hshape k0 hk0]; exact (hsub k0 hk0).1.2.1
  refine ⟨y, h1, hyl, hyg, h2, ?_⟩
  rw [Arr.sprod_sum (l := words st.length) (f := fun k => (u k).resynth (invStages st) k) hyl
    (fun k hk => (hsub k hk).1.1)]
  · exact congrArg List.sum (List.map_congr_left fun k hk => (hsub k hk).2)
  · intro idx hidx
    rw [h3 idx fun k hk => lt_of_lt_of_le (hidx k (by omega)) (hyg k)]
    congr 1
    refine List.map_congr_left fun k hk => ?_
    unfold CDict.get
    rw [lookup_map hk]
    rfl

/-! ### All levels -/

theorem replicate_word (n : ℕ) : List.replicate n 'a' ∈ words n := replicate_a_mem n

/-- One level, in terms of `idwtnStep`. -/
theorem idwtnStep_adjoint {x : Arr R} {st : List (Stage R)} (hst : AdjStages st x.shape) {u : Key → Arr R}
    (hu : ∀ k ∈ words st.length, (u k).shape = decShape st x.shape) :
    ((words st.length).map fun k => (x.subband st k).sprod (u k)).sum =
      x.sprod (Arr.idwtnStep (invStages st) u (decShape st x.shape)) := by
  have hlen : (invStages st).length = st.length := by simp [invStages]
  have hfit := hst.synthFits
  have hsub : ∀ k ∈ words st.length, _ := fun k hk =>
    subband_sprod st (k := k) (x := x) (u := u k) hst.1
      (fun s hs => ⟨(hst.2 s hs).1, (hst.2 s hs).2.1, (hst.2 s hs).2.2.2⟩) (mem_words.1 hk).1 (hu k hk)
  have hshape : ∀ k ∈ words st.length, _ := fun k hk =>
    (u k).resynth_get hfit (k := k) (by rw [hlen]; exact (mem_words.1 hk).1) (hu k hk)
  have h0 := hshape _ (replicate_word st.length)
  have g0 := hsub _ (replicate_word st.length)
  have hyl : (synthShape (invStages st) (decShape st x.shape)).length = x.shape.length := by
    rw [← h0.1]; exact g0.1.1
  have hyg : ∀ j, x.shape.getD j 0 ≤ (synthShape (invStages st) (decShape st x.shape)).getD j 0 := by
    rw [← h0.1]; exact g0.1.2.1
  rw [Arr.sprod_sum (x := x) (l := words st.length) (f := fun k => (u k).resynth (invStages st) k)
    (y := Arr.idwtnStep (invStages st) u (decShape st x.shape)) hyl (fun k hk => (hsub k hk).1.1)]
  · exact congrArg List.sum (List.map_congr_left fun k hk => (hsub k hk).2)
  · intro idx hidx
    have hidx' : InB (synthShape (invStages st) (decShape st x.shape)) idx := fun k hk =>
      lt_of_lt_of_le (hidx k (by omega)) (hyg k)
    rw [recnStep_get hfit (by rw [hlen]; exact hu) hidx', hlen]
    congr 1
    refine List.map_congr_left fun k hk => ?_
    exact ((hshape k hk).2 idx hidx').symm

theorem synthShape_inv {st : List (Stage R)} (h : ∀ s ∈ st, s.2.1.Ok) (S : List ℕ) :
    synthShape (invStages st) S = synthShape st S := by
  induction st with
  | nil => rfl
  | cons s st ih =>
    have e : s.2.1.inverse.rec_len = s.2.1.rec_len := by
      obtain ⟨h1, h2, h3, h4, h5⟩ := h s (by simp)
      rw [inverse_rec_len]
      simp only [Wavelet.rec_len, Wavelet.dec_len] at *
      omega
    have e2 : invStages (s :: st) = (s.1, s.2.1.inverse, s.2.2) :: invStages st := rfl
    rw [e2, synthShape_cons, synthShape_cons, ih fun t ht => h t (by simp [ht])]
    simp only [e]

theorem Arr.sprod_crop {x r : Arr R} (hl : r.shape.length = x.shape.length) : x.sprod (r.crop x.shape) = x.sprod r := by
  rw [x.sprod_box (r.crop x.shape) rfl fun _ => 0, x.sprod_box r hl fun _ => 0]
  refine foldr_sumAxis_congr _ [] (fun _ _ => rfl) ?_ _ (by simp)
  intro i hi
  congr 1
  refine Arr.get_ofFn ?_ fun k hk => hi k (by simpa using hk)
  intro g h hgh
  exact r.get_congr (by rw [hl]; exact hgh)

theorem details_ne_nil {st : List (Stage R)} (hne : st ≠ []) :
    ((words st.length).filter fun k => k ≠ List.replicate st.length 'a') ≠ [] := by
  have : List.replicate st.length 'd' ∈ (words st.length).filter fun k => k ≠ List.replicate st.length 'a' := by
    rw [List.mem_filter]
    refine ⟨mem_words.2 ⟨by simp, fun c hc => .inr (by rw [List.mem_replicate] at hc; exact hc.2)⟩, ?_⟩
    cases st with
    | nil => exact absurd rfl hne
    | cons s st => simp [List.replicate_succ]
  exact List.ne_nil_of_mem this

theorem waverecnCascade_adjoint {st : List (Stage R)} (hne : st ≠ []) {x : Arr R} (n : ℕ) :
    ∀ (r : Arr R) (es : List (ADict R)), (∀ j < n, AdjStages st ((decShape st)^[j] x.shape)) →
      Near r.shape ((decShape st)^[n] x.shape) →
      es.map dictShape = ((List.range n).map fun j => dictShape (x.detailsN st j)).reverse →
      RecnFits (invStages st) es r.shape ∧ Near (waverecnCascade (invStages st) es r).shape x.shape ∧
        x.sprod (waverecnCascade (invStages st) es r) = (x.approxN st n).sprod r +
          (List.zipWith dictProd ((List.range n).map fun j => x.detailsN st j).reverse es).sum := by
  induction n with
  | zero =>
    intro r es _ hr hes
    simp at hes
    subst hes
    exact ⟨trivial, hr, by simp [waverecnCascade, Arr.approxN]⟩
  | succ n ih =>
    intro r es hst hr hes
    have hlen : (invStages st).length = st.length := by simp [invStages]
    rw [List.range_succ, List.map_append, List.reverse_append] at hes
    simp only [List.map_cons, List.map_nil, List.reverse_cons, List.reverse_nil, List.nil_append, List.cons_append] at hes
    cases es with
    | nil => simp at hes
    | cons e es =>
      simp only [List.map_cons, List.cons.injEq] at hes
      obtain ⟨he, hes⟩ := hes
      have hA := hst n (by omega)
      set y := x.approxN st n with hy
      have hyS : y.shape = (decShape st)^[n] x.shape := Arr.shape_approxN _ _ _
      rw [← hyS] at hA
      rw [Function.iterate_succ_apply', ← hyS] at hr
      have hkeys : e.map (·.1) = (words st.length).filter fun k => k ≠ List.replicate st.length 'a' := by
        have := congrArg (List.map Prod.fst) he
        simpa [dictShape, Arr.detailsN, List.map_map, Function.comp_def] using this
      have hshapes : ∀ p ∈ e, p.2.shape = decShape st y.shape := by
        intro p hp
        have : (p.1, p.2.shape) ∈ dictShape (x.detailsN st n) := by
          rw [← he]
          exact List.mem_map.2 ⟨p, hp, rfl⟩
        obtain ⟨q, hq, e1⟩ := List.mem_map.1 this
        obtain ⟨k, hk, rfl⟩ := List.mem_map.1 hq
        simp only [Prod.mk.injEq] at e1
        rw [← e1.2]
        exact shape_subband (mem_words.1 (List.mem_filter.1 hk).1).1 _
      have hnn := details_ne_nil hne
      have hds : detailShape e r.shape = decShape st y.shape := by
        cases e with
        | nil => rw [List.map_nil] at hkeys; exact absurd hkeys.symm hnn
        | cons p e => exact hshapes p (by simp)
      have hdok : DictOk e st.length (decShape st y.shape) := DoublingDicts.dictOk hkeys hshapes
      have hok : ∀ s ∈ st, s.2.1.Ok := fun s hs => (hA.2 s hs).2.1
      have hnear := (synthShape_decShape hA.stagesOk hA.1).2
      rw [← synthShape_inv hok] at hnear
      set r1 := r.crop (decShape st y.shape) with hr1
      set z := Arr.idwtnStep (invStages st) (bandOf e r1 st.length) (decShape st y.shape) with hz
      have hzs : z.shape = synthShape (invStages st) (decShape st y.shape) := rfl
      obtain ⟨i1, i2, i3⟩ := ih z es (fun j hj => hst j (by omega)) (by rw [hzs, ← hyS]; exact hnear) hes
      have hband : ∀ k ∈ words st.length, (bandOf e r1 st.length k).shape = decShape st y.shape := fun k _ =>
        bandOf_shape (A := r1) hdok k
      have hone := idwtnStep_adjoint hA hband
      rw [words_split] at hone
      have ha : (bandOf e r1 st.length) (List.replicate st.length 'a') = r1 := by simp [bandOf]
      have hap : y.subband st (List.replicate st.length 'a') = x.approxN st (n + 1) := (Arr.approxN_succ _ _ _).symm
      have haps : (x.approxN st (n + 1)).shape = decShape st y.shape := by
        rw [← hap]
        exact shape_subband (by simp) _
      have hcas : waverecnCascade (invStages st) (e :: es) r = waverecnCascade (invStages st) es z := by
        rw [waverecnCascade, hds, hlen]
      refine ⟨⟨?_, ?_, ?_, ?_⟩, ?_, ?_⟩
      · rw [hds, hlen]; exact hdok
      · rw [hds]; exact hr
      · rw [hds]; exact hA.synthFits
      · rw [hds]; exact i1
      · rw [hcas]; exact i2
      · have hcr : (x.approxN st (n + 1)).sprod r1 = (x.approxN st (n + 1)).sprod r := by
          rw [hr1, ← haps, Arr.sprod_crop (by rw [haps]; exact hr.1)]
        rw [hcas, i3, ← hone, ha, hap, hcr]
        rw [List.range_succ, List.map_append, List.reverse_append]
        simp only [List.map_cons, List.map_nil, List.reverse_cons, List.reverse_nil, List.nil_append, List.cons_append,
          List.zipWith_cons_cons, List.sum_cons]
        rw [add_assoc]
        congr 2
        unfold dictProd
        have hee : ((words st.length).filter fun k => k ≠ List.replicate st.length 'a').map
            (fun k => (k, bandOf e r1 st.length k)) = e := by
          refine dict_eq_map ((words_nodup _).filter _) hkeys fun k hk => ?_
          have hk' := List.mem_filter.1 hk
          unfold bandOf
          rw [if_neg (by simpa using hk'.2)]
          have : k ∈ e.map (·.1) := by rw [hkeys]; exact hk
          cases hl : e.lookup k with
          | some v => rfl
          | none =>
            obtain ⟨p, hp, rfl⟩ := List.mem_map.mp this
            rw [List.lookup_eq_none_iff] at hl
            have := hl p hp
            simp at this
        conv_rhs => rw [← hee]
        unfold Arr.detailsN
        rw [List.zipWith_map]
        simp only [List.zipWith_self]
        rfl

theorem StagesAdj.level {n : ℕ} {st : List (Stage R)} {shape : List ℕ} (h : StagesAdj n st shape) {j : ℕ} (hj : j < n) :
    AdjStages st ((decShape st)^[j] shape) := by
  obtain ⟨hn, h⟩ := h
  obtain ⟨d1, d2⟩ := decShape_iter_getD hn (fun s hs => (h s hs).1) j
  refine ⟨hn, fun s hs => ?_⟩
  obtain ⟨a1, a2, a3, a4⟩ := h s hs
  refine ⟨by rw [d1]; exact a1, a2, ?_, ?_⟩
  · rw [d2 s hs]
    clear hj d1 d2
    induction j with
    | zero => exact a3
    | succ j ih =>
      rw [approxLen_succ'']
      exact coeffLen_pos ih a2.1 _
  · rw [d2 s hs]
    rcases a4 with a4 | ⟨a4, hd⟩
    · exact .inl a4
    · refine .inr ⟨a4, ?_⟩
      rw [a4]
      have hdj : 2 ^ (j + 1) ∣ shape.getD s.1 0 := (pow_dvd_pow 2 (by omega)).trans hd
      rw [approxLen_per_div ((pow_dvd_pow 2 (by omega)).trans hdj)]
      obtain ⟨m, hm⟩ := hdj
      rw [hm, pow_succ, mul_assoc, Nat.mul_div_cancel_left _ (by positivity)]
      omega

theorem map_ofDict_inj {ds es : List (ADict R)} (h : ds.map Item.ofDict = es.map Item.ofDict) : ds = es := by
  refine List.map_injective_iff.2 ?_ h
  intro d e hde
  simp only [Item.ofDict, Item.dict.injEq] at hde
  refine List.map_injective_iff.2 ?_ hde
  rintro ⟨a, b⟩ ⟨c, d⟩ e
  simpa using e

end Pywt
