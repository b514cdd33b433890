import Verif.Proof.DwtIdwt
import Verif.Proof.AxisMulti
import Verif.Proof.Waverec2
import Verif.Proof.RecN

/-! Analysis after synthesis for the n-D transforms, periodization mode. -/

namespace Pywt

open Finset Spec

set_option linter.unusedSectionVars false

variable {R M : Type} [CommRing R] [AddCommGroup M] [Module R M]

theorem synthesis_per_length (rl rh : List R) (a d : List M) :
    (synthesis .periodization rl rh a d).length = 2 * a.length := by simp [synthesis]

/-- The two bands of a 1-D reconstruction in periodization mode. -/
theorem analysis_synthesis_bands {w : Wavelet R} (hw : w.Ok) (hpr : PR w.dec_lo w.dec_hi w.rec_lo w.rec_hi)
    {a d : List M} (had : a.length = d.length) (c : Char) :
    analysis .periodization (w.decFilter c) (synthesis .periodization w.rec_lo w.rec_hi a d) =
      if c = 'a' then a else d := by
  by_cases h1 : 1 ≤ a.length
  · obtain ⟨x, h2, h3, h4⟩ := dwt_idwt_per hw hpr had h1
    have hsl : synthLen .periodization a.length w.rec_len = 2 * a.length := rfl
    rw [idwt_ok hw had (by rw [hsl]; omega)] at h2
    simp only [Except.ok.injEq] at h2
    rw [h2]
    rw [dwt_ok hw ⟨by omega, by simp⟩] at h4
    simp only [Except.ok.injEq, Prod.mk.injEq] at h4
    unfold Wavelet.decFilter
    split
    · exact h4.1
    · exact h4.2
  · have e1 : a = [] := List.length_eq_zero_iff.mp (by omega)
    have e2 : d = [] := List.length_eq_zero_iff.mp (by omega)
    subst e1 e2
    simp [synthesis, analysis]

/-- One axis: the bands of the array synthesised from `a` and `d`. -/
theorem analyze_along2 {s : Stage R} (hm : s.2.2 = .periodization) (hw : s.2.1.Ok)
    (hpr : PR s.2.1.dec_lo s.2.1.dec_hi s.2.1.rec_lo s.2.1.rec_hi) {a d : Arr M} (hs : d.shape = a.shape)
    (ha : s.1 < a.shape.length) (c : Char) :
    (Arr.along2 s.1 (2 * a.shape.getD s.1 0) (synthesis .periodization s.2.1.rec_lo s.2.1.rec_hi) a d).analyze s c =
      if c = 'a' then a else d := by
  set y := Arr.along2 s.1 (2 * a.shape.getD s.1 0) (synthesis .periodization s.2.1.rec_lo s.2.1.rec_hi) a d with hy
  have hysh : y.shape = a.shape.set s.1 (2 * a.shape.getD s.1 0) := rfl
  have hyg : y.shape.getD s.1 0 = 2 * a.shape.getD s.1 0 := by rw [hysh, getD_set ha, if_pos rfl]
  have hcl : coeffLen s.2.2 (y.shape.getD s.1 0) s.2.1.dec_len = a.shape.getD s.1 0 := by
    rw [hyg, hm]; simp only [coeffLen, if_pos]; omega
  have hash : (y.analyze s c).shape = a.shape := by
    rw [Arr.shape_analyze, hcl, hysh, List.set_set]
    apply List.ext_getElem (by simp)
    intro i h1 h2
    rw [List.getElem_set]
    split
    · next h => subst h; rw [List.getD_eq_getElem (hn := h2)]
    · rfl
  have hes : (if c = 'a' then a else d).shape = a.shape := by split <;> simp [hs]
  refine Arr.ext_line (axis := s.1) (by rw [hash]; exact ha) (by rw [hash, hes]) ?_
  intro idx hidx
  rw [hash] at hidx
  have hl1 : y.line s.1 idx = synthesis .periodization s.2.1.rec_lo s.2.1.rec_hi (a.line s.1 idx) (d.line s.1 idx) := by
    rw [hy]
    exact Arr.line_along2 hs ha hidx (by rw [synthesis_per_length, Arr.line_length])
  unfold Arr.analyze
  rw [Arr.line_along (by rw [hysh, List.length_set]; exact ha)]
  · rw [hl1, hm, analysis_synthesis_bands hw hpr (by rw [Arr.line_length, Arr.line_length, hs])]
    split <;> rfl
  · intro k hk hks
    rw [hysh] at hk ⊢
    rw [List.length_set] at hk
    rw [getD_set ha, if_neg hks]
    exact hidx k hk hks
  · rw [analysis_length, Arr.line_length, decFilter_length hw]

theorem idwtnLoop_per {st : List (Stage R)} (hst : PerStages st) {S : List ℕ}
    (hS : ∀ s ∈ st, s.1 < S.length ∧ 1 ≤ S.getD s.1 0) {f : Key → Arr M} {c : CDict M}
    (hc : ∀ k ∈ words st.length, CDict.get c k = some (f k) ∧ (f k).shape = S) :
    ∃ c' y, idwtnLoop S.length (stagesZ st).reverse c = .ok c' ∧ c'.lookup [] = some (some y) ∧
      ∀ k ∈ words st.length, y.subband st k = f k := by
  induction st using List.reverseRecOn generalizing S c f with
  | nil =>
    obtain ⟨h1, h2⟩ := hc [] (by simp [words])
    refine ⟨c, f [], rfl, CDict.get_eq_some h1, ?_⟩
    intro k hk
    simp only [List.length_nil, words, List.mem_singleton] at hk
    rw [hk]; rfl
  | append_singleton st s ih =>
    obtain ⟨s1, s2, s3⟩ := hst s (by simp)
    obtain ⟨a1, a2⟩ := hS s (by simp)
    have hword : ∀ k ∈ words st.length, ∀ c : Char, c = 'a' ∨ c = 'd' → k ++ [c] ∈ words (st ++ [s]).length := by
      intro k hk c hc
      obtain ⟨hk1, hk2⟩ := mem_words.mp hk
      refine mem_words.mpr ⟨by simp [hk1], ?_⟩
      intro e he
      rcases List.mem_append.mp he with h | h
      · exact hk2 e h
      · simp only [List.mem_singleton] at h; rw [h]; exact hc
    set n := S.getD s.1 0 with hn
    set g : Key → Arr M := fun k => Arr.along2 s.1 (2 * n)
      (synthesis .periodization s.2.1.rec_lo s.2.1.rec_hi) (f (k ++ ['a'])) (f (k ++ ['d'])) with hg
    obtain ⟨c1, e1, hc1⟩ := idwtnStep_ok (w := s.2.1) (mode := s.2.2) (axis := s.1) (c := c)
      (keys := words st.length) (P := fun k y => y = g k) (by
        intro k hk
        obtain ⟨l1, l2⟩ := hc _ (hword k hk 'a' (.inl rfl))
        obtain ⟨h1, h2⟩ := hc _ (hword k hk 'd' (.inr rfl))
        refine ⟨g k, ?_, rfl⟩
        rw [l1, h1, s1, idwtAxis_ok s2 (by rw [l2, h2]) (by rw [l2]; exact a1)
          (by rw [l2]; show 1 ≤ 2 * n; omega), l2]
        rfl)
    have hc1' : ∀ k ∈ words st.length, CDict.get c1 k = some (g k) ∧ (g k).shape = S.set s.1 (2 * n) := by
      intro k hk
      obtain ⟨y, y1, rfl⟩ := hc1 k hk
      refine ⟨y1, ?_⟩
      rw [← (hc _ (hword k hk 'a' (.inl rfl))).2]
      rfl
    obtain ⟨c', y, e, b1, b2⟩ := ih (fun t ht => hst t (by simp [ht])) (S := S.set s.1 (2 * n)) (by
      intro t ht
      obtain ⟨t1, t2⟩ := hS t (by simp [ht])
      refine ⟨by simpa using t1, ?_⟩
      rw [getD_set a1]
      split <;> omega) hc1'
    rw [List.length_set] at e
    refine ⟨c', y, ?_, b1, ?_⟩
    · have : (stagesZ (st ++ [s])).reverse = ((s.1 : ℤ), s.2.1, s.2.2) :: (stagesZ st).reverse := by
        simp [stagesZ]
      rw [this]
      have e0 : ¬ ((s.1 : ℤ) < 0 ∨ (s.1 : ℤ) ≥ (S.length : ℤ)) := by omega
      simp only [idwtnLoop, if_neg e0, Int.toNat_natCast]
      have hl2 : ((stagesZ st).reverse).length = st.length := by simp [stagesZ]
      rw [hl2, e1]
      exact e
    · intro k hk
      obtain ⟨hk1, hk2⟩ := mem_words.mp hk
      obtain ⟨k', ch, rfl⟩ : ∃ k' ch, k = k' ++ [ch] := by
        rcases List.eq_nil_or_concat k with h | ⟨k', ch, h⟩
        · rw [h] at hk1; simp at hk1
        · exact ⟨k', ch, by simpa using h⟩
      have hk' : k' ∈ words st.length := mem_words.mpr ⟨by simpa using hk1, fun e he => hk2 e (by simp [he])⟩
      rw [subband_snoc _ _ _ _ (mem_words.mp hk').1, b2 k' hk']
      have l2 := (hc _ (hword k' hk' 'a' (.inl rfl))).2
      have h2 := (hc _ (hword k' hk' 'd' (.inr rfl))).2
      have := analyze_along2 s1 s2 s3 (a := f (k' ++ ['a'])) (d := f (k' ++ ['d'])) (by rw [l2, h2])
        (by rw [l2]; exact a1) ch
      rw [l2] at this
      rw [hg]
      simp only
      rw [this]
      rcases hk2 ch (by simp) with rfl | rfl <;> simp

theorem perStages_synthFits {st : List (Stage R)} (hst : PerStages st) (hn : (st.map (·.1)).Nodup) {S : List ℕ}
    (hS : ∀ s ∈ st, s.1 < S.length ∧ 1 ≤ S.getD s.1 0) : SynthFits st S := by
  refine ⟨hn, fun s hs => ?_⟩
  obtain ⟨s1, s2, s3⟩ := hst s hs
  obtain ⟨a1, a2⟩ := hS s hs
  refine ⟨a1, s2, ?_⟩
  rw [s1]
  show 1 ≤ 2 * S.getD s.1 0
  omega

/-- The subbands of a one-level n-D synthesis. -/
theorem subband_idwtnStep {st : List (Stage R)} (hst : PerStages st) (hn : (st.map (·.1)).Nodup) {S : List ℕ}
    (hS : ∀ s ∈ st, s.1 < S.length ∧ 1 ≤ S.getD s.1 0) {band : Key → Arr M}
    (hb : ∀ k ∈ words st.length, (band k).shape = S) {k : Key} (hk : k ∈ words st.length) :
    (Arr.idwtnStep st band S).subband st k = band k := by
  have hfit := perStages_synthFits hst hn hS
  obtain ⟨c', y, e1, e2, e3⟩ := idwtnLoop_per hst hS (f := band)
    (c := (words st.length).map fun k => (k, some (band k))) (by
      intro k hk
      refine ⟨?_, hb k hk⟩
      unfold CDict.get
      rw [lookup_map hk]
      rfl)
  have hr : Resolves S.length (.many (st.map (·.2.1))) (.many (st.map (·.2.2)))
      (some (st.map fun s : Stage R => (s.1 : ℤ))) st := by
    refine ⟨?_, ?_, ?_⟩
    · simp only [List.map_map]
      apply List.map_congr_left
      intro s _
      simp only [Function.comp]
      rw [if_neg (by omega)]
    · rcases st with _ | ⟨s, _ | ⟨t, st⟩⟩ <;> simp [PerAxis.expand]
    · rcases st with _ | ⟨s, _ | ⟨t, st⟩⟩ <;> simp [PerAxis.expand]
  have hy := idwtn_full hb hr
  rw [e1] at hy
  simp only [Py_bind_ok, lookupKey, e2] at hy
  obtain ⟨z, z1, z2, z3⟩ := idwtn_values_nest (c := (words st.length).map fun k => (k, some (band k)))
    (by rw [List.map_map]; exact (List.map_id _).symm ▸ words_nodup _)
    (by
      intro k v hkv
      obtain ⟨k', hk', e⟩ := List.mem_map.mp hkv
      simp only [Prod.mk.injEq, Option.some.injEq] at e
      rw [← e.1, ← e.2]
      exact ⟨hk', hb k' hk'⟩)
    (by
      obtain ⟨k0, l, hw⟩ := words_ne_nil st.length
      exact ⟨k0, band k0, List.mem_map.mpr ⟨k0, by rw [hw]; simp, rfl⟩⟩) hr hfit
  rw [hy] at z1
  simp only [Except.ok.injEq, Option.some.injEq] at z1
  subst z1
  have : Arr.idwtnStep st band S = y := by
    refine Arr.ext_get (by rw [z2]; rfl) fun idx hidx => ?_
    have hidx' : InB (synthShape st S) idx := hidx
    rw [z3 idx (by rw [z2]; exact hidx'), recnStep_get hfit hb hidx']
    congr 1
    apply List.map_congr_left
    intro k hk
    unfold CDict.get
    rw [lookup_map hk]
    rfl
  rw [this]
  exact e3 k hk

theorem perStages_synthShape {st : List (Stage R)} (hst : PerStages st) (hn : (st.map (·.1)).Nodup) {S : List ℕ}
    (hS : ∀ s ∈ st, s.1 < S.length ∧ 1 ≤ S.getD s.1 0) :
    ∀ s ∈ st, s.1 < (synthShape st S).length ∧ 1 ≤ (synthShape st S).getD s.1 0 := by
  intro s hs
  obtain ⟨a1, a2⟩ := hS s hs
  refine ⟨by rw [synthShape_length]; exact a1, ?_⟩
  rw [synthShape_eq hn hs a1, (hst s hs).1]
  show 1 ≤ 2 * _
  omega

theorem perStages_stagesOk {st : List (Stage R)} (hst : PerStages st) (hn : (st.map (·.1)).Nodup) {S : List ℕ}
    (hS : ∀ s ∈ st, s.1 < S.length ∧ 1 ≤ S.getD s.1 0) : StagesOk st S := by
  refine stagesOk_of_lens hn fun s hs => ?_
  obtain ⟨s1, s2, -⟩ := hst s hs
  obtain ⟨a1, a2⟩ := hS s hs
  rw [s1]
  exact ⟨a1, s2, a2, by simp⟩

/-- `dwtn` after `idwtn`. -/
theorem dwtn_idwtn {st : List (Stage R)} (hst : PerStages st) (hn : (st.map (·.1)).Nodup) {S : List ℕ}
    (hd : 1 ≤ S.length) (hS : ∀ s ∈ st, s.1 < S.length ∧ 1 ≤ S.getD s.1 0) {f : Key → Arr M}
    (hf : ∀ k ∈ words st.length, (f k).shape = S) {wavelet : PerAxis (Wavelet R)} {mode : PerAxis Mode}
    {axes : Option (List ℤ)} (hr : Resolves S.length wavelet mode axes st) :
    ∃ y, idwtn ((words st.length).map fun k => (k, some (f k))) wavelet mode axes = .ok (some y) ∧
      y.shape = synthShape st S ∧
      dwtn y wavelet mode axes = .ok ((words st.length).map fun k => (k, f k)) := by
  have hfit := perStages_synthFits hst hn hS
  obtain ⟨c', y, e1, e2, e3⟩ := idwtnLoop_per hst hS (f := f)
    (c := (words st.length).map fun k => (k, some (f k))) (by
      intro k hk
      refine ⟨?_, hf k hk⟩
      unfold CDict.get
      rw [lookup_map hk]
      rfl)
  have hy := idwtn_full hf hr
  rw [e1] at hy
  simp only [Py_bind_ok, lookupKey, e2] at hy
  obtain ⟨z, z1, z2, -⟩ := idwtn_values_nest (c := (words st.length).map fun k => (k, some (f k)))
    (by rw [List.map_map]; exact (List.map_id _).symm ▸ words_nodup _)
    (by
      intro k v hkv
      obtain ⟨k', hk', e⟩ := List.mem_map.mp hkv
      simp only [Prod.mk.injEq, Option.some.injEq] at e
      rw [← e.1, ← e.2]
      exact ⟨hk', hf k' hk'⟩)
    (by
      obtain ⟨k0, l, hw⟩ := words_ne_nil st.length
      exact ⟨k0, f k0, List.mem_map.mpr ⟨k0, by rw [hw]; simp, rfl⟩⟩) hr hfit
  rw [hy] at z1
  simp only [Except.ok.injEq, Option.some.injEq] at z1
  subst z1
  have hyl : y.shape.length = S.length := by rw [z2, synthShape_length]
  refine ⟨y, hy, z2, ?_⟩
  rw [dwtn_ok (st := st) (show 1 ≤ y.shape.length by omega) (show Resolves y.shape.length _ _ _ _ by rw [hyl]; exact hr)
    (by rw [z2]; exact perStages_stagesOk hst hn (perStages_synthShape hst hn hS))]
  congr 1
  apply List.map_congr_left
  intro k hk
  rw [e3 k hk]

/-! ### Multilevel -/

theorem DoublingDicts.dictOk {st : List (Stage R)} {d : ADict M} {S : List ℕ}
    (h1 : d.map (·.1) = (words st.length).filter (fun k => k ≠ List.replicate st.length 'a'))
    (h2 : ∀ p ∈ d, p.2.shape = S) : DictOk d st.length S := by
  refine ⟨by rw [h1]; exact (words_nodup _).filter _, fun p hp => ⟨?_, h2 p hp⟩⟩
  have : p.1 ∈ d.map (·.1) := List.mem_map_of_mem hp
  rw [h1, List.mem_filter] at this
  exact this.1

theorem detailShape_eq {d : ADict M} {S : List ℕ} (h2 : ∀ p ∈ d, p.2.shape = S) : detailShape d S = S := by
  cases d with
  | nil => rfl
  | cons p d => exact h2 p (by simp)

theorem DoublingDicts.recnFits {st : List (Stage R)} (hst : PerStages st) (hn : (st.map (·.1)).Nodup)
    {ds : List (ADict M)} : ∀ {S : List ℕ}, (∀ s ∈ st, s.1 < S.length ∧ 1 ≤ S.getD s.1 0) →
    DoublingDicts st ds S → RecnFits st ds S := by
  induction ds with
  | nil => intro S _ _; trivial
  | cons d ds ih =>
    intro S hS h
    obtain ⟨h1, h2, h3⟩ := h
    unfold RecnFits
    rw [detailShape_eq h2]
    exact ⟨DoublingDicts.dictOk h1 h2, Near.refl _, perStages_synthFits hst hn hS,
      ih (perStages_synthShape hst hn hS) h3⟩

theorem dict_eq_map {d : ADict M} {keys : List Key} (hn : keys.Nodup) (h : d.map (·.1) = keys) {f : Key → Arr M}
    (hf : ∀ k ∈ keys, (d.lookup k) = some (f k)) : keys.map (fun k => (k, f k)) = d := by
  induction d generalizing keys with
  | nil => simp only [List.map_nil] at h; rw [← h]; rfl
  | cons p d ih =>
    obtain ⟨k, v⟩ := p
    rw [List.map_cons] at h
    subst h
    rw [List.nodup_cons] at hn
    rw [List.map_cons]
    have h0 := hf k (by simp)
    simp only [List.lookup_cons, beq_self_eq_true, Option.some.injEq] at h0
    rw [← h0]
    congr 1
    refine ih hn.2 rfl fun k' hk' => ?_
    have := hf k' (by simp [hk'])
    rw [List.lookup_cons, beq_false_of_ne] at this
    · exact this
    · rintro rfl; exact hn.1 hk'

/-- The cascade of a multilevel synthesis. -/
theorem cascade_of_waverecn {st : List (Stage R)} (hst : PerStages st) (hn : (st.map (·.1)).Nodup)
    (ds : List (ADict M)) : ∀ A : Arr M, (∀ s ∈ st, s.1 < A.shape.length ∧ 1 ≤ A.shape.getD s.1 0) →
      DoublingDicts st ds A.shape →
      (waverecnCascade st ds A).approxN st ds.length = A ∧
      ((List.range ds.length).map fun j => (waverecnCascade st ds A).detailsN st j).reverse = ds ∧
      (waverecnCascade st ds A).shape = (synthShape st)^[ds.length] A.shape := by
  induction ds with
  | nil => intro A _ _; exact ⟨rfl, rfl, rfl⟩
  | cons d ds ih =>
    intro A hA h
    obtain ⟨h1, h2, h3⟩ := h
    rw [waverecnCascade, detailShape_eq h2, Arr.crop_self]
    set B := Arr.idwtnStep st (bandOf d A st.length) A.shape with hB
    have hsub : ∀ k ∈ words st.length, B.subband st k = bandOf d A st.length k := fun k hk =>
      subband_idwtnStep hst hn hA (fun k _ => bandOf_shape (DoublingDicts.dictOk h1 h2) k) hk
    obtain ⟨i1, i2, i3⟩ := ih B (perStages_synthShape hst hn hA) h3
    refine ⟨?_, ?_, ?_⟩
    · rw [List.length_cons, Arr.approxN_succ, i1, hsub _ (replicate_a_mem _)]
      simp [bandOf]
    · rw [List.length_cons, List.range_succ, List.map_append, List.reverse_append, i2]
      simp only [List.map_cons, List.map_nil, List.reverse_cons, List.reverse_nil, List.nil_append, List.cons_append]
      congr 1
      unfold Arr.detailsN
      rw [i1]
      refine dict_eq_map ((words_nodup _).filter _) h1 fun k hk => ?_
      have hk' := (List.mem_filter.mp hk)
      have hne : k ≠ List.replicate st.length 'a' := by simpa using hk'.2
      rw [hsub k hk'.1]
      unfold bandOf
      rw [if_neg hne]
      have : k ∈ d.map (·.1) := by rw [h1]; exact hk
      cases hl : d.lookup k with
      | some v => rfl
      | none =>
        obtain ⟨p, hp, rfl⟩ := List.mem_map.mp this
        rw [List.lookup_eq_none_iff] at hl
        have := hl p hp
        simp at this
    · rw [i3]
      rfl

theorem perStages_iter {st : List (Stage R)} (hst : PerStages st) (hn : (st.map (·.1)).Nodup) (n : ℕ) :
    ∀ {S : List ℕ}, (∀ s ∈ st, s.1 < S.length ∧ 1 ≤ S.getD s.1 0) →
      (∀ s ∈ st, s.1 < ((synthShape st)^[n] S).length ∧ 1 ≤ ((synthShape st)^[n] S).getD s.1 0) ∧
      ((synthShape st)^[n] S).length = S.length := by
  induction n with
  | zero => intro S h; exact ⟨h, rfl⟩
  | succ n ih =>
    intro S h
    rw [Function.iterate_succ_apply]
    obtain ⟨h1, h2⟩ := ih (perStages_synthShape hst hn h)
    exact ⟨h1, by rw [h2, synthShape_length]⟩

theorem perStages_decShape {st : List (Stage R)} (hst : PerStages st) (hn : (st.map (·.1)).Nodup) {S : List ℕ}
    (hS : ∀ s ∈ st, s.1 < S.length ∧ 1 ≤ S.getD s.1 0) :
    ∀ s ∈ st, s.1 < (decShape st S).length ∧ 1 ≤ (decShape st S).getD s.1 0 := by
  intro s hs
  obtain ⟨a1, a2⟩ := hS s hs
  refine ⟨by rw [decShape_length]; exact a1, ?_⟩
  rw [(decShape_getD hn fun s hs => (hS s hs).1).2 s hs, (hst s hs).1]
  simp only [coeffLen, if_pos]
  omega

theorem perStages_levels {st : List (Stage R)} (hst : PerStages st) (hn : (st.map (·.1)).Nodup) (n : ℕ) {S : List ℕ}
    (hS : ∀ s ∈ st, s.1 < S.length ∧ 1 ≤ S.getD s.1 0) : LevelsOkN st S n := by
  intro j _
  have : ∀ j, ∀ s ∈ st, s.1 < ((decShape st)^[j] S).length ∧ 1 ≤ ((decShape st)^[j] S).getD s.1 0 := by
    intro j
    induction j with
    | zero => exact hS
    | succ j ih => rw [Function.iterate_succ_apply']; exact perStages_decShape hst hn ih
  exact perStages_stagesOk hst hn (this j)

/-- `wavedecn` after `waverecn`. -/
theorem wavedecn_waverecn {st : List (Stage R)} (hst : PerStages st) (hn : (st.map (·.1)).Nodup) (hne : st ≠ [])
    {A : Arr M} {ds : List (List (Key × Arr M))} (hA : ∀ s ∈ st, s.1 < A.shape.length ∧ 1 ≤ A.shape.getD s.1 0)
    (hds : DoublingDicts st ds A.shape) {wavelet : PerAxis (Wavelet R)} {mode : PerAxis Mode}
    {axes : Option (List ℤ)} (hr : Resolves A.ndim wavelet mode axes st) :
    ∃ x, waverecn (.arr A :: ds.map Item.ofDict) wavelet mode axes = .ok (.arr x) ∧
      x.shape = (synthShape st)^[ds.length] A.shape ∧
      wavedecn x wavelet mode (some ds.length) axes = .ok (.arr A :: ds.map Item.ofDict) := by
  obtain ⟨c1, c2, c3⟩ := cascade_of_waverecn hst hn ds A hA hds
  obtain ⟨i1, i2⟩ := perStages_iter hst hn ds.length hA
  set x := waverecnCascade st ds A with hx
  have hd : 1 ≤ A.shape.length := by
    cases st with
    | nil => exact absurd rfl hne
    | cons s st => have := (hA s (by simp)).1; omega
  refine ⟨x, ?_, c3, ?_⟩
  · refine waverecn_values hr (hds.recnFits hst hn hA) ?_
    intro d hd
    cases ds with
    | nil => simp at hd
    | cons d0 ds =>
      simp only [List.head?_cons, Option.mem_def, Option.some.injEq] at hd
      rw [← hd]
      exact detailShape_eq hds.2.1
  · have hxl : x.shape.length = A.shape.length := by rw [c3, i2]
    have hxs : ∀ s ∈ st, s.1 < x.shape.length ∧ 1 ≤ x.shape.getD s.1 0 := by rw [c3]; exact i1
    obtain ⟨L, -, h⟩ := wavedecn_eq (x := x) (wavelet := wavelet) (mode := mode) (axes := axes) (st := st)
      (show 1 ≤ x.shape.length by omega) hne (show Resolves x.shape.length _ _ _ _ by rw [hxl]; exact hr)
      (fun s hs => ⟨(hxs s hs).1, (hst s hs).2.1⟩) hn
    rw [h]
    have e0 : ¬ (some (ds.length : ℤ)).any (· < 0) = true := by simp
    rw [if_neg e0]
    simp only [Option.map_some, Int.toNat_natCast, Option.getD_some]
    rw [if_pos (perStages_levels hst hn _ hxs)]
    unfold Arr.cascadeN
    rw [c1]
    congr 2
    conv_rhs => rw [← c2, List.map_reverse, List.map_map]
    rfl

/-! ### 2-D -/

theorem DoublingTriples.recnFits {s t : Stage R} (hst : PerStages [s, t]) (hn : ([s, t].map (·.1)).Nodup)
    {ps : List (Arr M × Arr M × Arr M)} : ∀ {S : List ℕ}, (∀ u ∈ [s, t], u.1 < S.length ∧ 1 ≤ S.getD u.1 0) →
    DoublingTriples [s, t] ps S → RecnFits [s, t] (ps.map dict3) S := by
  induction ps with
  | nil => intro S _ _; trivial
  | cons p ps ih =>
    intro S hS h
    obtain ⟨h1, h2, h3, h4⟩ := h
    rw [List.map_cons]
    unfold RecnFits
    have : detailShape (dict3 p) S = S := h1
    rw [this]
    exact ⟨dict3_ok h1 h2 h3, Near.refl _, perStages_synthFits hst hn hS, ih (perStages_synthShape hst hn hS) h4⟩

theorem cascade_of_waverec2 {s t : Stage R} (hst : PerStages [s, t]) (hn : ([s, t].map (·.1)).Nodup)
    (ps : List (Arr M × Arr M × Arr M)) : ∀ A : Arr M, (∀ u ∈ [s, t], u.1 < A.shape.length ∧ 1 ≤ A.shape.getD u.1 0) →
      DoublingTriples [s, t] ps A.shape →
      (waverecnCascade [s, t] (ps.map dict3) A).approxN [s, t] ps.length = A ∧
      ((List.range ps.length).map fun j => (waverecnCascade [s, t] (ps.map dict3) A).triple [s, t] j).reverse = ps ∧
      (waverecnCascade [s, t] (ps.map dict3) A).shape = (synthShape [s, t])^[ps.length] A.shape := by
  induction ps with
  | nil => intro A _ _; exact ⟨rfl, rfl, rfl⟩
  | cons p ps ih =>
    intro A hA h
    obtain ⟨h1, h2, h3, h4⟩ := h
    have hds : detailShape (dict3 p) A.shape = A.shape := h1
    rw [List.map_cons, waverecnCascade, hds, Arr.crop_self]
    set B := Arr.idwtnStep [s, t] (bandOf (dict3 p) A [s, t].length) A.shape with hB
    have hsub : ∀ k ∈ words 2, B.subband [s, t] k = bandOf (dict3 p) A 2 k := fun k hk =>
      subband_idwtnStep hst hn hA (fun k _ => bandOf_shape (dict3_ok h1 h2 h3) k) hk
    obtain ⟨i1, i2, i3⟩ := ih B (perStages_synthShape hst hn hA) h4
    refine ⟨?_, ?_, ?_⟩
    · rw [List.length_cons, Arr.approxN_succ, i1]
      exact hsub _ (replicate_a_mem _)
    · rw [List.length_cons, List.range_succ, List.map_append, List.reverse_append, i2]
      simp only [List.map_cons, List.map_nil, List.reverse_cons, List.reverse_nil, List.nil_append, List.cons_append]
      congr 1
      unfold Arr.triple
      rw [i1, hsub _ (by decide), hsub _ (by decide), hsub _ (by decide)]
      rfl
    · rw [i3]
      rfl

/-- `wavedec2` after `waverec2`. -/
theorem wavedec2_waverec2 {s t : Stage R} (hst : PerStages [s, t]) (hne : s.1 ≠ t.1)
    {A : Arr M} {ps : List (Arr M × Arr M × Arr M)} (hA : ∀ u ∈ [s, t], u.1 < A.shape.length ∧ 1 ≤ A.shape.getD u.1 0)
    (hps : DoublingTriples [s, t] ps A.shape) {wavelet : PerAxis (Wavelet R)} {mode : PerAxis Mode}
    {axes : List ℤ} (hr : Resolves A.ndim wavelet mode (some axes) [s, t]) :
    ∃ x, waverec2 (.arr A :: ps.map Item.ofTriple) wavelet mode axes = .ok (.arr x) ∧
      x.shape = (synthShape [s, t])^[ps.length] A.shape ∧
      wavedec2 x wavelet mode (some ps.length) axes = .ok (.arr A :: ps.map Item.ofTriple) := by
  have hn : ([s, t].map (·.1)).Nodup := by simp [hne]
  obtain ⟨c1, c2, c3⟩ := cascade_of_waverec2 hst hn ps A hA hps
  obtain ⟨i1, i2⟩ := perStages_iter hst hn ps.length hA
  set x := waverecnCascade [s, t] (ps.map dict3) A with hx
  refine ⟨x, waverec2_values rfl hr hn (hps.recnFits hst hn hA), c3, ?_⟩
  have hxl : x.shape.length = A.shape.length := by rw [c3, i2]
  have hxs : ∀ u ∈ [s, t], u.1 < x.shape.length ∧ 1 ≤ x.shape.getD u.1 0 := by rw [c3]; exact i1
  obtain ⟨L, -, h⟩ := wavedec2_eq (x := x) (wavelet := wavelet) (mode := mode) (axes := axes) (s := s) (t := t)
    (show Resolves x.shape.length _ _ _ _ by rw [hxl]; exact hr)
    (fun s hs => ⟨(hxs s hs).1, (hst s hs).2.1⟩) hne
  rw [h]
  have e0 : ¬ (some (ps.length : ℤ)).any (· < 0) = true := by simp
  rw [if_neg e0]
  simp only [Option.map_some, Int.toNat_natCast, Option.getD_some]
  rw [if_pos (perStages_levels hst hn _ hxs)]
  unfold Arr.cascade2
  rw [c1]
  congr 2
  conv_rhs => rw [← c2, List.map_reverse, List.map_map]
  rfl

end Pywt
