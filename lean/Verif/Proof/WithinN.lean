import Verif.Proof.RoundTrip
import Verif.Proof.MultiDimTop
import Verif.Spec.FloatN

/-!
# Inverting the n-D transform with filters that reconstruct up to an error, in exact arithmetic
-/

set_option linter.unusedSectionVars false
set_option autoImplicit false

namespace Pywt

open Finset Spec

theorem conv_sub_le {f : List ℝ} {e g : ℤ → ℝ} {t : ℝ} (h : ∀ p, |e p - g p| ≤ t) (p : ℤ) :
    |conv f e p - conv f g p| ≤ l1 f * t := by
  unfold conv
  rw [← sum_sub_distrib, ← sum_l1, sum_mul]
  refine (abs_sum_le_sum_abs _ _).trans (sum_le_sum fun j _ => ?_)
  rw [← smul_sub, smul_eq_mul, abs_mul]
  exact mul_le_mul_of_nonneg_left (h _) (abs_nonneg _)

theorem at'_sub_le {a b : List ℝ} (hl : a.length = b.length) {t : ℝ} (ht : 0 ≤ t)
    (h : ∀ i < b.length, |a.getD i 0 - b.getD i 0| ≤ t) (p : ℤ) : |at' a p - at' b p| ≤ t := by
  unfold at'
  by_cases hp : p.toNat < b.length
  · exact h _ hp
  · rw [List.getD_eq_default _ _ (by omega), List.getD_eq_default _ _ (by omega)]
    simpa using ht

theorem ext_sub_le {mode : Mode} (hm : mode = .periodic ∨ mode = .zero) {a b : List ℝ} (hl : a.length = b.length) {t : ℝ}
    (ht : 0 ≤ t) (h : ∀ i < b.length, |a.getD i 0 - b.getD i 0| ≤ t) (p : ℤ) :
    |ext mode a p - ext mode b p| ≤ t := by
  rcases hm with rfl | rfl
  · simp only [Spec.ext, hl]
    exact at'_sub_le hl ht h _
  · simp only [Spec.ext, hl]
    split
    · exact at'_sub_le hl ht h _
    · simpa using ht

theorem upsample_sub_le {e g : ℤ → ℝ} {t : ℝ} (ht : 0 ≤ t) (h : ∀ p, |e p - g p| ≤ t) (p : ℤ) :
    |upsample e p - upsample g p| ≤ t := by
  unfold upsample
  split
  · exact h _
  · simpa using ht

/-- How a change of the coefficients changes the reconstruction. -/
theorem synthesis_sub_le {mode : Mode} {w : Wavelet ℝ} {a d a0 d0 : List ℝ} (ha : a.length = a0.length)
    (hd : d.length = a.length) (hd0 : d0.length = a0.length) {t : ℝ} (ht : 0 ≤ t)
    (h1 : ∀ i < a0.length, |a.getD i 0 - a0.getD i 0| ≤ t) (h2 : ∀ i < d0.length, |d.getD i 0 - d0.getD i 0| ≤ t) (i : ℕ) :
    |(synthesis mode w.rec_lo w.rec_hi a d).getD i 0 - (synthesis mode w.rec_lo w.rec_hi a0 d0).getD i 0| ≤
      idwtBound w 0 t := by
  have hb : idwtBound w 0 t = l1 w.rec_lo * t + l1 w.rec_hi * t := by unfold idwtBound; ring
  have hb0 : 0 ≤ idwtBound w 0 t := by
    rw [hb]; exact add_nonneg (mul_nonneg (l1_nonneg _) ht) (mul_nonneg (l1_nonneg _) ht)
  have key : ∀ m, (m = Mode.periodic ∨ m = Mode.zero) → ∀ p q : ℤ,
      |conv w.rec_lo (upsample (ext m a)) p + conv w.rec_hi (upsample (ext m d)) q -
        (conv w.rec_lo (upsample (ext m a0)) p + conv w.rec_hi (upsample (ext m d0)) q)| ≤ idwtBound w 0 t := by
    intro m hm p q
    rw [hb, add_sub_add_comm]
    refine (abs_add_le _ _).trans (add_le_add ?_ ?_)
    · exact conv_sub_le (fun p => upsample_sub_le ht (fun p => ext_sub_le hm ha ht h1 p) p) p
    · exact conv_sub_le (fun p => upsample_sub_le ht (fun p => ext_sub_le hm (by omega) ht h2 p) p) q
  have hz : ∀ (n : ℕ) (f g : ℕ → ℝ), (∀ k, |f k - g k| ≤ idwtBound w 0 t) →
      |((List.range n).map f).getD i 0 - ((List.range n).map g).getD i 0| ≤ idwtBound w 0 t := by
    intro n f g hfg
    by_cases hi : i < n
    · rw [List.getD_eq_getElem _ _ (by simpa using hi), List.getD_eq_getElem _ _ (by simpa using hi)]
      simpa using hfg i
    · rw [List.getD_eq_default _ _ (by simpa using hi), List.getD_eq_default _ _ (by simpa using hi)]
      simpa using hb0
  by_cases hp : mode = .periodization
  · subst hp
    simp only [synthesis, ha]
    exact hz _ _ _ fun k => key _ (.inl rfl) _ _
  · have hsyn : ∀ (a d : List ℝ), synthesis mode w.rec_lo w.rec_hi a d =
        (List.range (2 * a.length + 2 - w.rec_lo.length)).map fun n : ℕ =>
          conv w.rec_lo (upsample (ext .zero a)) ((n : ℤ) + (w.rec_lo.length - 2)) +
            conv w.rec_hi (upsample (ext .zero d)) ((n : ℤ) + (w.rec_lo.length - 2)) := by
      intro a d
      cases mode <;> first | rfl | exact absurd rfl hp
    rw [hsyn, hsyn, ha]
    exact hz _ _ _ fun k => key _ (.inr rfl) _ _

theorem arr_get_le {x : Arr ℝ} {B : ℝ} (hB : 0 ≤ B) (h : ∀ v ∈ x.data, |v| ≤ B) (idx : ℕ → ℕ) : |x.get idx| ≤ B := by
  unfold Arr.get
  generalize ravelIx x.shape idx x.shape.length = i
  by_cases hi : i < x.data.length
  · rw [List.getD_eq_getElem _ _ hi]; exact h _ (List.getElem_mem _)
  · rw [List.getD_eq_default _ _ (by omega)]; simpa using hB

theorem arrWithin_refl {t : ℝ} (ht : 0 ≤ t) (a : Arr ℝ) : ArrWithin t a a :=
  ⟨rfl, fun _ _ => le_rfl, fun _ _ => by simpa using ht⟩

/-- Lines of an array that extends another one. -/
theorem arrWithin_line {t : ℝ} {a b : Arr ℝ} (h : ArrWithin t a b) {axis : ℕ}
    (hs : a.shape.getD axis 0 = b.shape.getD axis 0) {idx : ℕ → ℕ}
    (hidx : ∀ k < b.shape.length, k ≠ axis → idx k < b.shape.getD k 0) :
    (a.line axis idx).length = (b.line axis idx).length ∧
      ∀ i < (b.line axis idx).length, |(a.line axis idx).getD i 0 - (b.line axis idx).getD i 0| ≤ t := by
  have hl : (a.line axis idx).length = (b.line axis idx).length := by rw [Arr.line_length, Arr.line_length, hs]
  refine ⟨hl, fun i hi => ?_⟩
  rw [List.getD_eq_getElem _ _ (by omega), List.getD_eq_getElem _ _ hi, Arr.line_getElem, Arr.line_getElem]
  refine h.2.2 _ fun k hk => ?_
  rw [Arr.line_length] at hi
  by_cases hka : k = axis
  · subst hka; simpa using hi
  · rw [Function.update_of_ne hka]; exact hidx k hk hka

/-- Inverting one stage. -/
theorem idwtAxis_within {ε t B : ℝ} (hB0 : 0 ≤ B) (ht : 0 ≤ t) {s : Stage ℝ} {x L H : Arr ℝ} (ha : s.1 < x.shape.length)
    (hw : s.2.1.Ok) (hpr : PRWithin ε s.2.1.dec_lo s.2.1.dec_hi s.2.1.rec_lo s.2.1.rec_hi)
    (hB : ∀ v ∈ x.data, |v| ≤ B)
    (hl : LenOk s.2.2 (x.shape.getD s.1 0)) (hs : H.shape = L.shape)
    (hax : L.shape.getD s.1 0 = coeffLen s.2.2 (x.shape.getD s.1 0) s.2.1.dec_len)
    (hL : ArrWithin t L (x.analyze s 'a')) (hH : ArrWithin t H (x.analyze s 'd')) :
    ∃ y, idwtAxis s.2.1 s.2.2 s.1 (some L) (some H) = .ok (some y) ∧
      y.shape = L.shape.set s.1 (x.shape.getD s.1 0 + x.shape.getD s.1 0 % 2) ∧
      ArrWithin (idwtBound s.2.1 0 t + ε * extMax s.2.2 s.2.1.dec_len B) y x := by
  obtain ⟨axis, w, mode⟩ := s
  simp only at *
  set N := x.shape.getD axis 0 with hN
  have hwOk := hw
  obtain ⟨w1, w2, w3, w4, w5⟩ := hw
  have hF : w.rec_len = w.dec_len := by unfold Wavelet.rec_len Wavelet.dec_len; exact w4
  have hsl : synthLen mode (L.shape.getD axis 0) w.rec_len = N + N % 2 := by
    rw [hax, hF]; exact synthLen_coeffLen w2 w1
  have hdim : L.shape.length = x.shape.length := by rw [hL.1, Arr.shape_analyze]; simp
  have haL : axis < L.shape.length := by omega
  have hpos : 1 ≤ N := hl.1
  refine ⟨_, idwtAxis_ok ⟨w1, w2, w3, w4, w5⟩ hs haL (by rw [hsl]; omega), ?_, ?_⟩
  · rw [hsl]; rfl
  · rw [hsl]
    have hmono : ∀ j < x.shape.length, j ≠ axis → x.shape.getD j 0 ≤ L.shape.getD j 0 := by
      intro j hj hja
      have := hL.2.1 j (by rw [Arr.shape_analyze]; simpa using hj)
      rw [Arr.shape_analyze, getD_set ha, if_neg hja] at this
      exact this
    refine ⟨by simp [Arr.along2, hdim], ?_, ?_⟩
    · intro j hj
      simp only [Arr.along2, Arr.shape_ofFn]
      rw [getD_set haL]
      split
      · next h => subst h; omega
      · next h => exact hmono j hj h
    · intro idx hidx
      have hinb : InB (L.shape.set axis (N + N % 2)) idx := by
        rw [inB_set haL]
        refine ⟨by have := hidx axis ha; omega, ?_⟩
        intro k hk hka
        have := hidx k (by omega)
        have := hmono k (by omega) hka
        omega
      rw [Arr.along2_get hs haL hinb]
      have hline : ∀ (A : Arr ℝ) (c : Char), ArrWithin t A (x.analyze (axis, w, mode) c) →
          A.shape.getD axis 0 = coeffLen mode N w.dec_len →
          (A.line axis idx).length = (analysis mode (w.decFilter c) (x.line axis idx)).length ∧
          ∀ i < (analysis mode (w.decFilter c) (x.line axis idx)).length,
            |(A.line axis idx).getD i 0 - (analysis mode (w.decFilter c) (x.line axis idx)).getD i 0| ≤ t := by
        intro A c hA hAs
        have h1 : (x.analyze (axis, w, mode) c).line axis idx = analysis mode (w.decFilter c) (x.line axis idx) := by
          unfold Arr.analyze
          apply Arr.line_along ha (fun k hk _ => hidx k hk)
          rw [analysis_length, Arr.line_length, decFilter_length hwOk]
        rw [← h1]
        refine arrWithin_line hA (by rw [hAs, Arr.shape_analyze, getD_set ha, if_pos rfl]) ?_
        intro k hk hka
        rw [Arr.shape_analyze] at hk ⊢
        rw [getD_set ha, if_neg hka]
        exact hidx k (by simpa using hk)
      obtain ⟨a1, a2⟩ := hline L 'a' hL hax
      obtain ⟨d1, d2⟩ := hline H 'd' hH (by rw [hs]; exact hax)
      simp only [Wavelet.decFilter, if_true, Char.reduceEq, if_false] at a1 a2 d1 d2
      have hxl : ((x.line axis idx)).length = N := Arr.line_length _ _ _
      have hSig : SignalOk mode (x.line axis idx) := by unfold SignalOk; rw [hxl]; exact hl
      obtain ⟨cA, cD, y, e1, e2, e3, e4⟩ := idwt_dwt_within (M := ℝ) hwOk hpr hSig
        (B := extMax mode w.dec_len B) fun p hp1 hp2 => ext_le_near hSig hB0 (by
          intro v hv
          obtain ⟨i, hi, rfl⟩ := List.getElem_of_mem hv
          rw [Arr.line_getElem]
          exact arr_get_le hB0 hB _) hp1 hp2
      rw [dwt_ok hwOk hSig] at e1
      cases e1
      rw [idwt_ok hwOk (by rw [analysis_length, analysis_length, w3]) (by
        rw [analysis_length, Wavelet.rec_len, w4, synthLen_coeffLen w2 w1]; omega)] at e2
      cases e2
      have hlt := hidx axis ha
      have e5 := e4 (idx axis) (by rw [hxl]; exact hlt)
      rw [Real.norm_eq_abs, List.getD_eq_getElem (x.line axis idx) _ (by rw [hxl]; exact hlt), Arr.line_getElem,
        Function.update_eq_self] at e5
      have e6 := synthesis_sub_le (mode := mode) (w := w) a1 (by
          rw [d1, a1, analysis_length, analysis_length, w3]) (by rw [analysis_length, analysis_length, w3]) ht a2 d2 (idx axis)
      refine (abs_sub_le _ _ _).trans (add_le_add e6 e5)

theorem stages_err_nonneg {w : Wavelet ℝ} {t ε B : ℝ} {m : Mode} {F : ℕ} (ht : 0 ≤ t) (hε : 0 ≤ ε) (hB : 0 ≤ B) :
    0 ≤ idwtBound w 0 t + ε * extMax m F B := by
  have h1 : 0 ≤ idwtBound w 0 t := by
    unfold idwtBound
    have := mul_nonneg (add_nonneg (l1_nonneg w.rec_lo) (l1_nonneg w.rec_hi)) ht
    linarith
  have h2 : 0 ≤ extMax m F B := by
    unfold extMax
    split
    · exact mul_nonneg (by positivity) hB
    · exact hB
  have := mul_nonneg hε h2
  linarith

theorem idwtnLoop_within {ε B : ℝ} (hε : 0 ≤ ε) (hB0 : 0 ≤ B) {st : List (Stage ℝ)} {x : Arr ℝ}
    (hinv : StagesNear ε st x.shape)
    (hB : ∀ st', st' <+: st → ∀ k ∈ words st'.length, ∀ v ∈ (x.subband st' k).data, |v| ≤ B) {t : ℝ} (ht : 0 ≤ t)
    {S : List ℕ} (hS : S.length = x.shape.length)
    (hSst : ∀ s ∈ st, S.getD s.1 0 = coeffLen s.2.2 (x.shape.getD s.1 0) s.2.1.dec_len)
    {c : CDict ℝ}
    (hc : ∀ k ∈ words st.length, ∃ y, CDict.get c k = some y ∧ y.shape = S ∧
      ArrWithin t y (x.subband st k)) :
    ∃ c' y, idwtnLoop x.shape.length (stagesZ st).reverse c = .ok c' ∧
      c'.lookup [] = some (some y) ∧ y.shape.length = x.shape.length ∧
      (∀ s ∈ st, y.shape.getD s.1 0 = x.shape.getD s.1 0 + x.shape.getD s.1 0 % 2) ∧
      (∀ j, j ∉ st.map (·.1) → y.shape.getD j 0 = S.getD j 0) ∧
      ArrWithin (stagesErr ε B (st.map (·.2)).reverse t) y x := by
  induction st using List.reverseRecOn generalizing S c t with
  | nil =>
    obtain ⟨y, h1, h2, h3⟩ := hc [] (by simp [words])
    refine ⟨c, y, rfl, CDict.get_eq_some h1, by rw [h2, hS], fun s hs => by simp at hs,
      fun j _ => by rw [h2], h3⟩
  | append_singleton st s ih =>
    obtain ⟨hn, hall⟩ := hinv
    have hn' : (st.map (·.1)).Nodup ∧ s.1 ∉ st.map (·.1) := by
      rw [List.map_append, List.nodup_append] at hn
      refine ⟨hn.1, fun hmem => hn.2.2 _ hmem s.1 (by simp) rfl⟩
    obtain ⟨a1, a2, a3, a4⟩ := hall s (by simp)
    have hinv' : StagesNear ε st x.shape := ⟨hn'.1, fun t ht => hall t (by simp [ht])⟩
    have hNx : ∀ k : Key, k.length = st.length →
        (x.subband st k).shape.getD s.1 0 = x.shape.getD s.1 0 := by
      intro k hk
      rw [shape_subband hk]
      exact (decShape_getD hn'.1 fun t ht => (hinv'.2 t ht).1).1 _ hn'.2
    have hlen : ∀ k : Key, k.length = st.length →
        (x.subband st k).shape.length = x.shape.length := by
      intro k hk
      rw [shape_subband hk, decShape_length]
    obtain ⟨c1, e1, hc1⟩ := idwtnStep_ok (w := s.2.1) (mode := s.2.2) (axis := s.1) (c := c)
      (keys := words st.length)
      (P := fun k y => y.shape = S.set s.1 (x.shape.getD s.1 0 + x.shape.getD s.1 0 % 2) ∧
        ArrWithin (idwtBound s.2.1 0 t + ε * extMax s.2.2 s.2.1.dec_len B) y (x.subband st k)) (by
      intro k hk
      obtain ⟨hk1, hk2⟩ := mem_words.mp hk
      obtain ⟨L, l1, l2, l3⟩ := hc (k ++ ['a']) (mem_words.mpr ⟨by simp [hk1], by
        intro c hc
        rcases List.mem_append.mp hc with h | h
        · exact hk2 c h
        · simp at h; simp [h]⟩)
      obtain ⟨H, h1, h2, h3⟩ := hc (k ++ ['d']) (mem_words.mpr ⟨by simp [hk1], by
        intro c hc
        rcases List.mem_append.mp hc with h | h
        · exact hk2 c h
        · simp at h; simp [h]⟩)
      rw [subband_snoc _ _ _ _ hk1] at l3 h3
      rw [l1, h1]
      obtain ⟨y, y1, y2, y3⟩ := idwtAxis_within (s := s) (x := x.subband st k) (L := L) (H := H) hB0 ht
        (by rw [hlen k hk1]; exact a1) a2 a3 (hB st (List.prefix_append _ _) k hk) (by rw [hNx k hk1]; exact a4)
        (by rw [l2, h2]) (by rw [l2, hNx k hk1]; exact hSst s (by simp)) l3 h3
      exact ⟨y, y1, by rw [y2, l2, hNx k hk1], y3⟩)
    obtain ⟨c', y, e, b1, b2, b3, b4, b5⟩ := ih hinv'
      (fun st' hst' => hB st' (hst'.trans (List.prefix_append _ _)))
      (stages_err_nonneg (w := s.2.1) (m := s.2.2) (F := s.2.1.dec_len) ht hε hB0)
      (S := S.set s.1 (x.shape.getD s.1 0 + x.shape.getD s.1 0 % 2)) (by simp [hS]) (by
        intro t ht
        rw [getD_set (by omega), if_neg, hSst t (by simp [ht])]
        intro h
        exact hn'.2 (h ▸ List.mem_map_of_mem ht)) hc1
    refine ⟨c', y, ?_, b1, b2, ?_, ?_, ?_⟩
    · have : (stagesZ (st ++ [s])).reverse = ((s.1 : ℤ), s.2.1, s.2.2) :: (stagesZ st).reverse := by
        simp [stagesZ]
      rw [this]
      have e0 : ¬ ((s.1 : ℤ) < 0 ∨ (s.1 : ℤ) ≥ (x.shape.length : ℤ)) := by omega
      simp only [idwtnLoop, if_neg e0, Int.toNat_natCast]
      have hl2 : ((stagesZ st).reverse).length = st.length := by simp [stagesZ]
      rw [hl2, e1]
      exact e
    · intro t ht
      rcases List.mem_append.mp ht with h | h
      · exact b3 t h
      · simp only [List.mem_singleton] at h
        subst h
        rw [b4 _ hn'.2, getD_set (by omega), if_pos rfl]
    · intro j hj
      simp only [List.map_append, List.mem_append, List.map_cons, List.map_nil, List.mem_singleton,
        not_or] at hj
      rw [b4 j hj.1, getD_set (by omega), if_neg hj.2]
    · simpa only [List.map_append, List.map_cons, List.map_nil, List.reverse_append, List.reverse_cons, List.reverse_nil,
        List.nil_append, List.singleton_append, stagesErr] using b5

theorem idwtn_dwtn_within {ε B : ℝ} (hε : 0 ≤ ε) (hB0 : 0 ≤ B) {x : Arr ℝ} {wavelet : PerAxis (Wavelet ℝ)}
    {mode : PerAxis Mode} {axes : Option (List ℤ)} {st : List (Stage ℝ)}
    (hr : Resolves x.ndim wavelet mode axes st) (hinv : StagesNear ε st x.shape)
    (hB : ∀ st', st' <+: st → ∀ k ∈ words st'.length, ∀ v ∈ (x.subband st' k).data, |v| ≤ B) :
    ∃ y, idwtn ((words st.length).map fun k => (k, some (x.subband st k))) wavelet mode axes =
        .ok (some y) ∧ y.shape.length = x.shape.length ∧
      (∀ s ∈ st, y.shape.getD s.1 0 = x.shape.getD s.1 0 + x.shape.getD s.1 0 % 2) ∧
      (∀ j, j ∉ st.map (·.1) → y.shape.getD j 0 = x.shape.getD j 0) ∧
      ArrWithin (stagesErr ε B (st.map (·.2)).reverse 0) y x := by
  have hsh : ∀ k ∈ words st.length, (x.subband st k).shape = decShape st x.shape :=
    fun k hk => shape_subband (mem_words.mp hk).1 x
  have hdl := decShape_length st x.shape
  have hg := decShape_getD hinv.1 fun s hs => (hinv.2 s hs).1
  obtain ⟨c', y, h1, h2, h3, h4, h5, h6⟩ := idwtnLoop_within hε hB0 hinv hB le_rfl (S := decShape st x.shape) hdl
    hg.2 (c := (words st.length).map fun k => (k, some (x.subband st k))) (by
      intro k hk
      refine ⟨x.subband st k, ?_, hsh k hk, arrWithin_refl le_rfl _⟩
      unfold CDict.get
      rw [lookup_map hk]
      rfl)
  refine ⟨y, ?_, h3, h4, ?_, h6⟩
  · rw [idwtn_full hsh (by rw [hdl]; exact hr), hdl, h1]
    simp only [Py_bind_ok, lookupKey, h2]
  · intro j hj
    rw [h5 j hj, hg.1 j hj]

end Pywt
