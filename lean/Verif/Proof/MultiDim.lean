import Verif.Proof.AxisSpec
import Verif.Model.MultiDim
import Verif.Spec.MultiDim

/-! `dwtn`, `idwtn`, `dwt2`, `idwt2`. -/

namespace Pywt

open Finset Spec

set_option linter.unusedSectionVars false

variable {R M : Type} [Ring R] [AddCommGroup M] [Module R M]

theorem lenOk_iff {mode : Mode} {N : ℕ} : LenOk mode N ↔ 1 ≤ N ∧ tooShort N mode = false := by
  have := signalOk_iff (mode := mode) (x := List.replicate N (0 : ℤ))
  unfold SignalOk at this
  rw [List.length_replicate] at this
  rw [this]
  simp only [ne_eq, List.replicate_eq_nil_iff]
  constructor <;> rintro ⟨h1, h2⟩ <;> exact ⟨by omega, h2⟩

theorem Arr.shape_along (x : Arr M) (axis n : ℕ) (g : List M → List M) :
    (x.along axis n g).shape = x.shape.set axis n := rfl

theorem Arr.shape_analyze (x : Arr M) (s : Stage R) (c : Char) :
    (x.analyze s c).shape =
      x.shape.set s.1 (coeffLen s.2.2 (x.shape.getD s.1 0) s.2.1.dec_len) := rfl

theorem Arr.along_get {x : Arr M} {axis n : ℕ} {g : List M → List M} (ha : axis < x.shape.length)
    {idx : ℕ → ℕ} (h : InB (x.shape.set axis n) idx) :
    (x.along axis n g).get idx = (g (x.line axis idx)).getD (idx axis) 0 := by
  unfold Arr.along
  rw [Arr.get_ofFn (Local_line x axis g (by simp) (by simpa using ha)) h]

theorem dwtAxisU_ok {s : Stage R} {x : Arr M} (ha : s.1 < x.shape.length) (hw : s.2.1.Ok)
    (hl : LenOk s.2.2 (x.shape.getD s.1 0)) :
    dwtAxisU s.2.1 s.2.2 (s.1 : ℤ) x = .ok (x.analyze s 'a', x.analyze s 'd') := by
  obtain ⟨h1, h2⟩ := lenOk_iff.mp hl
  unfold dwtAxisU
  rw [if_neg (by omega), Int.toNat_natCast, dwtAxis_ok hw ha h1 h2]
  rfl

theorem dwtnStep_ok {s : Stage R} {shape : List ℕ} {cs : List (Key × Arr M)}
    (hcs : ∀ p ∈ cs, p.2.shape = shape) (ha : s.1 < shape.length) (hw : s.2.1.Ok)
    (hl : LenOk s.2.2 (shape.getD s.1 0)) :
    dwtnStep (s.1 : ℤ) s.2.1 s.2.2 cs = .ok (cs.flatMap fun p =>
      [(p.1 ++ ['a'], p.2.analyze s 'a'), (p.1 ++ ['d'], p.2.analyze s 'd')]) := by
  induction cs with
  | nil => rfl
  | cons p cs ih =>
    obtain ⟨k, x⟩ := p
    have hx : x.shape = shape := hcs (k, x) (by simp)
    simp only [dwtnStep]
    rw [dwtAxisU_ok (by rw [hx]; exact ha) hw (by rw [hx]; exact hl),
      ih fun p hp => hcs p (by simp [hp])]
    rfl

/-- The stages as `zip(axes, wavelets, modes)`. -/
def stagesZ (st : List (Stage R)) : List (ℤ × Wavelet R × Mode) :=
  st.map fun s => ((s.1 : ℤ), s.2.1, s.2.2)

theorem dwtnLoop_ok {st : List (Stage R)} {shape : List ℕ} {cs : List (Key × Arr M)}
    (hcs : ∀ p ∈ cs, p.2.shape = shape) (hst : StagesOk st shape) :
    dwtnLoop (stagesZ st) cs = .ok (cs.flatMap fun p =>
      (words st.length).map fun k => (p.1 ++ k, p.2.subband st k)) := by
  induction st generalizing cs shape with
  | nil =>
    simp [stagesZ, dwtnLoop, words, Arr.subband]
  | cons s st ih =>
    obtain ⟨h1, h2, h3, h4⟩ := hst
    simp only [stagesZ, List.map_cons, dwtnLoop]
    rw [dwtnStep_ok hcs h1 h2 h3]
    simp only [Py_bind_ok]
    have := ih (shape := shape.set s.1 (coeffLen s.2.2 (shape.getD s.1 0) s.2.1.dec_len))
      (cs := cs.flatMap fun p =>
      [(p.1 ++ ['a'], p.2.analyze s 'a'), (p.1 ++ ['d'], p.2.analyze s 'd')]) (by
      intro p hp
      simp only [List.mem_flatMap, List.mem_cons, List.not_mem_nil, or_false] at hp
      obtain ⟨q, hq, rfl | rfl⟩ := hp <;> simp [Arr.shape_analyze, hcs q hq]) h4
    unfold stagesZ at this
    rw [this]
    congr 1
    rw [List.flatMap_assoc]
    apply List.flatMap_congr
    intro p hp
    simp [words, Arr.subband, Function.comp_def]

theorem words_length (n : ℕ) : (words n).length = 2 ^ n := by
  induction n with
  | zero => rfl
  | succ n ih => simp [words, ih]; omega

theorem mem_words {n : ℕ} {k : Key} :
    k ∈ words n ↔ k.length = n ∧ ∀ c ∈ k, c = 'a' ∨ c = 'd' := by
  induction n generalizing k with
  | zero =>
    simp only [words, List.mem_singleton, List.length_eq_zero_iff]
    constructor
    · rintro rfl; simp
    · exact fun h => h.1
  | succ n ih =>
    simp only [words, List.mem_append, List.mem_map]
    constructor
    · rintro (⟨w, hw, rfl⟩ | ⟨w, hw, rfl⟩) <;> obtain ⟨h1, h2⟩ := ih.mp hw <;>
        exact ⟨by simp [h1], by
          intro c hc
          rcases List.mem_cons.mp hc with rfl | hc
          · simp
          · exact h2 c hc⟩
    · rintro ⟨h1, h2⟩
      cases k with
      | nil => simp at h1
      | cons c k =>
        have hk : k ∈ words n := ih.mpr ⟨by simpa using h1, fun d hd => h2 d (by simp [hd])⟩
        rcases h2 c (by simp) with rfl | rfl
        · exact Or.inl ⟨k, hk, rfl⟩
        · exact Or.inr ⟨k, hk, rfl⟩

theorem words_nodup (n : ℕ) : (words n).Nodup := by
  induction n with
  | zero => simp [words]
  | succ n ih =>
    simp only [words]
    apply List.Nodup.append
    · exact ih.map (fun a b h => by simpa using h)
    · exact ih.map (fun a b h => by simpa using h)
    · intro k hk hk'
      simp only [List.mem_map] at hk hk'
      obtain ⟨a, _, rfl⟩ := hk
      obtain ⟨b, _, h⟩ := hk'
      simp at h

/-! ### Inversion -/

theorem subband_snoc (st : List (Stage R)) (s : Stage R) (k : Key) (c : Char)
    (h : k.length = st.length) (x : Arr M) :
    x.subband (st ++ [s]) (k ++ [c]) = (x.subband st k).analyze s c := by
  induction st generalizing k x with
  | nil =>
    have : k = [] := by simpa using h
    subst this
    simp [Arr.subband]
  | cons t st ih =>
    cases k with
    | nil => simp at h
    | cons d k => simp only [List.cons_append, Arr.subband]; exact ih k (by simpa using h) _

theorem Arr.line_along {x : Arr M} {axis n : ℕ} {g : List M → List M} (ha : axis < x.shape.length)
    {idx : ℕ → ℕ} (hidx : ∀ k < x.shape.length, k ≠ axis → idx k < x.shape.getD k 0)
    (hg : (g (x.line axis idx)).length = n) :
    (x.along axis n g).line axis idx = g (x.line axis idx) := by
  apply List.ext_getElem
  · rw [Arr.line_length, Arr.shape_along, getD_set ha, if_pos rfl, hg]
  · intro j h1 h2
    rw [Arr.line_getElem, Arr.along_get ha]
    · rw [Function.update_self, x.line_congr (g := idx), List.getD_eq_getElem (hn := h2)]
      intro k _ hka
      rw [Function.update_of_ne hka]
    · rw [inB_set ha, Function.update_self]
      refine ⟨by omega, ?_⟩
      intro k hk hka
      rw [Function.update_of_ne hka]
      exact hidx k hk hka

theorem idwtAxis_ok {w : Wavelet R} (hw : w.Ok) {mode : Mode} {axis : ℕ} {a d : Arr M}
    (hs : d.shape = a.shape) (ha : axis < a.shape.length)
    (hlen : 1 ≤ synthLen mode (a.shape.getD axis 0) w.rec_len) :
    idwtAxis w mode axis (some a) (some d) =
      .ok (some (Arr.along2 axis (synthLen mode (a.shape.getD axis 0) w.rec_len)
        (synthesis mode w.rec_lo w.rec_hi) a d)) := by
  unfold idwtAxis
  rw [idwtAxisMem_ok hw (shape := a.shape) (by simp) (by
      rintro m hm
      simp only [Option.map_some, Option.some.injEq] at hm
      subst hm
      exact ⟨a.toMem_ok, rfl⟩) (by
      rintro m hm
      simp only [Option.map_some, Option.some.injEq] at hm
      subst hm
      exact ⟨d.toMem_ok, hs⟩) ha hlen]
  unfold Arr.along2
  simp only [Option.map_some, lineOf, Arr.toMem_line]

theorem Arr.along2_get {a b : Arr M} {axis n : ℕ} {g : List M → List M → List M}
    (hs : b.shape = a.shape) (ha : axis < a.shape.length)
    {idx : ℕ → ℕ} (h : InB (a.shape.set axis n) idx) :
    (Arr.along2 axis n g a b).get idx =
      (g (a.line axis idx) (b.line axis idx)).getD (idx axis) 0 := by
  unfold Arr.along2
  rw [Arr.get_ofFn _ h]
  intro f h hfh
  simp only [List.length_set] at hfh
  simp only
  rw [a.line_congr (g := h) (fun k hk _ => hfh k hk),
    b.line_congr (g := h) (fun k hk _ => hfh k (by rw [← hs]; exact hk)), hfh axis ha]

/-- Lines of an array that extends another one. -/
theorem Arr.Extends.line {a b : Arr M} (h : a.Extends b) {axis : ℕ}
    (hs : a.shape.getD axis 0 = b.shape.getD axis 0) {idx : ℕ → ℕ}
    (hidx : ∀ k < b.shape.length, k ≠ axis → idx k < b.shape.getD k 0) :
    a.line axis idx = b.line axis idx := by
  unfold Arr.line
  rw [hs]
  apply List.map_congr_left
  intro j hj
  apply h.2.2
  intro k hk
  by_cases hka : k = axis
  · subst hka; simpa using hj
  · rw [Function.update_of_ne hka]; exact hidx k hk hka

theorem Arr.Extends.refl (a : Arr M) : a.Extends a := ⟨rfl, fun _ _ => le_rfl, fun _ _ => rfl⟩

theorem decFilter_length {w : Wavelet R} (hw : w.Ok) (c : Char) :
    (w.decFilter c).length = w.dec_len := by
  unfold Wavelet.decFilter
  split
  · rfl
  · exact hw.2.2.1

/-- Inverting one stage. -/
theorem idwtAxis_extends {s : Stage R} {x L H : Arr M} (ha : s.1 < x.shape.length)
    (hw : s.2.1.Ok) (hpr : PR s.2.1.dec_lo s.2.1.dec_hi s.2.1.rec_lo s.2.1.rec_hi)
    (hl : LenOk s.2.2 (x.shape.getD s.1 0)) (hs : H.shape = L.shape)
    (hax : L.shape.getD s.1 0 = coeffLen s.2.2 (x.shape.getD s.1 0) s.2.1.dec_len)
    (hL : L.Extends (x.analyze s 'a')) (hH : H.Extends (x.analyze s 'd')) :
    ∃ y, idwtAxis s.2.1 s.2.2 s.1 (some L) (some H) = .ok (some y) ∧
      y.shape = L.shape.set s.1 (x.shape.getD s.1 0 + x.shape.getD s.1 0 % 2) ∧ y.Extends x := by
  obtain ⟨axis, w, mode⟩ := s
  simp only at *
  set N := x.shape.getD axis 0 with hN
  obtain ⟨w1, w2, w3, w4, w5⟩ := hw
  have hF : w.rec_len = w.dec_len := by unfold Wavelet.rec_len Wavelet.dec_len; exact w4
  have hsl : synthLen mode (L.shape.getD axis 0) w.rec_len = N + N % 2 := by
    rw [hax, hF]; exact synthLen_coeffLen w2 w1
  have hdim : L.shape.length = x.shape.length := by rw [hL.1, Arr.shape_analyze]; simp
  have haL : axis < L.shape.length := by omega
  have hpos : 1 ≤ N := hl.1
  refine ⟨_, idwtAxis_ok ⟨w1, w2, w3, w4, w5⟩ hs haL (by rw [hsl]; omega), ?_, ?_⟩
  · rw [hsl]; rfl
  · rw [hsl]
    have hmono : ∀ j < x.shape.length, j ≠ axis → x.shape.getD j 0 ≤ L.shape.getD j 0 := by
      intro j hj hja
      have := hL.2.1 j (by rw [Arr.shape_analyze]; simpa using hj)
      rw [Arr.shape_analyze, getD_set ha, if_neg hja] at this
      exact this
    refine ⟨by simp [Arr.along2, hdim], ?_, ?_⟩
    · intro j hj
      simp only [Arr.along2, Arr.shape_ofFn]
      rw [getD_set haL]
      split
      · next h => subst h; omega
      · next h => exact hmono j hj h
    · intro idx hidx
      have hinb : InB (L.shape.set axis (N + N % 2)) idx := by
        rw [inB_set haL]
        refine ⟨by have := hidx axis ha; omega, ?_⟩
        intro k hk hka
        have := hidx k (by omega)
        have := hmono k (by omega) hka
        omega
      rw [Arr.along2_get hs haL hinb]
      have hline : ∀ (A : Arr M) (c : Char), A.Extends (x.analyze (axis, w, mode) c) →
          A.shape.getD axis 0 = coeffLen mode N w.dec_len →
          A.line axis idx = analysis mode (w.decFilter c) (x.line axis idx) := by
        intro A c hA hAs
        rw [hA.line (by rw [hAs, Arr.shape_analyze, getD_set ha, if_pos rfl])]
        · unfold Arr.analyze
          apply Arr.line_along ha (fun k hk _ => hidx k hk)
          rw [analysis_length, Arr.line_length, decFilter_length ⟨w1, w2, w3, w4, w5⟩]
        · intro k hk hka
          rw [Arr.shape_analyze] at hk ⊢
          rw [getD_set ha, if_neg hka]
          exact hidx k (by simpa using hk)
      rw [hline L 'a' hL hax, hline H 'd' hH (by rw [hs]; exact hax)]
      simp only [Wavelet.decFilter, if_true, Char.reduceEq, if_false]
      rw [synthesis_analysis hpr w3 w4 w5 w1 w2 (by rw [Arr.line_length]; exact hpos)]
      have hlt := hidx axis ha
      rw [List.getD_eq_getElem (hn := by
        simp only [List.length_map, List.length_range, Arr.line_length]; omega)]
      simp only [List.getElem_map, List.getElem_range]
      rw [ext_in _ _ (by rw [Arr.line_length]; exact hlt),
        List.getD_eq_getElem (hn := by rw [Arr.line_length]; exact hlt)]
      rw [Arr.line_getElem, Function.update_eq_self]

theorem shape_subband {st : List (Stage R)} {k : Key} (h : k.length = st.length) (x : Arr M) :
    (x.subband st k).shape = decShape st x.shape := by
  induction st generalizing k x with
  | nil => cases k <;> rfl
  | cons s st ih =>
    cases k with
    | nil => simp at h
    | cons c k =>
      simp only [Arr.subband]
      rw [ih (by simpa using h)]
      rfl

theorem decShape_length (st : List (Stage R)) (shape : List ℕ) :
    (decShape st shape).length = shape.length := by
  unfold decShape
  induction st generalizing shape with
  | nil => rfl
  | cons s st ih => rw [List.foldl_cons, ih]; simp

theorem decShape_getD {st : List (Stage R)} {shape : List ℕ} (hn : (st.map (·.1)).Nodup)
    (hb : ∀ s ∈ st, s.1 < shape.length) :
    (∀ j, j ∉ st.map (·.1) → (decShape st shape).getD j 0 = shape.getD j 0) ∧
    ∀ s ∈ st, (decShape st shape).getD s.1 0 =
      coeffLen s.2.2 (shape.getD s.1 0) s.2.1.dec_len := by
  induction st generalizing shape with
  | nil => exact ⟨fun _ _ => rfl, fun s hs => by simp at hs⟩
  | cons t st ih =>
    simp only [List.map_cons, List.nodup_cons] at hn
    have ht : t.1 < shape.length := hb t (by simp)
    obtain ⟨h1, h2⟩ := ih (shape := shape.set t.1 (coeffLen t.2.2 (shape.getD t.1 0) t.2.1.dec_len))
      hn.2 (fun s hs => by simpa using hb s (by simp [hs]))
    unfold decShape at h1 h2 ⊢
    simp only [List.foldl_cons]
    refine ⟨?_, ?_⟩
    · intro j hj
      simp only [List.map_cons, List.mem_cons, not_or] at hj
      rw [h1 j hj.2, getD_set ht, if_neg hj.1]
    · intro s hs
      rcases List.mem_cons.mp hs with rfl | hs
      · rw [h1 _ hn.1, getD_set ht, if_pos rfl]
      · rw [h2 s hs, getD_set ht, if_neg]
        intro h
        exact hn.1 (h ▸ List.mem_map_of_mem hs)

theorem StagesInv.stagesOk {st : List (Stage R)} {shape : List ℕ} (h : StagesInv st shape) :
    StagesOk st shape := by
  obtain ⟨hn, h⟩ := h
  induction st generalizing shape with
  | nil => trivial
  | cons t st ih =>
    simp only [List.map_cons, List.nodup_cons] at hn
    obtain ⟨a1, a2, a3, a4⟩ := h t (by simp)
    refine ⟨a1, a2, a4, ih hn.2 ?_⟩
    intro s hs
    obtain ⟨b1, b2, b3, b4⟩ := h s (by simp [hs])
    refine ⟨by simpa using b1, b2, b3, ?_⟩
    rw [getD_set a1, if_neg]
    · exact b4
    · intro h
      exact hn.1 (h ▸ List.mem_map_of_mem hs)

theorem CDict.get_eq_some {c : CDict M} {k : Key} {y : Arr M} (h : CDict.get c k = some y) :
    c.lookup k = some (some y) := by
  unfold CDict.get at h
  cases hl : List.lookup k c with
  | none => simp [hl] at h
  | some v => cases v <;> simp_all

theorem idwtnStep_ok {w : Wavelet R} {mode : Mode} {axis : ℕ} {c : CDict M}
    {P : Key → Arr M → Prop} {keys : List Key}
    (h : ∀ key ∈ keys, ∃ y, idwtAxis w mode axis (CDict.get c (key ++ ['a']))
      (CDict.get c (key ++ ['d'])) = .ok (some y) ∧ P key y) :
    ∃ c', idwtnStep axis w mode c keys = .ok c' ∧
      ∀ key ∈ keys, ∃ y, CDict.get c' key = some y ∧ P key y := by
  induction keys with
  | nil => exact ⟨[], rfl, fun k hk => by simp at hk⟩
  | cons k keys ih =>
    obtain ⟨c', e, hc⟩ := ih fun key hk => h key (by simp [hk])
    obtain ⟨y, ey, hy⟩ := h k (by simp)
    refine ⟨(k, some y) :: c', ?_, ?_⟩
    · simp only [idwtnStep, ey, Py_bind_ok, e]
      rfl
    · intro key hk
      by_cases hkk : key = k
      · subst hkk
        exact ⟨y, by simp [CDict.get], hy⟩
      · obtain ⟨z, hz1, hz2⟩ := hc key (by simpa [hkk] using hk)
        refine ⟨z, ?_, hz2⟩
        unfold CDict.get at hz1 ⊢
        rw [List.lookup_cons]
        simp [beq_false_of_ne hkk, hz1]

theorem idwtnLoop_ok {st : List (Stage R)} {x : Arr M} (hinv : StagesInv st x.shape)
    {S : List ℕ} (hS : S.length = x.shape.length)
    (hSst : ∀ s ∈ st, S.getD s.1 0 = coeffLen s.2.2 (x.shape.getD s.1 0) s.2.1.dec_len)
    {c : CDict M}
    (hc : ∀ k ∈ words st.length, ∃ y, CDict.get c k = some y ∧ y.shape = S ∧
      y.Extends (x.subband st k)) :
    ∃ c' y, idwtnLoop x.shape.length (stagesZ st).reverse c = .ok c' ∧
      c'.lookup [] = some (some y) ∧ y.shape.length = x.shape.length ∧
      (∀ s ∈ st, y.shape.getD s.1 0 = x.shape.getD s.1 0 + x.shape.getD s.1 0 % 2) ∧
      (∀ j, j ∉ st.map (·.1) → y.shape.getD j 0 = S.getD j 0) ∧ y.Extends x := by
  induction st using List.reverseRecOn generalizing S c with
  | nil =>
    obtain ⟨y, h1, h2, h3⟩ := hc [] (by simp [words])
    refine ⟨c, y, rfl, CDict.get_eq_some h1, by rw [h2, hS], fun s hs => by simp at hs,
      fun j _ => by rw [h2], h3⟩
  | append_singleton st s ih =>
    obtain ⟨hn, hall⟩ := hinv
    have hn' : (st.map (·.1)).Nodup ∧ s.1 ∉ st.map (·.1) := by
      rw [List.map_append, List.nodup_append] at hn
      refine ⟨hn.1, fun hmem => hn.2.2 _ hmem s.1 (by simp) rfl⟩
    obtain ⟨a1, a2, a3, a4⟩ := hall s (by simp)
    have hinv' : StagesInv st x.shape := ⟨hn'.1, fun t ht => hall t (by simp [ht])⟩
    have hNx : ∀ k : Key, k.length = st.length →
        (x.subband st k).shape.getD s.1 0 = x.shape.getD s.1 0 := by
      intro k hk
      rw [shape_subband hk]
      exact (decShape_getD hn'.1 fun t ht => (hinv'.2 t ht).1).1 _ hn'.2
    have hlen : ∀ k : Key, k.length = st.length →
        (x.subband st k).shape.length = x.shape.length := by
      intro k hk
      rw [shape_subband hk, decShape_length]
    obtain ⟨c1, e1, hc1⟩ := idwtnStep_ok (w := s.2.1) (mode := s.2.2) (axis := s.1) (c := c)
      (keys := words st.length)
      (P := fun k y => y.shape = S.set s.1 (x.shape.getD s.1 0 + x.shape.getD s.1 0 % 2) ∧
        y.Extends (x.subband st k)) (by
      intro k hk
      obtain ⟨hk1, hk2⟩ := mem_words.mp hk
      obtain ⟨L, l1, l2, l3⟩ := hc (k ++ ['a']) (mem_words.mpr ⟨by simp [hk1], by
        intro c hc
        rcases List.mem_append.mp hc with h | h
        · exact hk2 c h
        · simp at h; simp [h]⟩)
      obtain ⟨H, h1, h2, h3⟩ := hc (k ++ ['d']) (mem_words.mpr ⟨by simp [hk1], by
        intro c hc
        rcases List.mem_append.mp hc with h | h
        · exact hk2 c h
        · simp at h; simp [h]⟩)
      rw [subband_snoc _ _ _ _ hk1] at l3 h3
      rw [l1, h1]
      obtain ⟨y, y1, y2, y3⟩ := idwtAxis_extends (s := s) (x := x.subband st k) (L := L) (H := H)
        (by rw [hlen k hk1]; exact a1) a2 a3 (by rw [hNx k hk1]; exact a4) (by rw [l2, h2])
        (by rw [l2, hNx k hk1]; exact hSst s (by simp)) l3 h3
      exact ⟨y, y1, by rw [y2, l2, hNx k hk1], y3⟩)
    obtain ⟨c', y, e, b1, b2, b3, b4, b5⟩ := ih hinv'
      (S := S.set s.1 (x.shape.getD s.1 0 + x.shape.getD s.1 0 % 2)) (by simp [hS]) (by
        intro t ht
        rw [getD_set (by omega), if_neg, hSst t (by simp [ht])]
        intro h
        exact hn'.2 (h ▸ List.mem_map_of_mem ht)) hc1
    refine ⟨c', y, ?_, b1, b2, ?_, ?_, b5⟩
    · have : (stagesZ (st ++ [s])).reverse = ((s.1 : ℤ), s.2.1, s.2.2) :: (stagesZ st).reverse := by
        simp [stagesZ]
      rw [this]
      have e0 : ¬ ((s.1 : ℤ) < 0 ∨ (s.1 : ℤ) ≥ (x.shape.length : ℤ)) := by omega
      simp only [idwtnLoop, if_neg e0, Int.toNat_natCast]
      have hl2 : ((stagesZ st).reverse).length = st.length := by simp [stagesZ]
      rw [hl2, e1]
      exact e
    · intro t ht
      rcases List.mem_append.mp ht with h | h
      · exact b3 t h
      · simp only [List.mem_singleton] at h
        subst h
        rw [b4 _ hn'.2, getD_set (by omega), if_pos rfl]
    · intro j hj
      simp only [List.map_append, List.mem_append, List.map_cons, List.map_nil, List.mem_singleton,
        not_or] at hj
      rw [b4 j hj.1, getD_set (by omega), if_neg hj.2]

end Pywt
