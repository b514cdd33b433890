import Verif.Proof.Nest
import Verif.Spec.SynthN
import Verif.Spec.Swt
import Mathlib.Tactic.LinearCombination
import Mathlib.Tactic.Linarith
import Mathlib.Tactic.Positivity

/-! The value of `idwtn` on arbitrary coefficients. -/

namespace Pywt

open Finset Spec

set_option linter.unusedSectionVars false

variable {R M : Type} [Ring R] [AddCommGroup M] [Module R M]

/-- Sample `p` of the extension of `n` coefficients that synthesis uses. -/
def coefExt (mode : Mode) (n : ℕ) (v : ℕ → M) (p : ℤ) : M :=
  if mode = .periodization then v (p % n).toNat
  else if 0 ≤ p ∧ p < n then v p.toNat else 0

/-- The offset of the first kept position. -/
def synOff (mode : Mode) (F : ℕ) : ℤ :=
  if mode = .periodization then ((F / 2 : ℕ) : ℤ) - 1 else (F : ℤ) - 2

/-- `synthesis1` as an operation on functions. -/
def synT (mode : Mode) (f : List R) (n : ℕ) : (ℕ → M) →+ (ℕ → M) where
  toFun v := fun i => conv f (upsample (coefExt mode n v)) ((i : ℤ) + synOff mode f.length)
  map_zero' := by
    funext i
    simp [conv, upsample, coefExt]
  map_add' u v := by
    funext i
    simp only [conv, Pi.add_apply]
    rw [← sum_add_distrib]
    apply sum_congr rfl
    intro j _
    rw [← smul_add]
    congr 1
    unfold upsample coefExt
    split_ifs <;> simp

theorem synT_apply (mode : Mode) (f : List R) (n : ℕ) (v : ℕ → M) (i : ℕ) :
    synT mode f n v i = conv f (upsample (coefExt mode n v)) ((i : ℤ) + synOff mode f.length) := rfl

theorem synT_local {mode : Mode} {f : List R} {n : ℕ} (hn : mode = .periodization → 1 ≤ n) :
    LocalOp n (synT mode f n : (ℕ → M) →+ (ℕ → M)) := by
  intro u v huv
  funext i
  rw [synT_apply, synT_apply]
  congr 1
  funext p
  unfold upsample coefExt
  split
  · split
    · next h =>
      have := hn h
      have h0 := Int.emod_nonneg (p / 2) (show (n : ℤ) ≠ 0 by omega)
      have h1 := Int.emod_lt_of_pos (p / 2) (show (0 : ℤ) < n by omega)
      exact huv _ (by omega)
    · split
      · next h => exact huv _ (by omega)
      · rfl
  · rfl

theorem coefExt_eq {mode : Mode} {n : ℕ} (hn : mode = .periodization → 1 ≤ n) (v : ℕ → M) :
    coefExt mode n v =
      Spec.ext (if mode = .periodization then .periodic else .zero) ((List.range n).map v) := by
  funext p
  unfold coefExt
  by_cases h : mode = .periodization
  · have := hn h
    have h0 := Int.emod_nonneg p (show (n : ℤ) ≠ 0 by omega)
    have h1 := Int.emod_lt_of_pos p (show (0 : ℤ) < n by omega)
    rw [if_pos h, if_pos h]
    simp only [Spec.ext, List.length_map, List.length_range, at']
    rw [List.getD_eq_getElem (hn := by simp; omega)]
    simp
  · rw [if_neg h, if_neg h]
    simp only [Spec.ext, List.length_map, List.length_range, at']
    split
    · next hp =>
      rw [List.getD_eq_getElem (hn := by simp; omega)]
      simp
    · rfl

theorem synthesis1_length (mode : Mode) (f : List R) (a : List M) :
    (synthesis1 mode f a).length = synthLen mode a.length f.length := by
  cases mode <;> simp [synthesis1, synthLen]

theorem synthesis1_getD {mode : Mode} {f : List R} {n : ℕ} (hn : mode = .periodization → 1 ≤ n)
    (v : ℕ → M) {i : ℕ} (hi : i < synthLen mode n f.length) :
    (synthesis1 mode f ((List.range n).map v)).getD i 0 = synT mode f n v i := by
  rw [synT_apply, coefExt_eq hn, List.getD_eq_getElem (hn := by
    rw [synthesis1_length]; simpa using hi)]
  cases mode <;> simp [synthesis1, synOff]

theorem synthesis_getD {mode : Mode} {lo hi : List R} {n : ℕ} (hlen : hi.length = lo.length)
    (hn : mode = .periodization → 1 ≤ n) (u v : ℕ → M) {i : ℕ} (hi' : i < synthLen mode n lo.length) :
    (synthesis mode lo hi ((List.range n).map u) ((List.range n).map v)).getD i 0 =
      synT mode lo n u i + synT mode hi n v i := by
  rw [synT_apply, synT_apply, coefExt_eq hn, coefExt_eq hn, hlen]
  have hl : (synthesis mode lo hi ((List.range n).map u) ((List.range n).map v)).length =
      synthLen mode n lo.length := by
    cases mode <;> simp [synthesis, synthLen]
  rw [List.getD_eq_getElem (hn := by rw [hl]; exact hi')]
  cases mode <;> simp [synthesis, synOff]

theorem recFilter_length {w : Wavelet R} (hw : w.Ok) (c : Char) :
    (w.recFilter c).length = w.rec_len := by
  unfold Wavelet.recFilter
  obtain ⟨h1, h2, h3, h4, h5⟩ := hw
  split
  · rfl
  · unfold Wavelet.rec_len; omega

/-- The operations of one subband. -/
def synOps (st : List (Stage R)) (k : Key) (S : List ℕ) : List (ℕ × ((ℕ → M) →+ (ℕ → M))) :=
  List.zipWith (fun s c => (s.1, synT s.2.2 (s.2.1.recFilter c) (S.getD s.1 0))) st k

theorem synOps_axes {st : List (Stage R)} {k : Key} (h : k.length = st.length) (S : List ℕ) :
    (synOps (M := M) st k S).map (·.1) = st.map (·.1) := by
  unfold synOps
  induction st generalizing k with
  | nil => rfl
  | cons s st ih =>
    cases k with
    | nil => simp at h
    | cons c k => simp only [List.zipWith_cons_cons, List.map_cons]; rw [ih (by simpa using h)]

theorem per_pos {mode : Mode} {n F : ℕ} (h : 1 ≤ synthLen mode n F) : mode = .periodization → 1 ≤ n := by
  intro hm
  unfold synthLen at h
  rw [if_pos hm] at h
  omega

theorem synOps_local {st : List (Stage R)} {S : List ℕ} (hst : SynthFits st S) (k : Key) :
    ∀ p ∈ synOps (M := M) st k S, LocalOp (S.getD p.1 0) p.2 := by
  intro p hp
  unfold synOps at hp
  rw [List.mem_iff_getElem] at hp
  obtain ⟨i, hi, rfl⟩ := hp
  rw [List.getElem_zipWith]
  have := hst.2 (st[i]'(by simp at hi; omega)) (List.getElem_mem _)
  exact synT_local (per_pos this.2.2)

theorem synthShape_length (st : List (Stage R)) (S : List ℕ) : (synthShape st S).length = S.length := by
  unfold synthShape
  have : ∀ (T : List ℕ), (st.foldr (fun s sh => sh.set s.1
      (synthLen s.2.2 (S.getD s.1 0) s.2.1.rec_len)) T).length = T.length := by
    intro T
    induction st with
    | nil => rfl
    | cons s st ih => rw [List.foldr_cons, List.length_set, ih]
  exact this S

theorem synthShape_cons (s : Stage R) (st : List (Stage R)) (S : List ℕ) :
    synthShape (s :: st) S = (synthShape st S).set s.1 (synthLen s.2.2 (S.getD s.1 0) s.2.1.rec_len) := rfl

theorem synthShape_ne {st : List (Stage R)} {j : ℕ} (hj : j ∉ st.map (·.1)) (S : List ℕ) :
    (synthShape st S).getD j 0 = S.getD j 0 := by
  induction st with
  | nil => rfl
  | cons s st ih =>
    simp only [List.map_cons, List.mem_cons, not_or] at hj
    rw [synthShape_cons, List.getD_eq_getElem?_getD, List.getElem?_set_ne (Ne.symm hj.1),
      ← List.getD_eq_getElem?_getD, ih hj.2]

theorem synthShape_eq {st : List (Stage R)} (hn : (st.map (·.1)).Nodup) {s : Stage R} (hs : s ∈ st)
    {S : List ℕ} (hb : s.1 < S.length) :
    (synthShape st S).getD s.1 0 = synthLen s.2.2 (S.getD s.1 0) s.2.1.rec_len := by
  induction st with
  | nil => simp at hs
  | cons t st ih =>
    simp only [List.map_cons, List.nodup_cons] at hn
    rw [synthShape_cons]
    by_cases h : s.1 = t.1
    · rcases List.mem_cons.mp hs with rfl | hs
      · rw [getD_set (by rw [synthShape_length]; exact hb), if_pos rfl]
      · exact absurd (h ▸ List.mem_map_of_mem hs) hn.1
    · rcases List.mem_cons.mp hs with rfl | hs
      · exact absurd rfl h
      · rw [List.getD_eq_getElem?_getD, List.getElem?_set_ne (Ne.symm h),
          ← List.getD_eq_getElem?_getD, ih hn.2 hs]

theorem list_ext_getD {a b : List ℕ} (hl : a.length = b.length)
    (h : ∀ j < a.length, a.getD j 0 = b.getD j 0) : a = b := by
  apply List.ext_getElem hl
  intro i h1 h2
  have := h i h1
  rwa [List.getD_eq_getElem (hn := h1), List.getD_eq_getElem (hn := h2)] at this

theorem synthShape_snoc {st : List (Stage R)} {s : Stage R} (hn : ((st ++ [s]).map (·.1)).Nodup)
    {S : List ℕ} :
    synthShape (st ++ [s]) S =
      synthShape st (S.set s.1 (synthLen s.2.2 (S.getD s.1 0) s.2.1.rec_len)) := by
  induction st with
  | nil => rfl
  | cons t st ih =>
    simp only [List.cons_append, List.map_cons, List.nodup_cons, List.map_append, List.mem_append,
      List.mem_singleton, List.map_nil, not_or] at hn
    rw [List.cons_append, synthShape_cons, ih (by simpa using hn.2), synthShape_cons]
    congr 2
    rw [List.getD_eq_getElem?_getD, List.getD_eq_getElem?_getD,
      List.getElem?_set_ne (Ne.symm hn.1.2)]

theorem SynthFits.init {st : List (Stage R)} {s : Stage R} {S : List ℕ}
    (h : SynthFits (st ++ [s]) S) (n : ℕ) : SynthFits st (S.set s.1 n) := by
  obtain ⟨hn, hall⟩ := h
  rw [List.map_append, List.nodup_append] at hn
  refine ⟨hn.1, fun t ht => ?_⟩
  obtain ⟨h1, h2, h3⟩ := hall t (by simp [ht])
  refine ⟨by simpa using h1, h2, ?_⟩
  rw [List.getD_eq_getElem?_getD, List.getElem?_set_ne, ← List.getD_eq_getElem?_getD]
  · exact h3
  · intro h
    exact hn.2.2 t.1 (List.mem_map_of_mem ht) s.1 (by simp) h.symm

theorem Arr.along2_synthesis {s : Stage R} {a d : Arr M} (hw : s.2.1.Ok) (hs : d.shape = a.shape)
    (ha : s.1 < a.shape.length) (hlen : 1 ≤ synthLen s.2.2 (a.shape.getD s.1 0) s.2.1.rec_len)
    {idx : ℕ → ℕ} (hidx : InB (a.shape.set s.1 (synthLen s.2.2 (a.shape.getD s.1 0) s.2.1.rec_len)) idx) :
    (Arr.along2 s.1 (synthLen s.2.2 (a.shape.getD s.1 0) s.2.1.rec_len)
        (synthesis s.2.2 s.2.1.rec_lo s.2.1.rec_hi) a d).get idx =
      liftAx s.1 (synT s.2.2 (s.2.1.recFilter 'a') (a.shape.getD s.1 0)) a.get idx +
      liftAx s.1 (synT s.2.2 (s.2.1.recFilter 'd') (a.shape.getD s.1 0)) d.get idx := by
  have h2 := recFilter_length hw 'd'
  rw [Arr.along2_get hs ha hidx]
  unfold Arr.line
  rw [hs, synthesis_getD (by simpa [Wavelet.recFilter, Wavelet.rec_len] using h2) (per_pos hlen)]
  · rfl
  · exact ((inB_set ha).mp hidx).1

theorem idwtnLoop_nest {st : List (Stage R)} {S : List ℕ} (hst : SynthFits st S) {c : CDict M}
    {f : Key → Arr M}
    (hc : ∀ k ∈ words st.length, CDict.get c k = some (f k) ∧ (f k).shape = S) :
    ∃ c' y, idwtnLoop S.length (stagesZ st).reverse c = .ok c' ∧ c'.lookup [] = some (some y) ∧
      y.shape = synthShape st S ∧ ∀ idx, InB y.shape idx →
        y.get idx = ((words st.length).map fun k => nest (synOps st k S) (f k).get idx).sum := by
  induction st using List.reverseRecOn generalizing S c f with
  | nil =>
    obtain ⟨h1, h2⟩ := hc [] (by simp [words])
    refine ⟨c, f [], rfl, CDict.get_eq_some h1, h2, fun idx _ => ?_⟩
    simp [words, synOps, nest]
  | append_singleton st s ih =>
    have hfit := hst
    obtain ⟨hn, hall⟩ := hst
    obtain ⟨a1, a2, a3⟩ := hall s (by simp)
    set L := synthLen s.2.2 (S.getD s.1 0) s.2.1.rec_len with hL
    have hmem : ∀ k ∈ words st.length, k ++ ['a'] ∈ words (st ++ [s]).length ∧
        k ++ ['d'] ∈ words (st ++ [s]).length := by
      intro k hk
      rw [List.length_append]
      exact ⟨mem_words_snoc hk (by simp), mem_words_snoc hk (by simp)⟩
    let g : Key → Arr M := fun k => Arr.along2 s.1 L (synthesis s.2.2 s.2.1.rec_lo s.2.1.rec_hi)
      (f (k ++ ['a'])) (f (k ++ ['d']))
    have hstep : idwtnStep s.1 s.2.1 s.2.2 c (words st.length) =
        .ok ((words st.length).map fun k => (k, some (g k))) := by
      apply idwtnStep_get
      intro k hk
      obtain ⟨m1, m2⟩ := hmem k hk
      obtain ⟨b1, b2⟩ := hc _ m1
      obtain ⟨d1, d2⟩ := hc _ m2
      rw [b1, d1, idwtAxis_ok a2 (by rw [b2, d2]) (by rw [b2]; exact a1) (by rw [b2]; exact a3), b2]
    have hgs : ∀ k ∈ words st.length, (g k).shape = S.set s.1 L := by
      intro k hk
      simp only [g, Arr.along2, Arr.shape_ofFn, (hc _ (hmem k hk).1).2]
    obtain ⟨c', y, e1, e2, e3, e4⟩ := ih (hfit.init L)
      (c := (words st.length).map fun k => (k, some (g k))) (f := g) (by
        intro k hk
        refine ⟨?_, hgs k hk⟩
        unfold CDict.get
        rw [lookup_map hk]
        rfl)
    refine ⟨c', y, ?_, e2, by rw [e3, synthShape_snoc hn], ?_⟩
    · have : (stagesZ (st ++ [s])).reverse = ((s.1 : ℤ), s.2.1, s.2.2) :: (stagesZ st).reverse := by
        simp [stagesZ]
      rw [this]
      have e0 : ¬ ((s.1 : ℤ) < 0 ∨ (s.1 : ℤ) ≥ (S.length : ℤ)) := by omega
      simp only [idwtnLoop, if_neg e0, Int.toNat_natCast]
      have hl2 : ((stagesZ st).reverse).length = st.length := by simp [stagesZ]
      rw [hl2, hstep]
      rw [List.length_set] at e1
      exact e1
    · intro idx hidx
      have hidx0 := hidx
      rw [e3] at hidx
      rw [e4 idx hidx0, List.length_append, List.length_singleton, words_succ_snoc, List.map_flatMap,
        sum_flatMap_map]
      congr 1
      apply List.map_congr_left
      intro k hk
      have hkl := (mem_words.mp hk).1
      obtain ⟨m1, m2⟩ := hmem k hk
      have hna : s.1 ∉ st.map (·.1) := by
        rw [List.map_append, List.nodup_append] at hn
        intro h
        exact hn.2.2 _ h s.1 (by simp) rfl
      have hops : synOps (M := M) st k (S.set s.1 L) = synOps st k S := by
        unfold synOps
        have : ∀ (st' : List (Stage R)) (k : Key), s.1 ∉ st'.map (·.1) →
            List.zipWith (fun (t : Stage R) (c : Char) =>
              (t.1, (synT t.2.2 (t.2.1.recFilter c) ((S.set s.1 L).getD t.1 0) : (ℕ → M) →+ (ℕ → M)))) st' k =
            List.zipWith (fun (t : Stage R) (c : Char) =>
              (t.1, (synT t.2.2 (t.2.1.recFilter c) (S.getD t.1 0) : (ℕ → M) →+ (ℕ → M)))) st' k := by
          intro st'
          induction st' with
          | nil => intro k _; rfl
          | cons t st' ih' =>
            intro k h
            simp only [List.map_cons, List.mem_cons, not_or] at h
            cases k with
            | nil => rfl
            | cons c k =>
              simp only [List.zipWith_cons_cons]
              rw [ih' k h.2, List.getD_eq_getElem?_getD, List.getElem?_set_ne h.1,
                ← List.getD_eq_getElem?_getD]
        exact this st k hna
      have hsnoc : ∀ c : Char, synOps (M := M) (st ++ [s]) (k ++ [c]) S =
          synOps st k S ++ [(s.1, synT s.2.2 (s.2.1.recFilter c) (S.getD s.1 0))] := by
        intro c
        unfold synOps
        rw [List.zipWith_append (by omega)]
        rfl
      rw [hops]
      simp only [List.map_cons, List.map_nil, List.sum_cons, List.sum_nil, add_zero]
      rw [hsnoc, hsnoc, nest_append, nest_append, ← Pi.add_apply, ← nest_apply_add]
      have hlen : (S.set s.1 L).length = S.length := by simp
      refine nest_congr S.length (fun j => (S.set s.1 L).getD j 0) _ ?_ ?_ idx ?_
      · rw [← hops]
        exact synOps_local (hfit.init L) k
      · intro idx' hidx'
        have hin : InB (S.set s.1 L) idx' := fun j hj => hidx' j (by simpa using hj)
        have := Arr.along2_synthesis (s := s) (a := f (k ++ ['a'])) (d := f (k ++ ['d'])) a2
          (by rw [(hc _ m1).2, (hc _ m2).2]) (by rw [(hc _ m1).2]; exact a1)
          (by rw [(hc _ m1).2]; exact a3) (idx := idx') (by rw [(hc _ m1).2]; exact hin)
        rw [(hc _ m1).2] at this
        exact this
      · intro j hj hja
        rw [synOps_axes hkl] at hja
        have := hidx j (by rw [synthShape_length]; simpa using hj)
        rwa [synthShape_ne hja] at this

/-- A missing or `None` entry of the dict counts as an array of zeros. -/
theorem idwtn_missing_is_zero {c : CDict M} {wavelet : PerAxis (Wavelet R)}
    {mode : PerAxis Mode} {axes : Option (List ℤ)} {st : List (Stage R)} {S : List ℕ}
    (hn : (c.map (·.1)).Nodup)
    (hk : ∀ k v, (k, some v) ∈ c → k ∈ words st.length ∧ v.shape = S)
    (hne : ∃ k v, (k, some v) ∈ c)
    (hr : Resolves S.length wavelet mode axes st) (hst : SynthOk st.reverse S) :
    ∃ y, idwtn c wavelet mode axes = .ok (some y) ∧
      idwtn ((words st.length).map fun k => (k, some ((CDict.get c k).getD (Arr.zero S))))
        wavelet mode axes = .ok (some y) := by
  have hk' : ∀ p ∈ dropNone c, p.1 ∈ words st.length ∧ p.2.shape = S :=
    fun p hp => hk p.1 p.2 (mem_dropNone.mp hp)
  obtain ⟨k1, v1, hkv⟩ := hne
  have hmem : (k1, v1) ∈ dropNone c := mem_dropNone.mpr hkv
  have hget : ∀ k, CDict.get c k = none ∨
      ∃ y, CDict.get c k = some y ∧ (k, some y) ∈ c := by
    intro k
    cases hg : CDict.get c k with
    | none => exact Or.inl rfl
    | some y =>
      refine Or.inr ⟨y, rfl, ?_⟩
      have := CDict.get_eq_some hg
      rw [List.lookup_eq_some_iff] at this
      obtain ⟨l1, l2, h, -⟩ := this
      rw [h]; simp
  have hshape : ∀ k ∈ words st.length, ((CDict.get c k).getD (Arr.zero S)).shape = S := by
    intro k _
    rcases hget k with h | ⟨y, h, hy⟩
    · rw [h]; rfl
    · rw [h]; exact (hk k y hy).2
  obtain ⟨e, e', y, e1, e2, e3, e4⟩ := idwtnLoop_zeroFill hst
    (c := (dropNone c).map fun p => (p.1, some p.2))
    (c' := (words st.length).map fun k => (k, some ((CDict.get c k).getD (Arr.zero S))))
    (by
      refine ⟨?_, k1, (hk k1 v1 hkv).1, ?_⟩
      · intro k hkw
        rw [lookup_dropNone hn]
        have h2 : CDict.get ((words st.length).map fun k =>
            (k, some ((CDict.get c k).getD (Arr.zero S)))) k =
            some ((CDict.get c k).getD (Arr.zero S)) := by
          conv_lhs => unfold CDict.get
          rw [lookup_map hkw]; rfl
        rw [h2]
        rcases hget k with h | ⟨y, h, hy⟩
        · right; rw [h]; exact ⟨rfl, rfl⟩
        · left; rw [h]; exact ⟨y, rfl, rfl, (hk k y hy).2⟩
      · rw [lookup_dropNone hn]
        intro hnone
        unfold CDict.get at hnone
        have : c.lookup k1 = some (some v1) := by
          have hh : ∀ (c : CDict M), (c.map (·.1)).Nodup → (k1, some v1) ∈ c →
              c.lookup k1 = some (some v1) := by
            intro c
            induction c with
            | nil => intro _ h; simp at h
            | cons p c ih =>
              intro hn hm
              simp only [List.map_cons, List.nodup_cons] at hn
              rcases List.mem_cons.mp hm with rfl | hm
              · simp
              · rw [List.lookup_cons, beq_false_of_ne, ih hn.2 hm]
                intro h
                exact hn.1 (h ▸ List.mem_map_of_mem hm)
          exact hh c hn hkv
        rw [this] at hnone
        simp at hnone)
  refine ⟨y, ?_, ?_⟩
  · rw [idwtn_some hk' (List.ne_nil_of_mem hmem) hr, e1]
    simp only [Py_bind_ok, lookupKey, e3]
  · rw [idwtn_full hshape hr, e2]
    simp only [Py_bind_ok, lookupKey, e4]

/-- The contribution of one subband, element by element. -/
theorem Arr.resynth_get {st : List (Stage R)} {S : List ℕ} (hst : SynthFits st S) {k : Key}
    (hk : k.length = st.length) {x : Arr M} (hx : x.shape = S) :
    (x.resynth st k).shape = synthShape st S ∧ ∀ idx, InB (synthShape st S) idx →
      (x.resynth st k).get idx = nest (synOps st k S) x.get idx := by
  induction st generalizing k with
  | nil =>
    cases k with
    | nil => exact ⟨hx, fun _ _ => rfl⟩
    | cons c k => simp at hk
  | cons s st ih =>
    cases k with
    | nil => simp at hk
    | cons c k =>
      obtain ⟨hn, hall⟩ := hst
      simp only [List.map_cons, List.nodup_cons] at hn
      obtain ⟨a1, a2, a3⟩ := hall s (by simp)
      obtain ⟨i1, i2⟩ := ih ⟨hn.2, fun t ht => hall t (by simp [ht])⟩ (k := k) (by simpa using hk)
      have hax : s.1 < (x.resynth st k).shape.length := by rw [i1, synthShape_length]; exact a1
      have hn1 : (x.resynth st k).shape.getD s.1 0 = S.getD s.1 0 := by
        rw [i1, synthShape_ne hn.1]
      refine ⟨by simp only [Arr.resynth, Arr.shape_along, i1, hx]; rfl, ?_⟩
      intro idx hidx
      rw [synthShape_cons] at hidx
      simp only [Arr.resynth]
      rw [Arr.along_get hax (by rw [i1, hx]; exact hidx)]
      have hidx' := (inB_set (by rw [synthShape_length]; exact a1)).mp hidx
      unfold Arr.line
      rw [hn1, synthesis1_getD (per_pos a3) _ (by rw [recFilter_length a2]; exact hidx'.1)]
      simp only [synOps, List.zipWith_cons_cons, nest_cons]
      rw [liftAx_apply]
      refine congrFun (synT_local (per_pos a3) _ _ fun j hj => ?_) _
      apply i2
      intro q hq
      by_cases hqs : q = s.1
      · subst hqs
        rw [Function.update_self, synthShape_ne hn.1]
        exact hj
      · rw [Function.update_of_ne hqs]
        exact hidx'.2 q hq hqs

theorem SynthFits.synthOk {st : List (Stage R)} : ∀ {S : List ℕ}, SynthFits st S →
    SynthOk st.reverse S := by
  induction st using List.reverseRecOn with
  | nil => intro S _; exact trivial
  | append_singleton st s ih =>
    intro S h
    rw [List.reverse_append, List.reverse_singleton, List.singleton_append]
    obtain ⟨h1, h2, h3⟩ := h.2 s (by simp)
    exact ⟨h1, h2, h3, ih (h.init _)⟩

/-- The value of `idwtn` when every subband is present. -/
theorem idwtn_nest {wavelet : PerAxis (Wavelet R)} {mode : PerAxis Mode} {axes : Option (List ℤ)}
    {st : List (Stage R)} {S : List ℕ} {f : Key → Arr M}
    (hS : ∀ k ∈ words st.length, (f k).shape = S) (hr : Resolves S.length wavelet mode axes st)
    (hst : SynthFits st S) :
    ∃ y, idwtn ((words st.length).map fun k => (k, some (f k))) wavelet mode axes = .ok (some y) ∧
      y.shape = synthShape st S ∧ ∀ idx, InB y.shape idx → y.get idx =
        ((words st.length).map fun k => nest (synOps st k S) (f k).get idx).sum := by
  obtain ⟨c', y, e1, e2, e3, e4⟩ := idwtnLoop_nest hst
    (c := (words st.length).map fun k => (k, some (f k))) (f := f) (by
      intro k hk
      refine ⟨?_, hS k hk⟩
      unfold CDict.get
      rw [lookup_map hk]; rfl)
  refine ⟨y, ?_, e3, e4⟩
  rw [idwtn_full hS hr, e1]
  simp only [Py_bind_ok, lookupKey, e2]

theorem CDict.getD_shape {c : CDict M} {S : List ℕ} {n : ℕ}
    (hk : ∀ k v, (k, some v) ∈ c → k ∈ words n ∧ v.shape = S) (k : Key) :
    ((CDict.get c k).getD (Arr.zero S)).shape = S := by
  cases hg : CDict.get c k with
  | none => rfl
  | some y =>
    have := CDict.get_eq_some hg
    rw [List.lookup_eq_some_iff] at this
    obtain ⟨l1, l2, h, -⟩ := this
    exact (hk k y (by rw [h]; simp)).2

theorem idwtn_values_nest {c : CDict M} {wavelet : PerAxis (Wavelet R)}
    {mode : PerAxis Mode} {axes : Option (List ℤ)} {st : List (Stage R)} {S : List ℕ}
    (hn : (c.map (·.1)).Nodup)
    (hk : ∀ k v, (k, some v) ∈ c → k ∈ words st.length ∧ v.shape = S)
    (hne : ∃ k v, (k, some v) ∈ c)
    (hr : Resolves S.length wavelet mode axes st) (hst : SynthFits st S) :
    ∃ y, idwtn c wavelet mode axes = .ok (some y) ∧ y.shape = synthShape st S ∧
      ∀ idx, InB y.shape idx → y.get idx =
        ((words st.length).map fun k =>
          nest (synOps st k S) ((CDict.get c k).getD (Arr.zero S)).get idx).sum := by
  obtain ⟨y, h1, h2⟩ := idwtn_missing_is_zero hn hk hne hr hst.synthOk
  obtain ⟨z, e1, e2, e3⟩ := idwtn_nest (f := fun k => (CDict.get c k).getD (Arr.zero S))
    (fun k _ => CDict.getD_shape hk k) hr hst
  rw [h2] at e1
  simp only [Except.ok.injEq, Option.some.injEq] at e1
  subst e1
  exact ⟨y, h1, e2, e3⟩

theorem idwtn_values {c : CDict M} {wavelet : PerAxis (Wavelet R)}
    {mode : PerAxis Mode} {axes : Option (List ℤ)} {st : List (Stage R)} {S : List ℕ}
    (hn : (c.map (·.1)).Nodup)
    (hk : ∀ k v, (k, some v) ∈ c → k ∈ words st.length ∧ v.shape = S)
    (hne : ∃ k v, (k, some v) ∈ c)
    (hr : Resolves S.length wavelet mode axes st) (hst : SynthFits st S) :
    ∃ y, idwtn c wavelet mode axes = .ok (some y) ∧ y.shape = synthShape st S ∧
      ∀ idx, InB y.shape idx → y.get idx =
        ((words st.length).map fun k =>
          (((CDict.get c k).getD (Arr.zero S)).resynth st k).get idx).sum := by
  obtain ⟨y, e1, e2, e3⟩ := idwtn_values_nest hn hk hne hr hst
  refine ⟨y, e1, e2, fun idx hidx => ?_⟩
  rw [e3 idx hidx]
  congr 1
  apply List.map_congr_left
  intro k hkw
  rw [(Arr.resynth_get hst (mem_words.mp hkw).1 (CDict.getD_shape hk k)).2 idx (by rw [← e2]; exact hidx)]

/-! ### Periodization on one residue class -/

/-- `atrousInv` as an operation on functions. -/
def ainv (f : List R) (s N : ℕ) : (ℕ → M) →+ (ℕ → M) where
  toFun u := fun p => ∑ l ∈ range f.length,
    f.getD l 0 • u (((p : ℤ) + s * (((f.length / 2 : ℕ) : ℤ) - 1 - l)) % N).toNat
  map_zero' := by funext p; simp
  map_add' u v := by
    funext p
    simp only [Pi.add_apply, smul_add, sum_add_distrib]

theorem ainv_apply (f : List R) (s N : ℕ) (u : ℕ → M) (p : ℕ) :
    ainv f s N u p = ∑ l ∈ range f.length,
      f.getD l 0 • u (((p : ℤ) + s * (((f.length / 2 : ℕ) : ℤ) - 1 - l)) % N).toNat := rfl

theorem ainv_local {f : List R} {s N : ℕ} (hN : 1 ≤ N) :
    LocalOp N (ainv f s N : (ℕ → M) →+ (ℕ → M)) := by
  intro u v h
  funext p
  rw [ainv_apply, ainv_apply]
  apply sum_congr rfl
  intro l _
  have h0 := Int.emod_nonneg ((p : ℤ) + s * (((f.length / 2 : ℕ) : ℤ) - 1 - l)) (show (N : ℤ) ≠ 0 by omega)
  have h1 := Int.emod_lt_of_pos ((p : ℤ) + s * (((f.length / 2 : ℕ) : ℤ) - 1 - l)) (show (0 : ℤ) < N by omega)
  rw [h _ (by omega)]

theorem lattice_emod {r s n : ℕ} (hr : r < s) (hn : 1 ≤ n) (q : ℤ) :
    ((r : ℤ) + s * q) % ((s * (2 * n) : ℕ) : ℤ) = r + s * (q % (2 * n)) := by
  have h0 := Int.emod_nonneg q (show (2 * (n : ℤ)) ≠ 0 by omega)
  have h1 := Int.emod_lt_of_pos q (show (0 : ℤ) < 2 * n by omega)
  have h2 := Int.mul_ediv_add_emod q (2 * n)
  have e : (r : ℤ) + s * q = (r + s * (q % (2 * n))) + ((s * (2 * n) : ℕ) : ℤ) * (q / (2 * n)) := by
    push_cast
    linear_combination (s : ℤ) * (-h2)
  rw [e, Int.add_mul_emod_self_left]
  apply Int.emod_eq_of_lt
  · positivity
  · have : (s : ℤ) * (q % (2 * n)) + s ≤ s * (2 * n) := by
      have : (s : ℤ) * (q % (2 * n) + 1) ≤ s * (2 * n) :=
        mul_le_mul_of_nonneg_left (by omega) (by omega)
      linarith
    push_cast
    have : (r : ℤ) < s := by exact_mod_cast hr
    linarith

theorem two_phase {f : List R} {r s n : ℕ} (hr : r < s) (hn : 1 ≤ n) (u : ℕ → M) (i : ℕ) :
    synT .periodization f n (fun k => u (r + 2 * s * k)) i +
      synT .periodization f n (fun k => u (r + s + 2 * s * k)) ((i + 2 * n - 1) % (2 * n)) =
      ainv f s (s * (2 * n)) u (r + s * i) := by
  rw [synT_apply, synT_apply, ainv_apply]
  unfold conv upsample coefExt synOff
  simp only [if_true]
  rw [← sum_add_distrib]
  apply sum_congr rfl
  intro l _
  rw [← smul_add]
  congr 1
  set c : ℤ := ((f.length / 2 : ℕ) : ℤ) - 1 with hc
  set q : ℤ := (i : ℤ) + c - l with hq
  have hi' : (((i + 2 * n - 1) % (2 * n) : ℕ) : ℤ) = ((i : ℤ) - 1) % (2 * n) := by
    push_cast [show i + 2 * n - 1 = i + (2 * n - 1) by omega]
    rw [show (2 * n - 1 : ℕ) = (2 * n : ℕ) - 1 by rfl, Nat.cast_sub (by omega)]
    push_cast
    rw [show (i : ℤ) + (2 * n - 1) = (i - 1) + 2 * n by ring, Int.add_emod_right]
  rw [hi']
  set t : ℤ := ((i : ℤ) - 1) / (2 * n) with ht
  have hdiv := Int.mul_ediv_add_emod ((i : ℤ) - 1) (2 * n)
  have hq' : ((i : ℤ) - 1) % (2 * n) + c - l = q - 1 - 2 * n * t := by
    rw [hq]; linear_combination hdiv
  rw [hq']
  have hnt : (n : ℤ) * t = n * t := rfl
  have h2nt : 2 * (n : ℤ) * t = 2 * (n * t) := by ring
  rw [h2nt]
  have hpos : ((r + s * i : ℕ) : ℤ) + s * (c - l) = r + s * q := by rw [hq]; push_cast; ring
  rw [hpos, lattice_emod hr hn]
  have hmod0 := Int.emod_nonneg q (show (2 * (n : ℤ)) ≠ 0 by omega)
  clear_value q
  rcases Int.emod_two_eq_zero_or_one q with h | h
  · rw [if_pos h, if_neg (by omega), add_zero]
    congr 1
    obtain ⟨z, rfl⟩ : ∃ z, q = 2 * z := ⟨q / 2, by omega⟩
    rw [Int.mul_emod_mul_of_pos _ _ (by norm_num), Int.mul_ediv_cancel_left _ (by norm_num)]
    have := Int.emod_nonneg z (show (n : ℤ) ≠ 0 by omega)
    obtain ⟨y, hy⟩ : ∃ y : ℕ, z % n = y := ⟨(z % n).toNat, by omega⟩
    rw [hy]
    have : (r : ℤ) + s * (2 * y) = ((r + 2 * s * y : ℕ) : ℤ) := by push_cast; ring
    rw [this, Int.toNat_natCast, Int.toNat_natCast]
  · rw [if_neg (by omega), if_pos (by omega), zero_add]
    congr 1
    obtain ⟨z, rfl⟩ : ∃ z, q = 2 * z + 1 := ⟨q / 2, by omega⟩
    rw [show (2 * z + 1 - 1 - 2 * (n * t) : ℤ) = 2 * (z - n * t) by ring,
      Int.mul_ediv_cancel_left _ (by norm_num), Int.sub_mul_emod_self_left]
    have h0 := Int.emod_nonneg z (show (n : ℤ) ≠ 0 by omega)
    have h1 := Int.emod_lt_of_pos z (show (0 : ℤ) < n by omega)
    obtain ⟨y, hy⟩ : ∃ y : ℕ, z % n = y := ⟨(z % n).toNat, by omega⟩
    have hz : (2 * z + 1) % (2 * (n : ℤ)) = 2 * y + 1 := by
      have := Int.mul_ediv_add_emod z n
      rw [show 2 * z + 1 = (2 * (z % n) + 1) + (2 * n) * (z / n) by linear_combination (2 : ℤ) * (-this),
        Int.add_mul_emod_self_left, hy, Int.emod_eq_of_lt (by omega) (by omega)]
    rw [hz, hy]
    have : (r : ℤ) + s * (2 * y + 1) = ((r + s + 2 * s * y : ℕ) : ℤ) := by push_cast; ring
    rw [this, Int.toNat_natCast, Int.toNat_natCast]

theorem atrousInv_getD {f : List R} {s N : ℕ} (hN : 1 ≤ N) (v : ℕ → M) {i : ℕ} (hi : i < N) :
    (atrousInv f s ((List.range N).map v)).getD i 0 = ainv f s N v i := by
  rw [List.getD_eq_getElem (hn := by simpa [atrousInv] using hi), ainv_apply]
  simp only [atrousInv, List.getElem_map, List.getElem_range, List.length_map, List.length_range]
  apply sum_congr rfl
  intro l _
  congr 1
  have h0 := Int.emod_nonneg ((i : ℤ) + s * (((f.length / 2 : ℕ) : ℤ) - 1 - l)) (show (N : ℤ) ≠ 0 by omega)
  have h1 := Int.emod_lt_of_pos ((i : ℤ) + s * (((f.length / 2 : ℕ) : ℤ) - 1 - l)) (show (0 : ℤ) < N by omega)
  unfold at'
  rw [List.getD_eq_getElem (hn := by rw [List.length_map, List.length_range]; omega)]
  simp

end Pywt
