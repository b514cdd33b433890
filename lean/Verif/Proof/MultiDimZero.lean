import Verif.Proof.MultiDimTop

/-! Missing coefficients count as zeros in `idwtn`. -/

namespace Pywt

open Finset Spec

set_option linter.unusedSectionVars false

variable {R M : Type} [Ring R] [AddCommGroup M] [Module R M]

theorem Arr.zero_get (S : List ℕ) (idx : ℕ → ℕ) : (Arr.zero S : Arr M).get idx = 0 := by
  unfold Arr.get Arr.zero zeros
  simp only
  by_cases h : ravelIx S idx S.length < S.prod
  · rw [List.getD_eq_getElem (hn := by simpa using h)]; simp
  · rw [List.getD_eq_default _ _ (by simpa using h)]

theorem Arr.zero_line (S : List ℕ) (axis : ℕ) (idx : ℕ → ℕ) :
    (Arr.zero S : Arr M).line axis idx = zeros (S.getD axis 0) := by
  unfold Arr.line zeros
  simp only [Arr.zero_get]
  simp [Arr.zero]

/-- Value of `idwt_axis` for arrays of shape `S`. -/
def idwtVal (w : Wavelet R) (mode : Mode) (axis : ℕ) (S : List ℕ) (a d : Option (Arr M)) : Arr M :=
  Arr.along2 axis (synthLen mode (S.getD axis 0) w.rec_len) (synthesis mode w.rec_lo w.rec_hi)
    (a.getD (Arr.zero S)) (d.getD (Arr.zero S))

theorem idwtAxis_val {w : Wavelet R} (hw : w.Ok) {mode : Mode} {axis : ℕ} {S : List ℕ}
    {a d : Option (Arr M)} (hs : a.isSome ∨ d.isSome) (ha : ∀ m, a = some m → m.shape = S)
    (hd : ∀ m, d = some m → m.shape = S) (hax : axis < S.length)
    (hlen : 1 ≤ synthLen mode (S.getD axis 0) w.rec_len) :
    idwtAxis w mode axis a d = .ok (some (idwtVal w mode axis S a d)) := by
  have hok : ∀ o : Option (Arr M), (∀ m, o = some m → m.shape = S) →
      ∀ m, o.map Arr.toMem = some m → m.Ok ∧ m.info.shape = S := by
    intro o ho m hm
    cases o with
    | none => simp at hm
    | some o =>
      simp only [Option.map_some, Option.some.injEq] at hm
      subst hm
      exact ⟨o.toMem_ok, ho o rfl⟩
  have hline : ∀ (o : Option (Arr M)) idx,
      lineOf (o.map Arr.toMem) (S.getD axis 0) axis idx = (o.getD (Arr.zero S)).line axis idx := by
    intro o idx
    cases o with
    | none => simp only [Option.map_none, lineOf, Option.getD_none, Arr.zero_line]
    | some o => simp only [Option.map_some, lineOf, Option.getD_some, Arr.toMem_line]
  have hsh : (a.getD (Arr.zero S)).shape = S := by
    cases a with
    | none => rfl
    | some a => exact ha a rfl
  unfold idwtAxis
  rw [idwtAxisMem_ok hw (shape := S) (by simpa using hs) (hok a ha) (hok d hd) hax hlen]
  unfold idwtVal Arr.along2
  simp only [hline, hsh]

theorem idwtVal_shape (w : Wavelet R) (mode : Mode) (axis : ℕ) (S : List ℕ) (a d : Option (Arr M))
    (ha : ∀ m, a = some m → m.shape = S) :
    (idwtVal w mode axis S a d).shape =
      S.set axis (synthLen mode (S.getD axis 0) w.rec_len) := by
  cases a with
  | none => rfl
  | some a =>
    simp only [idwtVal, Option.getD_some, Arr.along2, Arr.shape_ofFn]
    rw [ha a rfl]

theorem idwtVal_zero {w : Wavelet R} (hw : w.Ok) {mode : Mode} {axis : ℕ} {S : List ℕ}
    (hax : axis < S.length) :
    idwtVal w mode axis S (none : Option (Arr M)) none =
      Arr.zero (S.set axis (synthLen mode (S.getD axis 0) w.rec_len)) := by
  apply Arr.ext_get (by rfl)
  intro idx hidx
  rw [Arr.zero_get]
  unfold idwtVal
  simp only [Option.getD_none]
  rw [Arr.along2_get (a := Arr.zero S) rfl hax hidx]
  simp only [Arr.zero_line]
  obtain ⟨w1, w2, w3, w4, w5⟩ := hw
  rw [synthesis_eq_upPart (by omega), upPart_zeros, upPart_zeros]
  rw [zipWith_zeros _ _ (by simp)]
  have := at'_zeros (M := M) (synthLen mode (zeros (M := M) (S.getD axis 0)).length w.rec_lo.length)
    (idx axis : ℤ)
  simpa [at'] using this

/-- One dict extends the other by zero arrays. -/
def ZeroFill (S : List ℕ) (n : ℕ) (c c' : CDict M) : Prop :=
  (∀ k ∈ words n, (∃ y, CDict.get c k = some y ∧ CDict.get c' k = some y ∧ y.shape = S) ∨
    (CDict.get c k = none ∧ CDict.get c' k = some (Arr.zero S))) ∧
  ∃ k ∈ words n, CDict.get c k ≠ none

theorem idwtnStep_get {w : Wavelet R} {mode : Mode} {axis : ℕ} {c : CDict M}
    {f : Key → Option (Arr M)} {keys : List Key}
    (h : ∀ key ∈ keys, idwtAxis w mode axis (CDict.get c (key ++ ['a']))
      (CDict.get c (key ++ ['d'])) = .ok (f key)) :
    idwtnStep axis w mode c keys = .ok (keys.map fun k => (k, f k)) := by
  induction keys with
  | nil => rfl
  | cons k keys ih =>
    simp only [idwtnStep, h k (by simp), Py_bind_ok, ih fun key hk => h key (by simp [hk])]
    rfl

theorem mem_words_snoc {n : ℕ} {k : Key} (hk : k ∈ words n) {c : Char} (hc : c = 'a' ∨ c = 'd') :
    k ++ [c] ∈ words (n + 1) := by
  obtain ⟨h1, h2⟩ := mem_words.mp hk
  refine mem_words.mpr ⟨by simp [h1], ?_⟩
  intro e he
  rcases List.mem_append.mp he with h | h
  · exact h2 e h
  · simp at h; subst h; exact hc

theorem words_snoc {n : ℕ} {k : Key} (hk : k ∈ words (n + 1)) :
    ∃ k' ∈ words n, k = k' ++ ['a'] ∨ k = k' ++ ['d'] := by
  obtain ⟨h1, h2⟩ := mem_words.mp hk
  obtain ⟨k', c, rfl⟩ : ∃ k' c, k = k' ++ [c] := by
    rcases List.eq_nil_or_concat k with rfl | ⟨l, b, rfl⟩
    · simp at h1
    · exact ⟨l, b, by simp⟩
  refine ⟨k', mem_words.mpr ⟨by simpa using h1, fun e he => h2 e (by simp [he])⟩, ?_⟩
  rcases h2 c (by simp) with rfl | rfl
  · exact Or.inl rfl
  · exact Or.inr rfl

theorem idwtnStep_zeroFill {w : Wavelet R} (hw : w.Ok) {mode : Mode} {axis : ℕ} {S : List ℕ} {n : ℕ}
    {c c' : CDict M} (hz : ZeroFill S (n + 1) c c') (hax : axis < S.length)
    (hlen : 1 ≤ synthLen mode (S.getD axis 0) w.rec_len) :
    ∃ e e', idwtnStep axis w mode c (words n) = .ok e ∧ idwtnStep axis w mode c' (words n) = .ok e' ∧
      ZeroFill (S.set axis (synthLen mode (S.getD axis 0) w.rec_len)) n e e' := by
  obtain ⟨h1, h2⟩ := hz
  set f : Key → Option (Arr M) := fun k =>
    if CDict.get c (k ++ ['a']) = none ∧ CDict.get c (k ++ ['d']) = none then none
    else some (idwtVal w mode axis S (CDict.get c (k ++ ['a'])) (CDict.get c (k ++ ['d']))) with hf
  set f' : Key → Option (Arr M) := fun k =>
    some (idwtVal w mode axis S (CDict.get c (k ++ ['a'])) (CDict.get c (k ++ ['d']))) with hf'
  have hsh : ∀ k ∈ words (n + 1), ∀ m, CDict.get c k = some m → m.shape = S := by
    intro k hk m hm
    rcases h1 k hk with ⟨y, y1, _, y3⟩ | ⟨y1, _⟩
    · rw [y1] at hm; simp at hm; rw [← hm]; exact y3
    · rw [y1] at hm; simp at hm
  have hc' : ∀ k ∈ words (n + 1), CDict.get c' k = some ((CDict.get c k).getD (Arr.zero S)) := by
    intro k hk
    rcases h1 k hk with ⟨y, y1, y2, _⟩ | ⟨y1, y2⟩
    · rw [y1, y2]; rfl
    · rw [y1, y2]; rfl
  have e1 : idwtnStep axis w mode c (words n) = .ok ((words n).map fun k => (k, f k)) := by
    apply idwtnStep_get
    intro k hk
    have ka := mem_words_snoc hk (Or.inl rfl : ('a' = 'a' ∨ 'a' = 'd'))
    have kd := mem_words_snoc hk (Or.inr rfl : ('d' = 'a' ∨ 'd' = 'd'))
    by_cases hnn : CDict.get c (k ++ ['a']) = none ∧ CDict.get c (k ++ ['d']) = none
    · rw [hf]; simp only [hnn.1, hnn.2]; rfl
    · rw [hf]
      simp only [if_neg hnn]
      apply idwtAxis_val hw _ (hsh _ ka) (hsh _ kd) hax hlen
      by_contra hcon
      simp only [not_or, Bool.not_eq_true, Option.isSome_eq_false_iff, Option.isNone_iff_eq_none]
        at hcon
      exact hnn hcon
  have e2 : idwtnStep axis w mode c' (words n) = .ok ((words n).map fun k => (k, f' k)) := by
    apply idwtnStep_get
    intro k hk
    have ka := mem_words_snoc hk (Or.inl rfl : ('a' = 'a' ∨ 'a' = 'd'))
    have kd := mem_words_snoc hk (Or.inr rfl : ('d' = 'a' ∨ 'd' = 'd'))
    have hsg : ∀ k' ∈ words (n + 1), ((CDict.get c k').getD (Arr.zero S)).shape = S := by
      intro k' hk'
      cases hg : CDict.get c k' with
      | none => rfl
      | some y => exact hsh k' hk' y hg
    rw [hc' _ ka, hc' _ kd, idwtAxis_val hw (Or.inl rfl) (S := S)
      (by rintro m hm; simp only [Option.some.injEq] at hm; rw [← hm]; exact hsg _ ka)
      (by rintro m hm; simp only [Option.some.injEq] at hm; rw [← hm]; exact hsg _ kd) hax hlen]
    rfl
  refine ⟨_, _, e1, e2, ?_, ?_⟩
  · intro k hk
    have ka := mem_words_snoc hk (Or.inl rfl : ('a' = 'a' ∨ 'a' = 'd'))
    unfold CDict.get
    rw [lookup_map hk, lookup_map hk]
    simp only [Option.join]
    by_cases hnn : CDict.get c (k ++ ['a']) = none ∧ CDict.get c (k ++ ['d']) = none
    · right
      rw [hf, hf']
      simp only [hnn.1, hnn.2]
      refine ⟨rfl, ?_⟩
      simp only [Option.bind_some, id_eq]
      rw [idwtVal_zero hw hax]
    · left
      rw [hf, hf']
      simp only [if_neg hnn]
      exact ⟨_, rfl, rfl, idwtVal_shape _ _ _ _ _ _ (hsh _ ka)⟩
  · obtain ⟨k, hk, hkn⟩ := h2
    obtain ⟨k', hk', hkk⟩ := words_snoc hk
    refine ⟨k', hk', ?_⟩
    unfold CDict.get
    rw [lookup_map hk', hf]
    have hnn : ¬ (CDict.get c (k' ++ ['a']) = none ∧ CDict.get c (k' ++ ['d']) = none) := by
      rintro ⟨h3, h4⟩
      rcases hkk with rfl | rfl
      · exact hkn h3
      · exact hkn h4
    simp only [if_neg hnn]
    simp

theorem idwtnLoop_zeroFill {st : List (Stage R)} {S : List ℕ} (hst : SynthOk st.reverse S)
    {c c' : CDict M} (hz : ZeroFill S st.length c c') :
    ∃ e e' y, idwtnLoop S.length (stagesZ st).reverse c = .ok e ∧
      idwtnLoop S.length (stagesZ st).reverse c' = .ok e' ∧
      e.lookup [] = some (some y) ∧ e'.lookup [] = some (some y) := by
  induction st using List.reverseRecOn generalizing S c c' with
  | nil =>
    obtain ⟨h1, k, hk, hkn⟩ := hz
    simp only [List.length_nil, words, List.mem_singleton] at hk
    subst hk
    rcases h1 [] (by simp [words]) with ⟨y, y1, y2, -⟩ | ⟨y1, -⟩
    · exact ⟨c, c', y, rfl, rfl, CDict.get_eq_some y1, CDict.get_eq_some y2⟩
    · exact absurd y1 hkn
  | append_singleton st s ih =>
    rw [List.reverse_append] at hst
    obtain ⟨a1, a2, a3, a4⟩ := hst
    rw [List.length_append] at hz
    obtain ⟨e, e', e1, e2, e3⟩ := idwtnStep_zeroFill a2 hz a1 a3
    obtain ⟨g, g', y, g1, g2, g3, g4⟩ := ih a4 e3
    have hrev : (stagesZ (st ++ [s])).reverse = ((s.1 : ℤ), s.2.1, s.2.2) :: (stagesZ st).reverse := by
      simp [stagesZ]
    have e0 : ¬ ((s.1 : ℤ) < 0 ∨ (s.1 : ℤ) ≥ (S.length : ℤ)) := by omega
    have hl2 : ((stagesZ st).reverse).length = st.length := by simp [stagesZ]
    rw [List.length_set] at g1 g2
    refine ⟨g, g', y, ?_, ?_, g3, g4⟩
    · rw [hrev]
      simp only [idwtnLoop, if_neg e0, Int.toNat_natCast]
      rw [hl2, e1]
      exact g1
    · rw [hrev]
      simp only [idwtnLoop, if_neg e0, Int.toNat_natCast]
      rw [hl2, e2]
      exact g2

theorem lookup_dropNone {c : CDict M} (hn : (c.map (·.1)).Nodup) (k : Key) :
    CDict.get ((dropNone c).map fun p => (p.1, some p.2)) k = CDict.get c k := by
  induction c with
  | nil => rfl
  | cons p c ih =>
    obtain ⟨k', v⟩ := p
    simp only [List.map_cons, List.nodup_cons] at hn
    have ih := ih hn.2
    unfold CDict.get dropNone at ih ⊢
    cases v with
    | none =>
      rw [List.filterMap_cons_none (by rfl), ih, List.lookup_cons]
      by_cases hk : k = k'
      · subst hk
        have : List.lookup k c = none := by
          rw [List.lookup_eq_none_iff]
          intro p hp
          simp only [ne_eq, bne_iff_ne]
          intro h
          exact hn.1 (h ▸ List.mem_map_of_mem hp)
        rw [this]
        simp
      · rw [beq_false_of_ne hk]
    | some v =>
      rw [List.filterMap_cons_some (by rfl)]
      simp only [List.map_cons]
      rw [List.lookup_cons, List.lookup_cons]
      by_cases hk : k = k'
      · subst hk; simp
      · rw [beq_false_of_ne hk]; exact ih

theorem mem_dropNone {c : CDict M} {p : Key × Arr M} :
    p ∈ dropNone c ↔ (p.1, some p.2) ∈ c := by
  unfold dropNone
  rw [List.mem_filterMap]
  constructor
  · rintro ⟨⟨k, v⟩, hq, h⟩
    cases v with
    | none => simp at h
    | some v => simp at h; subst h; exact hq
  · intro h
    exact ⟨_, h, by simp⟩

theorem idwtn_some {wavelet : PerAxis (Wavelet R)} {mode : PerAxis Mode}
    {axes : Option (List ℤ)} {st : List (Stage R)} {c : CDict M} {S : List ℕ}
    (hk : ∀ p ∈ dropNone c, p.1 ∈ words st.length ∧ p.2.shape = S) (hne : dropNone c ≠ [])
    (hr : Resolves S.length wavelet mode axes st) :
    idwtn c wavelet mode axes =
      (do let r ← idwtnLoop S.length (stagesZ st).reverse
            ((dropNone c).map fun p => (p.1, some p.2))
          lookupKey r []) := by
  obtain ⟨p0, l, hc⟩ : ∃ p l, dropNone c = p :: l := by
    cases h : dropNone c with
    | nil => exact absurd h hne
    | cons p l => exact ⟨p, l, rfl⟩
  obtain ⟨k0, v0⟩ := p0
  have h0 := hk (k0, v0) (by rw [hc]; simp)
  simp only at h0
  have hk0 : k0.length = st.length := (mem_words.mp h0.1).1
  have e1 : ¬ (!keysOk ((dropNone c).map (·.1))) = true := by
    simp only [Bool.not_eq_true, Bool.not_eq_false']
    unfold keysOk
    rw [Bool.and_eq_true]
    constructor
    · simp only [List.all_eq_true, Bool.or_eq_true, decide_eq_true_eq]
      intro k hkk
      obtain ⟨p, hp, rfl⟩ := List.mem_map.mp hkk
      exact (mem_words.mp (hk p hp).1).2
    · simp only [List.all_eq_true, decide_eq_true_eq]
      intro k hkk
      obtain ⟨p, hp, rfl⟩ := List.mem_map.mp hkk
      rw [(mem_words.mp (hk p hp).1).1, hc]
      simp [hk0]
  have e2 : ¬ ((dropNone c).any fun p => p.2.shape ≠ S) = true := by
    simp only [List.any_eq_true, not_exists, not_and]
    intro p hp
    simp [(hk p hp).2]
  have hndim : idwtnDim axes k0.length S.length = S.length := by
    cases axes with
    | none =>
      have := congrArg List.length hr.1
      simp only [List.length_map, List.length_range] at this
      simp only [idwtnDim, hk0, this]
    | some l => rfl
  have hax : normAxes S.length (axes.getD (rangeAxes k0.length)) =
      st.map fun s : Stage R => (s.1 : ℤ) := by
    rw [← hr.axes_eq]
    cases axes with
    | none =>
      have := congrArg List.length hr.1
      simp only [List.length_map, List.length_range] at this
      simp only [Option.getD_none, hk0, this]
    | some l => rfl
  simp only [idwtn, if_neg e1]
  rw [hc]
  simp only
  rw [← hc]
  simp only [h0.2, hndim, if_neg e2, hax, List.length_map, hr.2.1, hr.2.2, Py_bind_ok, zipStages_eq]

end Pywt
