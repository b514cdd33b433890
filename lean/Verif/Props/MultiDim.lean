import Verif.Proof.SynthN
import Verif.Spec.Layout
import Verif.Proof.Examples

/-!
# C18, C19, C42: memory layout and separable n-D transforms
-/

namespace Pywt

open Finset Spec

set_option autoImplicit false

section
variable {R M : Type} [Ring R] [AddCommGroup M] [Module R M]

/-! ### C42: the memory layout does not matter -/

/-- `dwt_axis` on an array with arbitrary strides (transposed, sliced, reversed, broadcast) returns
what it returns for a C-ordered copy, errors included, and never leaves the array's memory unless it
does so for the copy. -/
theorem C42_dwt_axis_layout {w : Wavelet R} (hw : w.Ok) (mode : Mode) (axis : ℕ) {c : Mem M}
    (hc : c.Ok) : dwtAxisMem w mode axis c = dwtAxis w mode axis c.copy := by
  unfold dwtAxis
  have hnd : c.copy.toMem.info.ndim = c.info.ndim := rfl
  have hsh : c.copy.toMem.info.shape = c.info.shape := rfl
  by_cases ha : axis < c.info.ndim
  · by_cases hl : LenOk mode (c.info.shape.getD axis 0)
    · obtain ⟨h1, h2⟩ := lenOk_iff.mp hl
      rw [dwtAxisMem_ok hw hc ha h1 h2, dwtAxisMem_ok hw c.copy.toMem_ok (by rw [hnd]; exact ha)
        (by rw [hsh]; exact h1) (by rw [hsh]; exact h2)]
      have : ∀ n g, c.along axis n g = c.copy.toMem.along axis n g := by
        intro n g
        unfold Mem.along
        rw [hsh]
        apply Arr.ext_get (by rw [Arr.shape_ofFn, Arr.shape_ofFn])
        intro idx hidx
        have hidx' : InB (c.info.shape.set axis n) idx := hidx
        rw [Arr.get_ofFn (Local_memline c axis g (by simp [Info.ndim]) (by simpa [Info.ndim] using ha)) hidx',
          Arr.get_ofFn (Local_memline c.copy.toMem axis g (by rw [hnd]; simp [Info.ndim])
            (by simpa [Info.ndim] using ha)) hidx']
        congr 2
        unfold Mem.line
        rw [hsh]
        apply List.map_congr_left
        intro j hj
        rw [Arr.toMem_get, Mem.copy, Arr.get_ofFn]
        · intro f h hfh; exact c.get_congr hfh
        · rw [inB_set ha] at hidx'
          intro k hk
          by_cases hka : k = axis
          · subst hka; simpa using hj
          · rw [Function.update_of_ne hka]; exact hidx'.2 k hk hka
      rw [this, this, hsh]
    · have h2 : c.info.shape.getD axis 0 = 0 ∨
          tooShort (c.info.shape.getD axis 0) mode = true := by
        by_contra hcon
        simp only [not_or, Bool.not_eq_true] at hcon
        exact hl (lenOk_iff.mpr ⟨by omega, hcon.2⟩)
      rw [dwtAxisMem_err ha h2, dwtAxisMem_err (by rw [hnd]; exact ha) (by rw [hsh]; exact h2)]
  · unfold dwtAxisMem
    have e1 : axis ≥ c.info.ndim := by omega
    simp only [hnd, if_pos e1]
    rfl

end

/-- The transpose of a 2×3 array, read with swapped strides. -/
def transposed : Mem ℚ := ⟨[1, 2, 3, 4, 5, 6], 0, ⟨[3, 2], [1, 3]⟩⟩

/-- A reversed view. -/
def reversedView : Mem ℚ := ⟨[1, 2, 3, 4, 5, 6], 5, ⟨[6], [-1]⟩⟩

example : transposed.copy = ⟨[3, 2], [1, 4, 2, 5, 3, 6], rfl⟩ := by decide +kernel
example : reversedView.copy = ⟨[6], [6, 5, 4, 3, 2, 1], rfl⟩ := by decide +kernel

example : transposed.Ok := by
  intro idx h
  have h0 := h 0 (by decide)
  have h1 := h 1 (by decide)
  simp only [transposed, Info.ndim, dot, List.length_cons, List.length_nil, Finset.sum_range_succ,
    Finset.sum_range_zero, List.getD_cons_zero, List.getD_cons_succ] at h0 h1 ⊢
  omega

section
variable {R M : Type} [Ring R] [AddCommGroup M] [Module R M]

/-! ### C18: `dwtn` and `idwtn` -/

/-- `dwtn` returns one array for every word over {a,d} of the right length, in the order of the
words; it is the subband obtained by filtering along one axis after another. -/
theorem C18_dwtn_subbands {x : Arr M} {wavelet : PerAxis (Wavelet R)} {mode : PerAxis Mode}
    {axes : Option (List ℤ)} {st : List (Stage R)} (hd : 1 ≤ x.ndim)
    (hr : Resolves x.ndim wavelet mode axes st) (hst : StagesOk st x.shape) :
    ∃ c, dwtn x wavelet mode axes = .ok c ∧
      c.length = 2 ^ st.length ∧ (c.map (·.1)).Nodup ∧
      (∀ k : Key, k ∈ c.map (·.1) ↔ k.length = st.length ∧ ∀ ch ∈ k, ch = 'a' ∨ ch = 'd') ∧
      (∀ p ∈ c, p.2 = x.subband st p.1) ∧
      (∀ p ∈ c, ∀ q ∈ c, p.2.shape = q.2.shape) := by
  have hm : ((words st.length).map fun k => (k, x.subband st k)).map (·.1) = words st.length := by
    simp [Function.comp_def]
  refine ⟨_, dwtn_ok hd hr hst, ?_, ?_, ?_, ?_, ?_⟩
  · simp [words_length]
  · rw [hm]; exact words_nodup _
  · intro k; rw [hm]; exact mem_words
  · intro p hp
    obtain ⟨k, hk, rfl⟩ := List.mem_map.mp hp
    rfl
  · intro p hp q hq
    obtain ⟨k, hk, rfl⟩ := List.mem_map.mp hp
    obtain ⟨l, hl, rfl⟩ := List.mem_map.mp hq
    simp only
    rw [shape_subband (mem_words.mp hk).1, shape_subband (mem_words.mp hl).1]

/-- The shape of the subbands for distinct axes. -/
theorem C18_dwtn_shape {x : Arr M} {wavelet : PerAxis (Wavelet R)} {mode : PerAxis Mode}
    {axes : Option (List ℤ)} {st : List (Stage R)} (hd : 1 ≤ x.ndim)
    (hr : Resolves x.ndim wavelet mode axes st) (hst : StagesOk st x.shape)
    (hn : (st.map (·.1)).Nodup) :
    ∃ c, dwtn x wavelet mode axes = .ok c ∧ ∀ p ∈ c, p.2.shape.length = x.ndim ∧
      (∀ s ∈ st, p.2.shape.getD s.1 0 = coeffLen s.2.2 (x.shape.getD s.1 0) s.2.1.dec_len) ∧
      ∀ j, j ∉ st.map (·.1) → p.2.shape.getD j 0 = x.shape.getD j 0 := by
  have hb : ∀ s ∈ st, s.1 < x.shape.length := by
    have : ∀ (st : List (Stage R)) (sh : List ℕ), StagesOk st sh → ∀ s ∈ st, s.1 < sh.length := by
      intro st
      induction st with
      | nil => intro _ _ s hs; simp at hs
      | cons t st ih =>
        intro sh h s hs
        rcases List.mem_cons.mp hs with rfl | hs
        · exact h.1
        · simpa using ih _ h.2.2.2 s hs
    exact this st x.shape hst
  refine ⟨_, dwtn_ok hd hr hst, ?_⟩
  intro p hp
  obtain ⟨k, hk, rfl⟩ := List.mem_map.mp hp
  simp only
  rw [shape_subband (mem_words.mp hk).1]
  have := decShape_getD hn hb
  exact ⟨decShape_length _ _, this.2, this.1⟩

/-- `idwtn(dwtn(x))` restricted to the shape of `x` is `x`, for distinct axes in any order, with a
perfect-reconstruction wavelet and a mode for each; transformed axes of odd length come back one
longer. -/
theorem C18_idwtn_dwtn {x : Arr M} {wavelet : PerAxis (Wavelet R)} {mode : PerAxis Mode}
    {axes : Option (List ℤ)} {st : List (Stage R)} (hd : 1 ≤ x.ndim)
    (hr : Resolves x.ndim wavelet mode axes st) (hinv : StagesInv st x.shape) :
    ∃ c y, dwtn x wavelet mode axes = .ok c ∧
      idwtn (c.map fun p => (p.1, some p.2)) wavelet mode axes = .ok (some y) ∧
      y.Extends x ∧ y.shape.length = x.ndim ∧
      (∀ s ∈ st, y.shape.getD s.1 0 = x.shape.getD s.1 0 + x.shape.getD s.1 0 % 2) ∧
      (∀ j, j ∉ st.map (·.1) → y.shape.getD j 0 = x.shape.getD j 0) := by
  obtain ⟨y, h1, h2, h3, h4, h5⟩ := idwtn_dwtn hr hinv
  refine ⟨_, y, dwtn_ok hd hr hinv.stagesOk, ?_, h5, h2, h3, h4⟩
  rw [List.map_map]
  exact h1

/-- A missing or `None` entry of the dict counts as an array of zeros. -/
theorem C18_idwtn_missing_is_zero {c : CDict M} {wavelet : PerAxis (Wavelet R)}
    {mode : PerAxis Mode} {axes : Option (List ℤ)} {st : List (Stage R)} {S : List ℕ}
    (hn : (c.map (·.1)).Nodup)
    (hk : ∀ k v, (k, some v) ∈ c → k ∈ words st.length ∧ v.shape = S)
    (hne : ∃ k v, (k, some v) ∈ c)
    (hr : Resolves S.length wavelet mode axes st) (hst : SynthOk st.reverse S) :
    ∃ y, idwtn c wavelet mode axes = .ok (some y) ∧
      idwtn ((words st.length).map fun k => (k, some ((CDict.get c k).getD (Arr.zero S))))
        wavelet mode axes = .ok (some y) :=
  idwtn_missing_is_zero hn hk hne hr hst

/-- The value of `idwtn` on any coefficients, for distinct axes: the sum of what the subbands
contribute, each upsampled and filtered along one axis after another.  Missing and `None` entries
contribute nothing. -/
theorem C18_idwtn_values {c : CDict M} {wavelet : PerAxis (Wavelet R)}
    {mode : PerAxis Mode} {axes : Option (List ℤ)} {st : List (Stage R)} {S : List ℕ}
    (hn : (c.map (·.1)).Nodup)
    (hk : ∀ k v, (k, some v) ∈ c → k ∈ words st.length ∧ v.shape = S)
    (hne : ∃ k v, (k, some v) ∈ c)
    (hr : Resolves S.length wavelet mode axes st) (hst : SynthFits st S) :
    ∃ y, idwtn c wavelet mode axes = .ok (some y) ∧ y.shape = synthShape st S ∧
      ∀ idx, InB y.shape idx → y.get idx =
        ((words st.length).map fun k =>
          (((CDict.get c k).getD (Arr.zero S)).resynth st k).get idx).sum :=
  idwtn_values hn hk hne hr hst

end

/-! The hypotheses of `C18_idwtn_values` are met by 2×3 subbands with one of them missing. -/

example : SynthFits [(1, haarQ, .symmetric), (0, legallQ, .periodization)] [2, 3] := by
  refine ⟨by simp, ?_⟩
  intro s hs
  simp only [List.mem_cons, List.not_mem_nil, or_false] at hs
  rcases hs with rfl | rfl
  · exact ⟨by decide, haarQ_ok, by decide⟩
  · exact ⟨by decide, legallQ_ok, by decide⟩

example : synthShape [(1, haarQ, .symmetric), (0, legallQ, .periodization)] [2, 3] = [4, 6] := by decide

/-! The hypotheses are met: two axes of a 3×2 array, in reverse order, different modes. -/

example : Resolves (R := ℚ) 2 (.one haarQ) (.many [.symmetric, .periodization]) (some [-1, 0])
    [(1, haarQ, .symmetric), (0, haarQ, .periodization)] := ⟨rfl, rfl, rfl⟩

example : Resolves (R := ℚ) 2 (.many [haarQ, legallQ]) (.one .zero) none
    [(0, haarQ, .zero), (1, legallQ, .zero)] := ⟨rfl, rfl, rfl⟩

example : StagesInv [(1, haarQ, .symmetric), (0, legallQ, .periodization)] [3, 2] := by
  refine ⟨by simp, ?_⟩
  intro s hs
  simp only [List.mem_cons, List.not_mem_nil, or_false] at hs
  rcases hs with rfl | rfl
  · exact ⟨by decide, haarQ_ok, haarQ_PR, by decide⟩
  · exact ⟨by decide, legallQ_ok, legallQ_PR, by decide⟩

example : StagesOk [(1, haarQ, .symmetric), (0, haarQ, .reflect)] [3, 2] :=
  ⟨by decide, haarQ_ok, by decide, by decide, haarQ_ok, by decide, trivial⟩

example : SynthOk [(1, haarQ, .symmetric), (0, haarQ, .reflect)].reverse [2, 1] :=
  ⟨by decide, haarQ_ok, by decide, by decide, haarQ_ok, by decide, trivial⟩

section
variable {R M : Type} [CommRing R] [AddCommGroup M] [Module R M]

/-! ### C19: the order of the axes -/

/-- If two calls of `dwtn` transform the same axes, each with the same wavelet and mode, in different
orders, then two subbands in which every axis has the same letter are equal. -/
theorem C19_order_of_axes {x : Arr M} {wavelet wavelet' : PerAxis (Wavelet R)}
    {mode mode' : PerAxis Mode} {axes axes' : Option (List ℤ)} {st st' : List (Stage R)}
    (hd : 1 ≤ x.ndim) (hr : Resolves x.ndim wavelet mode axes st)
    (hr' : Resolves x.ndim wavelet' mode' axes' st')
    (hst : StagesOk st x.shape) (hst' : StagesOk st' x.shape) (hn : (st.map (·.1)).Nodup)
    {k k' : Key} (hk : k ∈ words st.length) (hk' : k' ∈ words st'.length)
    (hp : (st.zip k).Perm (st'.zip k')) :
    ∃ c c' y, dwtn x wavelet mode axes = .ok c ∧ dwtn x wavelet' mode' axes' = .ok c' ∧
      c.lookup k = some y ∧ c'.lookup k' = some y := by
  refine ⟨_, _, x.subband st k, dwtn_ok hd hr hst, dwtn_ok hd hr' hst', lookup_map hk, ?_⟩
  rw [lookup_map hk', subband_eq_subbandP, subband_eq_subbandP]
  have hb : ∀ (st : List (Stage R)) (sh : List ℕ), StagesOk st sh → ∀ s ∈ st, s.1 < sh.length := by
    intro st
    induction st with
    | nil => intro _ _ s hs; simp at hs
    | cons t st ih =>
      intro sh h s hs
      rcases List.mem_cons.mp hs with rfl | hs
      · exact h.1
      · simpa using ih _ h.2.2.2 s hs
  rw [subbandP_perm hp]
  · have hl := (mem_words.mp hk).1
    have : (st.zip k).map (·.1.1) = st.map (·.1) := by
      have h2 : (st.zip k).map Prod.fst = st := List.map_fst_zip (by omega)
      conv_rhs => rw [← h2]
      rw [List.map_map]
      rfl
    rw [this]
    exact hn
  · intro p hp
    exact hb st x.shape hst p.1 (List.of_mem_zip hp).1

end

example : ([(0, haarQ, Mode.zero), (1, legallQ, Mode.symmetric)].zip ['a', 'd']).Perm
    ([(1, legallQ, Mode.symmetric), (0, haarQ, Mode.zero)].zip ['d', 'a']) := List.Perm.swap _ _ _

section
variable {R M : Type} [Ring R] [AddCommGroup M] [Module R M]

/-- `dwt2` returns `(cA, (cH, cV, cD))`: low-pass along both axes; high-pass along the first axis
only; along the second only; along both. -/
theorem C19_dwt2_layout {x : Arr M} {wavelet : PerAxis (Wavelet R)} {mode : PerAxis Mode}
    {axes : List ℤ} {s t : Stage R} (hr : Resolves x.ndim wavelet mode (some axes) [s, t])
    (hst : StagesOk [s, t] x.shape) (hn : s.1 ≠ t.1) :
    dwt2 x wavelet mode axes = .ok ((x.analyze s 'a').analyze t 'a',
      ((x.analyze s 'd').analyze t 'a', (x.analyze s 'a').analyze t 'd',
        (x.analyze s 'd').analyze t 'd')) := by
  have hlen : axes.length = 2 := by
    have := congrArg List.length hr.1
    simpa using this.symm
  have hs := hst.1
  have ht := hst.2.2.2.1
  rw [List.length_set] at ht
  have hu : ¬ x.ndim < numUnique axes := by
    have h1 : numUnique axes ≤ axes.length := (List.dedup_sublist axes).length_le
    unfold Arr.ndim
    omega
  have hd : 1 ≤ x.ndim := by unfold Arr.ndim; omega
  unfold dwt2
  rw [if_neg (by simpa using hlen), if_neg hu, dwtn_ok hd hr hst]
  rfl

/-- `idwt2(dwt2(x))` restricted to the shape of `x` is `x`. -/
theorem C19_idwt2_dwt2 {x : Arr M} {wavelet : PerAxis (Wavelet R)} {mode : PerAxis Mode}
    {axes : List ℤ} {s t : Stage R} (hr : Resolves x.ndim wavelet mode (some axes) [s, t])
    (hinv : StagesInv [s, t] x.shape) :
    ∃ cA cH cV cD y, dwt2 x wavelet mode axes = .ok (cA, (cH, cV, cD)) ∧
      idwt2 (some cA, (some cH, some cV, some cD)) wavelet mode axes = .ok (some y) ∧
      y.Extends x ∧
      (∀ u ∈ [s, t], y.shape.getD u.1 0 = x.shape.getD u.1 0 + x.shape.getD u.1 0 % 2) ∧
      (∀ j, j ∉ [s, t].map (·.1) → y.shape.getD j 0 = x.shape.getD j 0) := by
  have hn : s.1 ≠ t.1 := by
    have := hinv.1
    simp at this
    exact this
  have hlen : axes.length = 2 := by
    have := congrArg List.length hr.1
    simpa using this.symm
  obtain ⟨y, h1, -, h3, h4, h5⟩ := idwtn_dwtn hr hinv
  have hst := hinv.stagesOk
  refine ⟨_, _, _, _, y, C19_dwt2_layout hr hst hn, ?_, h5, h3, h4⟩
  rw [← h1]
  have e0 : ¬ axes.length ≠ 2 := by simpa using hlen
  simp only [idwt2, if_neg e0]
  have hsh : ∀ k ∈ words 2, (x.subband [s, t] k).shape = decShape [s, t] x.shape :=
    fun k hk => shape_subband (mem_words.mp hk).1 x
  have hdl := decShape_length [s, t] x.shape
  have hall : ∀ p ∈ dropNone [(['a', 'a'], some ((x.analyze s 'a').analyze t 'a')),
      (['d', 'a'], some ((x.analyze s 'd').analyze t 'a')),
      (['a', 'd'], some ((x.analyze s 'a').analyze t 'd')),
      (['d', 'd'], some ((x.analyze s 'd').analyze t 'd'))],
      p.1 ∈ words [s, t].length ∧ p.2.shape = decShape [s, t] x.shape := by
    intro p hp
    simp only [dropNone, List.filterMap_cons, Option.map_some, List.filterMap_nil, List.mem_cons,
      List.not_mem_nil, or_false] at hp
    rcases hp with rfl | rfl | rfl | rfl
    · exact ⟨show ['a', 'a'] ∈ words 2 by decide, hsh ['a', 'a'] (by decide)⟩
    · exact ⟨show ['d', 'a'] ∈ words 2 by decide, hsh ['d', 'a'] (by decide)⟩
    · exact ⟨show ['a', 'd'] ∈ words 2 by decide, hsh ['a', 'd'] (by decide)⟩
    · exact ⟨show ['d', 'd'] ∈ words 2 by decide, hsh ['d', 'd'] (by decide)⟩
  have hr2 : Resolves (decShape [s, t] x.shape).length wavelet mode (some axes) [s, t] := by
    rw [hdl]; exact hr
  rw [idwtn_some hall (by simp [dropNone]) hr2, idwtn_full (st := [s, t]) (f := fun k => x.subband [s, t] k) hsh hr2]
  congr 1

end

example : dwt2 (⟨[2, 2], [1, 2, 3, 4], rfl⟩ : Arr ℚ) (.one haarQ) (.one .zero) [-2, -1] =
    .ok (⟨[1, 1], [5/2], rfl⟩, ⟨[1, 1], [-1], rfl⟩, ⟨[1, 1], [-1/2], rfl⟩, ⟨[1, 1], [0], rfl⟩) := by
  decide +kernel

end Pywt
