import Verif.Proof.MultiDim
import Verif.Proof.Lin
import Mathlib.LinearAlgebra.Pi
import Mathlib.LinearAlgebra.Prod

/-! Top-level facts on `dwtn`/`idwtn`: calls, missing coefficients, order of axes. -/

namespace Pywt

open Finset Spec

set_option linter.unusedSectionVars false

variable {R M : Type} [Ring R] [AddCommGroup M] [Module R M]

theorem Resolves.axes_eq {ndim : ℕ} {wavelet : PerAxis (Wavelet R)} {mode : PerAxis Mode}
    {axes : Option (List ℤ)} {st : List (Stage R)} (h : Resolves ndim wavelet mode axes st) :
    normAxes ndim (axes.getD (rangeAxes ndim)) = st.map fun s : Stage R => (s.1 : ℤ) := by
  obtain ⟨h1, -, -⟩ := h
  cases axes with
  | none =>
    simp only at h1
    simp only [Option.getD_none, normAxes, rangeAxes]
    rw [← h1, List.map_map, List.map_map]
    apply List.map_congr_left
    intro s _
    simp only [Function.comp_apply, Int.ofNat_eq_natCast]
    rw [if_neg (by omega)]
  | some l =>
    simp only at h1
    rw [h1]
    rfl

theorem zipStages_eq (st : List (Stage R)) :
    zipStages (st.map fun s : Stage R => (s.1 : ℤ)) (st.map (·.2.1)) (st.map (·.2.2)) =
      stagesZ st := by
  unfold zipStages stagesZ
  induction st with
  | nil => rfl
  | cons s st ih => simp [ih]

theorem dwtn_ok {x : Arr M} {wavelet : PerAxis (Wavelet R)} {mode : PerAxis Mode}
    {axes : Option (List ℤ)} {st : List (Stage R)} (hd : 1 ≤ x.ndim)
    (hr : Resolves x.ndim wavelet mode axes st) (hst : StagesOk st x.shape) :
    dwtn x wavelet mode axes =
      .ok ((words st.length).map fun k => (k, x.subband st k)) := by
  have e0 : ¬ x.ndim < 1 := by omega
  simp only [dwtn, if_neg e0, hr.axes_eq, List.length_map, hr.2.1, hr.2.2, Py_bind_ok, zipStages_eq]
  rw [dwtnLoop_ok (shape := x.shape) (by simp) hst]
  simp

theorem lookup_map {α : Type} {keys : List Key} {f : Key → α} {k : Key} (h : k ∈ keys) :
    (keys.map fun k => (k, f k)).lookup k = some (f k) := by
  induction keys with
  | nil => simp at h
  | cons a keys ih =>
    rw [List.map_cons, List.lookup_cons]
    by_cases hk : k = a
    · subst hk; simp
    · rw [beq_false_of_ne hk]
      exact ih (by simpa [hk] using h)

theorem dropNone_map (keys : List Key) (f : Key → Arr M) :
    dropNone (keys.map fun k => (k, some (f k))) = keys.map fun k => (k, f k) := by
  unfold dropNone
  rw [List.filterMap_map]
  induction keys with
  | nil => rfl
  | cons a keys ih => simp

theorem keysOk_words (n : ℕ) : keysOk (words n) = true := by
  have hall : ∀ k ∈ words n, k.length = n ∧ ∀ c ∈ k, c = 'a' ∨ c = 'd' := fun k hk => mem_words.mp hk
  unfold keysOk
  rw [Bool.and_eq_true]
  constructor
  · simp only [List.all_eq_true, Bool.or_eq_true, decide_eq_true_eq]
    exact fun k hk => (hall k hk).2
  · simp only [List.all_eq_true, decide_eq_true_eq]
    intro k hk
    rw [(hall k hk).1]
    cases hw : words n with
    | nil => rw [hw] at hk; simp at hk
    | cons a l => simp [(hall a (by rw [hw]; simp)).1]

theorem words_ne_nil (n : ℕ) : ∃ k l, words n = k :: l := by
  cases h : words n with
  | nil =>
    have := words_length n
    have h2 : 0 < 2 ^ n := by positivity
    rw [h, List.length_nil] at this; omega
  | cons k l => exact ⟨k, l, rfl⟩

/-- `idwtn` on a full set of arrays of equal shape is its loop. -/
theorem idwtn_full {wavelet : PerAxis (Wavelet R)} {mode : PerAxis Mode}
    {axes : Option (List ℤ)} {st : List (Stage R)} {f : Key → Arr M} {S : List ℕ}
    (hS : ∀ k ∈ words st.length, (f k).shape = S)
    (hr : Resolves S.length wavelet mode axes st) :
    idwtn ((words st.length).map fun k => (k, some (f k))) wavelet mode axes =
      (do let r ← idwtnLoop S.length (stagesZ st).reverse
            ((words st.length).map fun k => (k, some (f k)))
          lookupKey r []) := by
  obtain ⟨k0, l, hw⟩ := words_ne_nil st.length
  have hk0 : k0.length = st.length := (mem_words.mp (hw ▸ by simp : k0 ∈ words st.length)).1
  have hf0 : (f k0).shape = S := hS k0 (by rw [hw]; simp)
  have e1 : ¬ (!keysOk ((List.map (fun k => (k, f k)) (words st.length)).map (·.1))) = true := by
    rw [List.map_map]
    have : ((fun x : Key × Arr M => x.1) ∘ fun k => (k, f k)) = id := rfl
    rw [this, List.map_id, keysOk_words]
    simp
  have e2 : ¬ ((List.map (fun k => (k, f k)) (words st.length)).any
      fun p => p.2.shape ≠ S) = true := by
    simp only [List.any_eq_true, not_exists, not_and]
    intro p hp
    obtain ⟨k, hk, rfl⟩ := List.mem_map.mp hp
    simp [hS k hk]
  have hndim : idwtnDim axes k0.length S.length = S.length := by
    cases axes with
    | none =>
      have := congrArg List.length hr.1
      simp only [List.length_map, List.length_range] at this
      simp only [idwtnDim, hk0, this]
    | some l => rfl
  have hax : normAxes S.length (axes.getD (rangeAxes k0.length)) =
      st.map fun s : Stage R => (s.1 : ℤ) := by
    rw [← hr.axes_eq]
    cases axes with
    | none =>
      have := congrArg List.length hr.1
      simp only [List.length_map, List.length_range] at this
      simp only [Option.getD_none, hk0, this]
    | some l => rfl
  have hcs : List.map (fun k => (k, f k)) (words st.length) =
      (k0, f k0) :: l.map fun k => (k, f k) := by rw [hw]; rfl
  simp only [idwtn, dropNone_map, if_neg e1]
  rw [hcs]
  simp only
  rw [← hcs]
  simp only [hf0, hndim, if_neg e2, hax, List.length_map, hr.2.1, hr.2.2, Py_bind_ok, zipStages_eq,
    List.map_map, Function.comp_def]

theorem idwtn_dwtn {x : Arr M} {wavelet : PerAxis (Wavelet R)} {mode : PerAxis Mode}
    {axes : Option (List ℤ)} {st : List (Stage R)}
    (hr : Resolves x.ndim wavelet mode axes st) (hinv : StagesInv st x.shape) :
    ∃ y, idwtn ((words st.length).map fun k => (k, some (x.subband st k))) wavelet mode axes =
        .ok (some y) ∧ y.shape.length = x.shape.length ∧
      (∀ s ∈ st, y.shape.getD s.1 0 = x.shape.getD s.1 0 + x.shape.getD s.1 0 % 2) ∧
      (∀ j, j ∉ st.map (·.1) → y.shape.getD j 0 = x.shape.getD j 0) ∧ y.Extends x := by
  have hsh : ∀ k ∈ words st.length, (x.subband st k).shape = decShape st x.shape :=
    fun k hk => shape_subband (mem_words.mp hk).1 x
  have hdl := decShape_length st x.shape
  have hg := decShape_getD hinv.1 fun s hs => (hinv.2 s hs).1
  obtain ⟨c', y, h1, h2, h3, h4, h5, h6⟩ := idwtnLoop_ok hinv (S := decShape st x.shape) hdl
    hg.2 (c := (words st.length).map fun k => (k, some (x.subband st k))) (by
      intro k hk
      refine ⟨x.subband st k, ?_, hsh k hk, Arr.Extends.refl _⟩
      unfold CDict.get
      rw [lookup_map hk]
      rfl)
  refine ⟨y, ?_, h3, h4, ?_, h6⟩
  · rw [idwtn_full hsh (by rw [hdl]; exact hr), hdl, h1]
    simp only [Py_bind_ok, lookupKey, h2]
  · intro j hj
    rw [h5 j hj, hg.1 j hj]

section Comm
variable {R M : Type} [CommRing R] [AddCommGroup M] [Module R M]

theorem analysis_getD_map {M' : Type} [AddCommGroup M'] [Module R M'] (φ : M →ₗ[R] M')
    (mode : Mode) (f : List R) (x : List M) (o : ℕ) :
    (analysis mode f (x.map φ)).getD o 0 = φ ((analysis mode f x).getD o 0) := by
  rw [analysis_map]
  by_cases h : o < (analysis mode f x).length
  · rw [List.getD_eq_getElem (hn := by simpa using h), List.getD_eq_getElem (hn := h)]
    simp
  · rw [List.getD_eq_default _ _ (by simpa using h), List.getD_eq_default _ _ (by simpa using h),
      map_zero]

/-- One analysis coefficient as a linear map of the samples. -/
def anaLin (mode : Mode) (f : List R) (n o : ℕ) : (ℕ → M) →ₗ[R] M where
  toFun v := (analysis mode f ((List.range n).map v)).getD o 0
  map_add' u v := by
    have key : ∀ φ : (M × M) →ₗ[R] M,
        (analysis mode f ((List.range n).map fun i => φ (u i, v i))).getD o 0 =
          φ ((analysis mode f ((List.range n).map fun i => (u i, v i))).getD o 0) := by
      intro φ
      rw [← analysis_getD_map, List.map_map]
      rfl
    have h1 := key (LinearMap.fst R M M)
    have h2 := key (LinearMap.snd R M M)
    have h3 := key (LinearMap.fst R M M + LinearMap.snd R M M)
    simp only [LinearMap.fst_apply, LinearMap.snd_apply, LinearMap.add_apply] at h1 h2 h3
    show (analysis mode f ((List.range n).map fun i => u i + v i)).getD o 0 = _
    rw [h3, ← h1, ← h2]
  map_smul' r v := by
    have := analysis_getD_map (r • (LinearMap.id : M →ₗ[R] M)) mode f ((List.range n).map v) o
    rw [List.map_map] at this
    exact this

theorem analysis_swap (m1 m2 : Mode) (f1 f2 : List R) (n1 n2 o1 o2 : ℕ) (x : ℕ → ℕ → M) :
    (analysis m1 f1 ((List.range n1).map fun i : ℕ =>
      (analysis m2 f2 ((List.range n2).map fun j : ℕ => x i j)).getD o2 0)).getD o1 0 =
    (analysis m2 f2 ((List.range n2).map fun j : ℕ =>
      (analysis m1 f1 ((List.range n1).map fun i : ℕ => x i j)).getD o1 0)).getD o2 0 := by
  have h1 := analysis_getD_map (anaLin (M := M) m2 f2 n2 o2) m1 f1 ((List.range n1).map x) o1
  rw [List.map_map] at h1
  have h2 : ∀ j : ℕ, (analysis m1 f1 ((List.range n1).map x)).getD o1 0 j =
      (analysis m1 f1 ((List.range n1).map fun i : ℕ => x i j)).getD o1 0 := by
    intro j
    have := analysis_getD_map (LinearMap.proj (R := R) (φ := fun _ : ℕ => M) j) m1 f1
      ((List.range n1).map x) o1
    rw [List.map_map] at this
    exact this.symm
  have h3 : (anaLin (M := M) m2 f2 n2 o2) ((analysis m1 f1 ((List.range n1).map x)).getD o1 0) =
    (analysis m2 f2 ((List.range n2).map fun j : ℕ =>
      (analysis m1 f1 ((List.range n1).map fun i : ℕ => x i j)).getD o1 0)).getD o2 0 := by
    show (analysis m2 f2 ((List.range n2).map
      ((analysis m1 f1 ((List.range n1).map x)).getD o1 0))).getD o2 0 = _
    congr 2
    apply List.map_congr_left
    intro j _
    exact h2 j
  exact h1.trans h3

theorem Arr.analyze_get {s : Stage R} {c : Char} {x : Arr M} (hs : s.1 < x.shape.length)
    {idx : ℕ → ℕ} (h : InB (x.analyze s c).shape idx) :
    (x.analyze s c).get idx =
      (analysis s.2.2 (s.2.1.decFilter c) (x.line s.1 idx)).getD (idx s.1) 0 :=
  Arr.along_get hs h

theorem analyze_comm {s t : Stage R} {x : Arr M} (hst : s.1 ≠ t.1) (hs : s.1 < x.shape.length)
    (ht : t.1 < x.shape.length) (c d : Char) :
    (x.analyze t d).analyze s c = (x.analyze s c).analyze t d := by
  have hget : ∀ {s t : Stage R} (c d : Char), s.1 ≠ t.1 → s.1 < x.shape.length →
      t.1 < x.shape.length → ∀ idx,
      InB ((x.analyze t d).analyze s c).shape idx →
      ((x.analyze t d).analyze s c).get idx =
      (analysis s.2.2 (s.2.1.decFilter c) ((List.range (x.shape.getD s.1 0)).map fun i : ℕ =>
        (analysis t.2.2 (t.2.1.decFilter d) ((List.range (x.shape.getD t.1 0)).map fun j : ℕ =>
          x.get (Function.update (Function.update idx s.1 i) t.1 j))).getD (idx t.1) 0)).getD
            (idx s.1) 0 := by
    intro s t c d hst hs ht idx hidx
    rw [Arr.analyze_get (by rw [Arr.shape_analyze]; simpa using hs) hidx]
    rw [Arr.shape_analyze] at hidx
    congr 2
    unfold Arr.line
    rw [Arr.shape_analyze, getD_set ht, if_neg hst]
    apply List.map_congr_left
    intro i hi
    rw [List.mem_range] at hi
    rw [Arr.analyze_get ht]
    · unfold Arr.line
      rw [Function.update_of_ne hst.symm]
    · rw [inB_set (by rw [Arr.shape_analyze]; simpa using hs)] at hidx
      rw [Arr.shape_analyze, inB_set ht, Function.update_of_ne hst.symm]
      constructor
      · have := hidx.2 t.1 (by rw [Arr.shape_analyze]; simpa using ht) hst.symm
        rwa [Arr.shape_analyze, getD_set ht, if_pos rfl] at this
      · intro k hk hkt
        by_cases hks : k = s.1
        · subst hks; rw [Function.update_self]; exact hi
        · rw [Function.update_of_ne hks]
          have := hidx.2 k (by rw [Arr.shape_analyze]; simpa using hk) hks
          rwa [Arr.shape_analyze, getD_set ht, if_neg hkt] at this
  have hshape : ((x.analyze t d).analyze s c).shape = ((x.analyze s c).analyze t d).shape := by
    simp only [Arr.shape_analyze, getD_set hs, getD_set ht, if_neg hst, if_neg hst.symm]
    rw [List.set_comm _ _ hst.symm]
  apply Arr.ext_get hshape
  intro idx hidx
  rw [hget c d hst hs ht idx hidx, hget d c hst.symm ht hs idx (hshape ▸ hidx), analysis_swap]
  simp only [Function.update_comm hst.symm]

/-- The subband of a list of (stage, letter) pairs. -/
def Arr.subbandP (ps : List (Stage R × Char)) (x : Arr M) : Arr M :=
  ps.foldl (fun x p => x.analyze p.1 p.2) x

theorem subband_eq_subbandP (st : List (Stage R)) (k : Key) (x : Arr M) :
    x.subband st k = x.subbandP (st.zip k) := by
  induction st generalizing k x with
  | nil => cases k <;> rfl
  | cons s st ih =>
    cases k with
    | nil => rfl
    | cons c k => simp only [Arr.subband, ih]; rfl

theorem subbandP_perm {ps qs : List (Stage R × Char)} (h : ps.Perm qs)
    {x : Arr M} (hn : (ps.map (·.1.1)).Nodup) (hb : ∀ p ∈ ps, p.1.1 < x.shape.length) :
    x.subbandP ps = x.subbandP qs := by
  induction h generalizing x with
  | nil => rfl
  | cons p h ih =>
    simp only [List.map_cons, List.nodup_cons] at hn
    simp only [Arr.subbandP, List.foldl_cons]
    apply ih hn.2
    intro q hq
    rw [Arr.shape_analyze]
    simpa using hb q (by simp [hq])
  | swap p q l =>
    simp only [List.map_cons, List.nodup_cons, List.mem_cons, not_or] at hn
    simp only [Arr.subbandP, List.foldl_cons]
    rw [analyze_comm (Ne.symm hn.1.1) (hb p (by simp)) (hb q (by simp))]
  | trans h1 h2 ih1 ih2 =>
    rw [ih1 hn hb]
    apply ih2
    · exact (h1.map _).nodup_iff.mp hn
    · intro p hp
      exact hb p (h1.mem_iff.mpr hp)

end Comm
end Pywt
