import Verif.Spec.MultilevelN
import Verif.Proof.MultiDimZero
import Verif.Proof.Multi

/-! `wavedecn` computes the cascade. -/

namespace Pywt

open Finset Spec

set_option linter.unusedSectionVars false

variable {R M : Type} [Ring R] [AddCommGroup M] [Module R M]

/-! ### Errors of `dwtn` -/

theorem dwtAxisU_err {s : Stage R} {x : Arr M} (ha : s.1 < x.shape.length)
    (hl : ¬ LenOk s.2.2 (x.shape.getD s.1 0)) :
    dwtAxisU s.2.1 s.2.2 (s.1 : ℤ) x = .error .value := by
  unfold dwtAxisU
  rw [if_neg (by omega)]
  have h2 : x.shape.getD s.1 0 = 0 ∨ tooShort (x.shape.getD s.1 0) s.2.2 = true := by
    by_contra hcon
    simp only [not_or, Bool.not_eq_true] at hcon
    exact hl (lenOk_iff.mpr ⟨by omega, hcon.2⟩)
  exact dwtAxisMem_err ha h2

theorem dwtnStep_err {s : Stage R} {shape : List ℕ} {cs : List (Key × Arr M)}
    (hcs : ∀ p ∈ cs, p.2.shape = shape) (hne : cs ≠ []) (ha : s.1 < shape.length)
    (hl : ¬ LenOk s.2.2 (shape.getD s.1 0)) :
    dwtnStep (s.1 : ℤ) s.2.1 s.2.2 cs = .error .value := by
  cases cs with
  | nil => exact absurd rfl hne
  | cons p cs =>
    have hp := hcs p (by simp)
    simp only [dwtnStep]
    rw [dwtAxisU_err (by rw [hp]; exact ha) (by rw [hp]; exact hl)]
    rfl

theorem dwtnLoop_err {st : List (Stage R)} {shape : List ℕ} {cs : List (Key × Arr M)}
    (hcs : ∀ p ∈ cs, p.2.shape = shape) (hne : cs ≠ [])
    (hb : ∀ s ∈ st, s.1 < shape.length ∧ s.2.1.Ok) (hst : ¬ StagesOk st shape) :
    dwtnLoop (stagesZ st) cs = .error .value := by
  induction st generalizing shape cs with
  | nil => exact absurd trivial hst
  | cons s st ih =>
    obtain ⟨ha, hw⟩ := hb s (by simp)
    have hz : stagesZ (s :: st) = ((s.1 : ℤ), s.2.1, s.2.2) :: stagesZ st := rfl
    rw [hz]
    simp only [dwtnLoop]
    by_cases hl : LenOk s.2.2 (shape.getD s.1 0)
    · rw [dwtnStep_ok hcs ha hw hl]
      simp only [Py_bind_ok]
      refine ih (shape := shape.set s.1 (coeffLen s.2.2 (shape.getD s.1 0) s.2.1.dec_len)) ?_ ?_ ?_ ?_
      · intro p hp
        obtain ⟨q, hq, hp⟩ := List.mem_flatMap.mp hp
        simp only [List.mem_cons, List.not_mem_nil, or_false] at hp
        rcases hp with rfl | rfl <;> rw [Arr.shape_analyze, hcs q hq]
      · cases cs with
        | nil => exact absurd rfl hne
        | cons p cs => simp
      · intro t ht
        simpa using hb t (by simp [ht])
      · intro h
        exact hst ⟨ha, hw, hl, h⟩
    · rw [dwtnStep_err hcs hne ha hl]
      rfl

theorem dwtn_err {x : Arr M} {wavelet : PerAxis (Wavelet R)} {mode : PerAxis Mode}
    {axes : Option (List ℤ)} {st : List (Stage R)}
    (hr : Resolves x.ndim wavelet mode axes st) (hb : ∀ s ∈ st, s.1 < x.ndim ∧ s.2.1.Ok)
    (hst : ¬ StagesOk st x.shape) : dwtn x wavelet mode axes = .error .value := by
  by_cases hd : x.ndim < 1
  · simp only [dwtn, if_pos hd]; rfl
  · simp only [dwtn, if_neg hd, hr.axes_eq, List.length_map, hr.2.1, hr.2.2, Py_bind_ok,
      zipStages_eq]
    exact dwtnLoop_err (shape := x.shape) (by simp) (by simp) hb hst

/-! ### `wavedecn` -/

theorem Resolves.toSome {ndim : ℕ} {wavelet : PerAxis (Wavelet R)} {mode : PerAxis Mode}
    {axes : Option (List ℤ)} {st : List (Stage R)} (h : Resolves ndim wavelet mode axes st) :
    Resolves ndim wavelet mode (some (axes.getD (rangeAxes ndim))) st :=
  ⟨h.axes_eq.symm, h.2.1, h.2.2⟩

theorem Resolves.length {ndim : ℕ} {wavelet : PerAxis (Wavelet R)} {mode : PerAxis Mode}
    {axes : Option (List ℤ)} {st : List (Stage R)} (h : Resolves ndim wavelet mode axes st) :
    (axes.getD (rangeAxes ndim)).length = st.length := by
  have := congrArg List.length h.axes_eq
  simpa [normAxes] using this

theorem replicate_a_mem (n : ℕ) : List.replicate n 'a' ∈ words n :=
  mem_words.mpr ⟨by simp, fun c hc => .inl (List.eq_of_mem_replicate hc)⟩

theorem Arr.shape_approxN (st : List (Stage R)) (n : ℕ) (x : Arr M) :
    (x.approxN st n).shape = (decShape st)^[n] x.shape := by
  induction n generalizing x with
  | zero => rfl
  | succ n ih =>
    unfold approxN at ih ⊢
    rw [Function.iterate_succ_apply, Function.iterate_succ_apply, ih,
      shape_subband (by simp)]

theorem LevelsOkN.tail {st : List (Stage R)} {shape : List ℕ} {n : ℕ}
    (h : LevelsOkN st shape (n + 1)) : LevelsOkN st (decShape st shape) n := by
  intro j hj
  have := h (j + 1) (by omega)
  rwa [Function.iterate_succ_apply] at this

theorem eraseKey_map {keys : List Key} {f : Key → Arr M} {k : Key} :
    eraseKey (keys.map fun k => (k, f k)) k = (keys.filter fun l => l ≠ k).map fun k => (k, f k) := by
  unfold eraseKey
  rw [List.filter_map]
  rfl

theorem wavedecnLoop_ok {wavelet : PerAxis (Wavelet R)} {mode : PerAxis Mode}
    {axes : List ℤ} {st : List (Stage R)} (n : ℕ) (x : Arr M) (hd : 1 ≤ x.ndim)
    (hr : Resolves x.ndim wavelet mode (some axes) st) (acc : List (List (Key × Arr M)))
    (hlv : LevelsOkN st x.shape n) :
    wavedecnLoop wavelet mode axes n x acc =
      .ok (x.approxN st n, acc ++ (List.range n).map fun j => x.detailsN st j) := by
  induction n generalizing x acc with
  | zero => simp [wavedecnLoop, Arr.approxN]
  | succ n ih =>
    have hlen : axes.length = st.length := hr.length
    have h0 := hlv 0 (by omega)
    simp only [wavedecnLoop]
    rw [dwtn_ok hd hr h0]
    simp only [Py_bind_ok, lookupKey, hlen, aKey]
    rw [lookup_map (replicate_a_mem _)]
    simp only [Py_bind_ok, eraseKey_map]
    have hsh : (x.subband st (List.replicate st.length 'a')).shape = decShape st x.shape :=
      shape_subband (by simp) x
    have hnd : (x.subband st (List.replicate st.length 'a')).ndim = x.ndim := by
      unfold Arr.ndim
      rw [hsh, decShape_length]
    rw [ih (x.subband st (List.replicate st.length 'a')) (by rw [hnd]; exact hd)
      (by rw [hnd]; exact hr) _ (by rw [hsh]; exact hlv.tail)]
    congr 2
    rw [List.range_succ_eq_map, List.map_cons, List.map_map, List.append_assoc]
    rfl

theorem wavedecnLoop_err {wavelet : PerAxis (Wavelet R)} {mode : PerAxis Mode}
    {axes : List ℤ} {st : List (Stage R)} (n : ℕ) (x : Arr M) (hd : 1 ≤ x.ndim)
    (hr : Resolves x.ndim wavelet mode (some axes) st)
    (hb : ∀ s ∈ st, s.1 < x.ndim ∧ s.2.1.Ok) (acc : List (List (Key × Arr M)))
    (hlv : ¬ LevelsOkN st x.shape n) :
    wavedecnLoop wavelet mode axes n x acc = .error .value := by
  induction n generalizing x acc with
  | zero => exact absurd (fun j hj => absurd hj (by omega)) hlv
  | succ n ih =>
    have hlen : axes.length = st.length := hr.length
    simp only [wavedecnLoop]
    by_cases h0 : StagesOk st x.shape
    · rw [dwtn_ok hd hr h0]
      simp only [Py_bind_ok, lookupKey, hlen, aKey]
      rw [lookup_map (replicate_a_mem _)]
      simp only [Py_bind_ok, eraseKey_map]
      have hsh : (x.subband st (List.replicate st.length 'a')).shape = decShape st x.shape :=
        shape_subband (by simp) x
      have hnd : (x.subband st (List.replicate st.length 'a')).ndim = x.ndim := by
        unfold Arr.ndim
        rw [hsh, decShape_length]
      refine ih (x.subband st (List.replicate st.length 'a')) (by rw [hnd]; exact hd)
        (by rw [hnd]; exact hr) (by rw [hnd]; exact hb) _ ?_
      rw [hsh]
      intro h
      apply hlv
      intro j hj
      cases j with
      | zero => exact h0
      | succ j => rw [Function.iterate_succ_apply]; exact h j (by omega)
    · rw [dwtn_err hr hb h0]
      rfl

theorem pyIndex_eq {shape : List ℕ} {a : ℤ} {n : ℕ} (hn : n < shape.length)
    (h : (n : ℤ) = if a < 0 then a + (shape.length : ℤ) else a) :
    pyIndex shape a = some (shape.getD n 0) := by
  unfold pyIndex
  split at h
  · rw [if_neg (by omega), if_pos (by omega)]
    have : shape.length - (-a).toNat = n := by omega
    rw [this, List.getElem?_eq_getElem hn, List.getD_eq_getElem (hn := hn)]
  · rw [if_pos (by omega)]
    have : a.toNat = n := by omega
    rw [this, List.getElem?_eq_getElem hn, List.getD_eq_getElem (hn := hn)]

theorem axesShapes_ok {shape : List ℕ} {axes : List ℤ} {st : List (Stage R)}
    (hb : ∀ s ∈ st, s.1 < shape.length)
    (h : normAxes shape.length axes = st.map fun s : Stage R => (s.1 : ℤ)) :
    axesShapes shape axes = .ok (st.map fun s : Stage R => shape.getD s.1 0) := by
  induction axes generalizing st with
  | nil => cases st with
    | nil => rfl
    | cons s st => simp [normAxes] at h
  | cons a axes ih => cases st with
    | nil => simp [normAxes] at h
    | cons s st =>
      simp only [normAxes, List.map_cons, List.cons.injEq] at h
      have e := pyIndex_eq (hb s (by simp)) h.1.symm
      have e2 := ih (fun t ht => hb t (by simp [ht])) h.2
      simp only [axesShapes, e, e2, Py_bind_ok, Py_pure, List.map_cons]

theorem normAxes_nodup {ndim : ℕ} {axes : List ℤ} (h : (normAxes ndim axes).Nodup) : axes.Nodup :=
  List.Nodup.of_map _ h

theorem prepAxes_ok {shape : List ℕ} {wavelet : PerAxis (Wavelet R)} {mode : PerAxis Mode}
    {axes : Option (List ℤ)} {st : List (Stage R)} (hd : 1 ≤ shape.length)
    (hr : Resolves shape.length wavelet mode axes st) (hb : ∀ s ∈ st, s.1 < shape.length)
    (hn : (st.map (·.1)).Nodup) :
    prepAxes shape axes = .ok (axes.getD (rangeAxes shape.length),
      st.map fun s : Stage R => shape.getD s.1 0) := by
  have e0 : ¬ shape.length < 1 := by omega
  have hnd : (axes.getD (rangeAxes shape.length)).Nodup := by
    apply normAxes_nodup (ndim := shape.length)
    rw [hr.axes_eq]
    have : (st.map fun s : Stage R => (s.1 : ℤ)) = (st.map (·.1)).map fun n : ℕ => (n : ℤ) := by
      rw [List.map_map]; rfl
    rw [this]
    exact hn.map fun a b h => by simpa using h
  have e1 : ¬ ¬ (axes.getD (rangeAxes shape.length)).Nodup := not_not.mpr hnd
  simp only [prepAxes, if_neg e0, if_neg e1, axesShapes_ok hb hr.axes_eq, Py_bind_ok, Py_pure]

/-- The largest level that every transformed axis allows. -/
theorem checkLevel_stages {shape : List ℕ} {st : List (Stage R)} (hne : st ≠ [])
    (hw : ∀ s ∈ st, 2 ≤ s.2.1.dec_len) :
    ∃ L, (∀ level, checkLevel (st.map fun s : Stage R => shape.getD s.1 0)
        ((st.map (·.2.1)).map (·.dec_len)) level =
        match level with
        | none => .ok L
        | some l => if l < 0 then .error .value else .ok l.toNat) ∧
      ∀ l, l ≤ L ↔ ∀ s ∈ st, l = 0 ∨ (s.2.1.dec_len - 1) * 2 ^ l ≤ shape.getD s.1 0 := by
  have hz : (st.map fun s : Stage R => shape.getD s.1 0).zip ((st.map (·.2.1)).map (·.dec_len)) =
      st.map fun s : Stage R => (shape.getD s.1 0, s.2.1.dec_len) := by
    rw [List.map_map, List.zip_map']
    rfl
  have hm : (st.map fun s : Stage R => (shape.getD s.1 0, s.2.1.dec_len)).mapM
      (fun p => dwtMaxLevel p.1 p.2) =
      (.ok (st.map fun s : Stage R => dwtMaxLevelC (shape.getD s.1 0) s.2.1.dec_len) :
        Py (List ℕ)) := by
    clear hne hz
    induction st with
    | nil => rfl
    | cons s st ih =>
      have e : dwtMaxLevel (shape.getD s.1 0) s.2.1.dec_len =
          .ok (dwtMaxLevelC (shape.getD s.1 0) s.2.1.dec_len) := by
        unfold dwtMaxLevel
        rw [if_neg]
        have := hw s (by simp)
        omega
      rw [List.map_cons, List.mapM_cons, e]
      simp only [Py_bind_ok]
      rw [ih fun t ht => hw t (by simp [ht])]
      rfl
  cases hmin : (st.map fun s : Stage R => dwtMaxLevelC (shape.getD s.1 0) s.2.1.dec_len).min? with
  | none => rw [List.min?_eq_none_iff] at hmin; simp at hmin; exact absurd hmin hne
  | some L =>
    refine ⟨L, ?_, ?_⟩
    · intro level
      unfold checkLevel
      rw [hz, hm]
      simp only [Py_bind_ok, hmin]
      cases level with
      | none => rfl
      | some l => simp only; split <;> rfl
    · intro l
      rw [List.le_min?_iff hmin]
      constructor
      · intro h s hs
        have := h _ (List.mem_map_of_mem hs)
        exact (dwtMaxLevelC_le (hw s hs)).mp this
      · intro h b hb
        obtain ⟨s, hs, rfl⟩ := List.mem_map.mp hb
        exact (dwtMaxLevelC_le (hw s hs)).mpr (h s hs)

theorem wavedecn_eq {x : Arr M} {wavelet : PerAxis (Wavelet R)} {mode : PerAxis Mode}
    {axes : Option (List ℤ)} {st : List (Stage R)} (hd : 1 ≤ x.ndim) (hne : st ≠ [])
    (hr : Resolves x.ndim wavelet mode axes st) (hb : ∀ s ∈ st, s.1 < x.ndim ∧ s.2.1.Ok)
    (hn : (st.map (·.1)).Nodup) :
    ∃ L, (∀ l, l ≤ L ↔ ∀ s ∈ st, l = 0 ∨ (s.2.1.dec_len - 1) * 2 ^ l ≤ x.shape.getD s.1 0) ∧
      ∀ level, wavedecn x wavelet mode level axes =
        if level.any (· < 0) then .error .value
        else if LevelsOkN st x.shape ((level.map Int.toNat).getD L) then
          .ok (x.cascadeN st ((level.map Int.toNat).getD L))
        else .error .value := by
  obtain ⟨L, hL, hL2⟩ := checkLevel_stages (shape := x.shape) hne fun s hs => (hb s hs).2.1
  refine ⟨L, hL2, ?_⟩
  have key : ∀ n : ℕ, (do
      let (a, ds) ← wavedecnLoop wavelet mode (axes.getD (rangeAxes x.ndim)) n x []
      pure (.arr a :: (ds.map Item.ofDict).reverse) : Py (List (Item M))) =
      if LevelsOkN st x.shape n then .ok (x.cascadeN st n) else .error .value := by
    intro n
    by_cases hlv : LevelsOkN st x.shape n
    · rw [if_pos hlv, wavedecnLoop_ok n x hd hr.toSome [] hlv]
      simp only [Py_bind_ok, Py_pure, List.nil_append, List.map_map]
      rfl
    · rw [if_neg hlv, wavedecnLoop_err n x hd hr.toSome hb [] hlv]
      rfl
  have hlen := hr.length
  intro level
  have hp := prepAxes_ok (shape := x.shape) hd hr (fun s hs => (hb s hs).1) hn
  simp only [wavedecn, hp, Py_bind_ok]
  have hw : wavelet.expand (axes.getD (rangeAxes x.shape.length)).length = .ok (st.map (·.2.1)) := by
    have h2 := hr.2.1
    rw [← hlen] at h2
    exact h2
  rw [hw]
  simp only [Py_bind_ok, hL]
  cases level with
  | none =>
    simp only [Py_bind_ok, Option.any_none, Bool.false_eq_true, if_false]
    exact key L
  | some l =>
    simp only [Option.any_some, decide_eq_true_eq]
    by_cases hl : l < 0
    · rw [if_pos hl, if_pos hl]; rfl
    · rw [if_neg hl, if_neg hl]
      simp only [Py_bind_ok]
      exact key l.toNat

end Pywt

namespace Pywt

open Finset Spec

variable {R M : Type} [Ring R] [AddCommGroup M] [Module R M]

theorem decShape_iter_getD {st : List (Stage R)} {shape : List ℕ} (hn : (st.map (·.1)).Nodup)
    (hb : ∀ s ∈ st, s.1 < shape.length) (j : ℕ) :
    ((decShape st)^[j] shape).length = shape.length ∧
    ∀ s ∈ st, ((decShape st)^[j] shape).getD s.1 0 =
      approxLen s.2.2 s.2.1.dec_len (shape.getD s.1 0) j := by
  induction j generalizing shape with
  | zero => exact ⟨rfl, fun s _ => rfl⟩
  | succ j ih =>
    have hd := decShape_length st shape
    obtain ⟨h1, h2⟩ := ih (shape := decShape st shape) (by rw [hd]; exact hb)
    rw [Function.iterate_succ_apply]
    refine ⟨by rw [h1, hd], ?_⟩
    intro s hs
    rw [h2 s hs, (decShape_getD hn hb).2 s hs, approxLen_succ']

theorem stagesOk_of_lens {st : List (Stage R)} {shape : List ℕ} (hn : (st.map (·.1)).Nodup)
    (h : ∀ s ∈ st, s.1 < shape.length ∧ s.2.1.Ok ∧ LenOk s.2.2 (shape.getD s.1 0)) :
    StagesOk st shape := by
  induction st generalizing shape with
  | nil => trivial
  | cons t st ih =>
    simp only [List.map_cons, List.nodup_cons] at hn
    obtain ⟨a1, a2, a4⟩ := h t (by simp)
    refine ⟨a1, a2, a4, ih hn.2 ?_⟩
    intro s hs
    obtain ⟨b1, b2, b4⟩ := h s (by simp [hs])
    refine ⟨by simpa using b1, b2, ?_⟩
    rw [getD_set a1, if_neg]
    · exact b4
    · intro h
      exact hn.1 (h ▸ List.mem_map_of_mem hs)

theorem levelsOkN_of_default {st : List (Stage R)} {shape : List ℕ} {L : ℕ}
    (hn : (st.map (·.1)).Nodup) (hb : ∀ s ∈ st, s.1 < shape.length ∧ s.2.1.Ok)
    (hL : ∀ l ≤ L, ∀ s ∈ st, l = 0 ∨ (s.2.1.dec_len - 1) * 2 ^ l ≤ shape.getD s.1 0) :
    LevelsOkN st shape L := by
  intro j hj
  obtain ⟨h1, h2⟩ := decShape_iter_getD hn (fun s hs => (hb s hs).1) j
  apply stagesOk_of_lens hn
  intro s hs
  rw [h1, h2 s hs]
  refine ⟨(hb s hs).1, (hb s hs).2, ?_⟩
  have hF : 2 ≤ s.2.1.dec_len := (hb s hs).2.1
  have h3 := approxLen_ge (mode := s.2.2) hF j (n := shape.getD s.1 0) (by
    rcases hL (j + 1) (by omega) s hs with h | h
    · omega
    · exact h)
  exact ⟨by omega, fun _ => by omega⟩

end Pywt
