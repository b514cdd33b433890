import Verif.Proof.WaverecN

/-! `wavedec2` and `waverec2`. -/

namespace Pywt

open Finset Spec

set_option linter.unusedSectionVars false

variable {R M : Type} [Ring R] [AddCommGroup M] [Module R M]

/-- The triple of details of level `j+1`. -/
def Arr.triple (st : List (Stage R)) (j : ℕ) (x : Arr M) : Arr M × Arr M × Arr M :=
  ((x.approxN st j).subband st ['d', 'a'], (x.approxN st j).subband st ['a', 'd'],
      (x.approxN st j).subband st ['d', 'd'])

theorem dwt2_ok {x : Arr M} {wavelet : PerAxis (Wavelet R)} {mode : PerAxis Mode}
    {axes : List ℤ} {s t : Stage R} (hd : 2 ≤ x.ndim)
    (hr : Resolves x.ndim wavelet mode (some axes) [s, t]) (hst : StagesOk [s, t] x.shape) :
    dwt2 x wavelet mode axes = .ok (x.approxN [s, t] 1, x.triple [s, t] 0) := by
  have hlen : axes.length = 2 := hr.length
  have hu : ¬ x.ndim < numUnique axes := by
    have h1 : numUnique axes ≤ axes.length := (List.dedup_sublist axes).length_le
    omega
  unfold dwt2
  rw [if_neg (by simpa using hlen), if_neg hu, dwtn_ok (by omega) hr hst]
  rfl

theorem dwt2_err {x : Arr M} {wavelet : PerAxis (Wavelet R)} {mode : PerAxis Mode}
    {axes : List ℤ} {s t : Stage R} (hd : 2 ≤ x.ndim)
    (hr : Resolves x.ndim wavelet mode (some axes) [s, t])
    (hb : ∀ u ∈ [s, t], u.1 < x.ndim ∧ u.2.1.Ok) (hst : ¬ StagesOk [s, t] x.shape) :
    dwt2 x wavelet mode axes = .error .value := by
  have hlen : axes.length = 2 := hr.length
  have hu : ¬ x.ndim < numUnique axes := by
    have h1 : numUnique axes ≤ axes.length := (List.dedup_sublist axes).length_le
    omega
  unfold dwt2
  rw [if_neg (by simpa using hlen), if_neg hu, dwtn_err hr hb hst]
  rfl

theorem wavedec2Loop_ok {wavelet : PerAxis (Wavelet R)} {mode : PerAxis Mode}
    {axes : List ℤ} {s t : Stage R} (n : ℕ) (x : Arr M) (hd : 2 ≤ x.ndim)
    (hr : Resolves x.ndim wavelet mode (some axes) [s, t]) (acc : List (Arr M × Arr M × Arr M))
    (hlv : LevelsOkN [s, t] x.shape n) :
    wavedec2Loop wavelet mode axes n x acc =
      .ok (x.approxN [s, t] n, acc ++ (List.range n).map fun j => x.triple [s, t] j) := by
  induction n generalizing x acc with
  | zero => simp [wavedec2Loop, Arr.approxN]
  | succ n ih =>
    have h0 := hlv 0 (by omega)
    simp only [wavedec2Loop]
    rw [dwt2_ok hd hr h0]
    simp only [Py_bind_ok]
    have hsh : (x.approxN [s, t] 1).shape = decShape [s, t] x.shape := Arr.shape_approxN _ 1 x
    have hnd := Arr.approxN_ndim [s, t] 1 x
    rw [ih (x.approxN [s, t] 1) (by rw [hnd]; exact hd) (by rw [hnd]; exact hr) _
      (by rw [hsh]; exact hlv.tail)]
    congr 2
    rw [List.range_succ_eq_map, List.map_cons, List.map_map, List.append_assoc]
    rfl

theorem wavedec2Loop_err {wavelet : PerAxis (Wavelet R)} {mode : PerAxis Mode}
    {axes : List ℤ} {s t : Stage R} (n : ℕ) (x : Arr M) (hd : 2 ≤ x.ndim)
    (hr : Resolves x.ndim wavelet mode (some axes) [s, t])
    (hb : ∀ u ∈ [s, t], u.1 < x.ndim ∧ u.2.1.Ok) (acc : List (Arr M × Arr M × Arr M))
    (hlv : ¬ LevelsOkN [s, t] x.shape n) :
    wavedec2Loop wavelet mode axes n x acc = .error .value := by
  induction n generalizing x acc with
  | zero => exact absurd (fun j hj => absurd hj (by omega)) hlv
  | succ n ih =>
    simp only [wavedec2Loop]
    by_cases h0 : StagesOk [s, t] x.shape
    · rw [dwt2_ok hd hr h0]
      simp only [Py_bind_ok]
      have hsh : (x.approxN [s, t] 1).shape = decShape [s, t] x.shape := Arr.shape_approxN _ 1 x
      have hnd := Arr.approxN_ndim [s, t] 1 x
      refine ih (x.approxN [s, t] 1) (by rw [hnd]; exact hd) (by rw [hnd]; exact hr)
        (by rw [hnd]; exact hb) _ ?_
      rw [hsh]
      intro h
      apply hlv
      intro j hj
      cases j with
      | zero => exact h0
      | succ j => rw [Function.iterate_succ_apply]; exact h j (by omega)
    · rw [dwt2_err hd hr hb h0]
      rfl

theorem wavedec2_eq {x : Arr M} {wavelet : PerAxis (Wavelet R)} {mode : PerAxis Mode}
    {axes : List ℤ} {s t : Stage R}
    (hr : Resolves x.ndim wavelet mode (some axes) [s, t])
    (hb : ∀ u ∈ [s, t], u.1 < x.ndim ∧ u.2.1.Ok) (hst : s.1 ≠ t.1) :
    ∃ L, (∀ l, l ≤ L ↔ ∀ u ∈ [s, t], l = 0 ∨ (u.2.1.dec_len - 1) * 2 ^ l ≤ x.shape.getD u.1 0) ∧
      ∀ level, wavedec2 x wavelet mode level axes =
        if level.any (· < 0) then .error .value
        else if LevelsOkN [s, t] x.shape ((level.map Int.toNat).getD L) then
          .ok (x.cascade2 [s, t] ((level.map Int.toNat).getD L))
        else .error .value := by
  obtain ⟨L, hL, hL2⟩ := checkLevel_stages (shape := x.shape) (st := [s, t]) (by simp)
    fun s hs => (hb s hs).2.1
  refine ⟨L, hL2, ?_⟩
  have h1 := (hb s (by simp)).1
  have h2 := (hb t (by simp)).1
  have hd : 2 ≤ x.ndim := by omega
  have key : ∀ n : ℕ, (do
      let (a, ds) ← wavedec2Loop wavelet mode axes n x []
      pure (.arr a :: (ds.map Item.ofTriple).reverse) : Py (List (Item M))) =
      if LevelsOkN [s, t] x.shape n then .ok (x.cascade2 [s, t] n) else .error .value := by
    intro n
    by_cases hlv : LevelsOkN [s, t] x.shape n
    · rw [if_pos hlv, wavedec2Loop_ok n x hd hr [] hlv]
      simp only [Py_bind_ok, Py_pure, List.nil_append, List.map_map]
      rfl
    · rw [if_neg hlv, wavedec2Loop_err n x hd hr hb [] hlv]
      rfl
  have hlen : axes.length = 2 := hr.length
  have hn : ([s, t].map (·.1)).Nodup := by simpa using hst
  have hnd : axes.Nodup := by
    apply normAxes_nodup (ndim := x.ndim)
    have := hr.axes_eq
    simp only [Option.getD_some] at this
    rw [this]
    have : ([s, t].map fun s : Stage R => (s.1 : ℤ)) = ([s, t].map (·.1)).map fun n : ℕ => (n : ℤ) := by
      rw [List.map_map]; rfl
    rw [this]
    exact hn.map fun a b h => by simpa using h
  have e0 : ¬ x.ndim < 2 := by omega
  have e1 : ¬ axes.length ≠ 2 := by simpa using hlen
  have e2 : ¬ ¬ axes.Nodup := not_not.mpr hnd
  have e3 := axesShapes_ok (shape := x.shape) (fun s hs => (hb s hs).1) hr.axes_eq
  simp only [Option.getD_some] at e3
  have hw : wavelet.expand axes.length = .ok ([s, t].map (·.2.1)) := by
    have h2 := hr.2.1
    rw [hlen]
    exact h2
  intro level
  simp only [wavedec2, if_neg e0, if_neg e1, if_neg e2, e3, Py_bind_ok, hw, hL]
  cases level with
  | none =>
    simp only [Py_bind_ok, Option.any_none, Bool.false_eq_true, if_false]
    exact key L
  | some l =>
    simp only [Option.any_some, decide_eq_true_eq]
    by_cases hl : l < 0
    · rw [if_pos hl, if_pos hl]; rfl
    · rw [if_neg hl, if_neg hl]
      simp only [Py_bind_ok]
      exact key l.toNat

theorem idwt2_triple {x : Arr M} {wavelet : PerAxis (Wavelet R)} {mode : PerAxis Mode}
    {axes : List ℤ} {s t : Stage R} (hr : Resolves x.ndim wavelet mode (some axes) [s, t])
    {n : ℕ} (hinv : StagesInv [s, t] (x.approxN [s, t] n).shape) :
    ∃ y, idwt2 (some (x.approxN [s, t] (n + 1)), (some (x.triple [s, t] n).1,
        some (x.triple [s, t] n).2.1, some (x.triple [s, t] n).2.2)) wavelet mode axes =
        .ok (some y) ∧
      y.shape.length = (x.approxN [s, t] n).shape.length ∧
      (∀ u ∈ [s, t], y.shape.getD u.1 0 =
        (x.approxN [s, t] n).shape.getD u.1 0 + (x.approxN [s, t] n).shape.getD u.1 0 % 2) ∧
      (∀ j, j ∉ [s, t].map (·.1) → y.shape.getD j 0 = (x.approxN [s, t] n).shape.getD j 0) ∧
      y.Extends (x.approxN [s, t] n) := by
  have hlen : axes.length = 2 := hr.length
  have e0 : ¬ axes.length ≠ 2 := by simpa using hlen
  simp only [idwt2, if_neg e0]
  apply idwtn_bands (by rw [Arr.approxN_ndim]; exact hr) hinv
  · intro p hp
    simp only [List.mem_cons, List.not_mem_nil, or_false] at hp
    rcases hp with rfl | rfl | rfl | rfl
    · exact ⟨show ['a', 'a'] ∈ words 2 by decide, by rw [Arr.approxN_succ]; rfl⟩
    · exact ⟨show ['d', 'a'] ∈ words 2 by decide, rfl⟩
    · exact ⟨show ['a', 'd'] ∈ words 2 by decide, rfl⟩
    · exact ⟨show ['d', 'd'] ∈ words 2 by decide, rfl⟩
  · have : ∀ k ∈ words 2, k ∈ [['a', 'a'], ['d', 'a'], ['a', 'd'], ['d', 'd']] := by decide
    intro k hk
    exact this k hk

theorem waverec2Trim_ok {x a : Arr M} {s t : Stage R} {n : ℕ}
    (ha : a.Extends (x.approxN [s, t] (n + 1)))
    (hnear : Near a.shape (x.approxN [s, t] (n + 1)).shape) :
    waverec2Trim (some a) [some (x.triple [s, t] n).1, some (x.triple [s, t] n).2.1,
      some (x.triple [s, t] n).2.2] = .ok (some (x.approxN [s, t] (n + 1))) := by
  have hsh : ∀ k : Key, k.length = 2 →
      ((x.approxN [s, t] n).subband [s, t] k).shape = (x.approxN [s, t] (n + 1)).shape := by
    intro k hk
    rw [Arr.approxN_succ, shape_subband hk, shape_subband (by simp)]
  have h1 : (x.triple [s, t] n).1.shape = (x.approxN [s, t] (n + 1)).shape := hsh ['d', 'a'] rfl
  have h2 : (x.triple [s, t] n).2.1.shape = (x.approxN [s, t] (n + 1)).shape := hsh ['a', 'd'] rfl
  have h3 : (x.triple [s, t] n).2.2.shape = (x.approxN [s, t] (n + 1)).shape := hsh ['d', 'd'] rfl
  have e : ([some (x.triple [s, t] n).1, some (x.triple [s, t] n).2.1,
      some (x.triple [s, t] n).2.2].filterMap id) =
      [(x.triple [s, t] n).1, (x.triple [s, t] n).2.1, (x.triple [s, t] n).2.2] := rfl
  simp only [waverec2Trim, e, h1]
  rw [if_neg]
  · simp only [Option.map_some, trimShape_of_near hnear, ha.crop]
    rfl
  · simp [h2, h3]

theorem waverec2Loop_cascade {x : Arr M} {wavelet : PerAxis (Wavelet R)} {mode : PerAxis Mode}
    {axes : List ℤ} {s t : Stage R} (hr : Resolves x.ndim wavelet mode (some axes) [s, t])
    (hn : s.1 ≠ t.1)
    (hpr : ∀ u ∈ [s, t], PR u.2.1.dec_lo u.2.1.dec_hi u.2.1.rec_lo u.2.1.rec_hi) (n : ℕ) :
    ∀ a : Arr M, LevelsOkN [s, t] x.shape n → a.Extends (x.approxN [s, t] n) →
      Near a.shape (x.approxN [s, t] n).shape →
      ∃ y, waverec2Loop wavelet mode axes (some a)
          (((List.range n).map fun j => Item.ofTriple (x.triple [s, t] j)).reverse) = .ok (some y) ∧
        (n = 0 → y = a) ∧
        (1 ≤ n → y.shape.length = x.shape.length ∧
          (∀ u ∈ [s, t], y.shape.getD u.1 0 = x.shape.getD u.1 0 + x.shape.getD u.1 0 % 2) ∧
          (∀ j, j ∉ [s, t].map (·.1) → y.shape.getD j 0 = x.shape.getD j 0)) ∧ y.Extends x := by
  induction n with
  | zero =>
    intro a _ ha _
    exact ⟨a, rfl, fun _ => rfl, fun h => absurd h (by omega), ha⟩
  | succ n ih =>
    intro a hlv ha hnear
    have hst : StagesOk [s, t] (x.approxN [s, t] n).shape := by
      rw [Arr.shape_approxN]; exact hlv n (by omega)
    obtain ⟨y, e1, e2, e3, e4, e5⟩ := idwt2_triple hr (n := n)
      (hst.invertible (by simpa using hn) hpr)
    obtain ⟨z, z1, z2, z3, z4⟩ := ih y (fun j hj => hlv j (by omega)) e5
      (near_of_parity e2 e3 e4)
    refine ⟨z, ?_, by omega, ?_, z4⟩
    · rw [List.range_succ, List.map_append, List.reverse_append]
      simp only [List.map_cons, List.map_nil, List.reverse_cons, List.reverse_nil, List.nil_append,
        List.cons_append]
      conv_lhs => simp only [Item.ofTriple, waverec2Loop, waverec2Trim_ok ha hnear, Py_bind_ok, e1]
      exact z1
    · intro _
      cases n with
      | zero =>
        rw [z2 rfl]
        exact ⟨e2, e3, e4⟩
      | succ n => exact z3 (by omega)

theorem waverec2_cascade {x : Arr M} {wavelet : PerAxis (Wavelet R)} {mode : PerAxis Mode}
    {axes : List ℤ} {s t : Stage R} (hr : Resolves x.ndim wavelet mode (some axes) [s, t])
    (hn : s.1 ≠ t.1)
    (hpr : ∀ u ∈ [s, t], PR u.2.1.dec_lo u.2.1.dec_hi u.2.1.rec_lo u.2.1.rec_hi) {n : ℕ}
    (hlv : LevelsOkN [s, t] x.shape n) :
    ∃ y, waverec2 (x.cascade2 [s, t] n) wavelet mode axes = .ok (.arr y) ∧
        (n = 0 → y = x) ∧
        (1 ≤ n → y.shape.length = x.shape.length ∧
          (∀ u ∈ [s, t], y.shape.getD u.1 0 = x.shape.getD u.1 0 + x.shape.getD u.1 0 % 2) ∧
          (∀ j, j ∉ [s, t].map (·.1) → y.shape.getD j 0 = x.shape.getD j 0)) ∧ y.Extends x := by
  have hnd : axes.Nodup := by
    apply normAxes_nodup (ndim := x.ndim)
    have := hr.axes_eq
    simp only [Option.getD_some] at this
    rw [this]
    simpa using hn
  have e2 : ¬ ¬ axes.Nodup := not_not.mpr hnd
  cases n with
  | zero =>
    refine ⟨x, ?_, fun _ => rfl, fun h => absurd h (by omega), Arr.Extends.refl x⟩
    simp only [waverec2, if_neg e2]
    rfl
  | succ n =>
    obtain ⟨y, e1, -, e3, e4⟩ := waverec2Loop_cascade hr hn hpr (n + 1)
      (x.approxN [s, t] (n + 1)) hlv (Arr.Extends.refl _) (Near.refl _)
    refine ⟨y, ?_, by omega, e3, e4⟩
    simp only [waverec2, if_neg e2, Arr.cascade2]
    have hds : ((List.range (n + 1)).map fun j => Item.ofTriple (x.triple [s, t] j)).reverse =
        ((List.range (n + 1)).map fun j => Item.ofTriple
          ((x.approxN [s, t] j).subband [s, t] ['d', 'a'],
            (x.approxN [s, t] j).subband [s, t] ['a', 'd'],
            (x.approxN [s, t] j).subband [s, t] ['d', 'd'])).reverse := rfl
    rw [hds] at e1
    generalize hl : ((List.range (n + 1)).map fun j => Item.ofTriple
          ((x.approxN [s, t] j).subband [s, t] ['d', 'a'],
            (x.approxN [s, t] j).subband [s, t] ['a', 'd'],
            (x.approxN [s, t] j).subband [s, t] ['d', 'd'])).reverse = ds at e1
    cases ds with
    | nil => simp at hl
    | cons d ds =>
      simp only [Item.toOption, Py_pure, Py_bind_ok, e1]
      rfl

end Pywt
