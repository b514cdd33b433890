import Verif.Proof.Ravel
import Verif.Props.Multi
import Verif.Proof.Waverec2
import Verif.Proof.Examples

/-!
# C23: coefficients raveled into a flat list
-/

namespace Pywt

open Finset Spec

set_option autoImplicit false

section
variable {M : Type} [AddCommGroup M]

/-- **C23, dicts with sorted keys.** The raveled array is the concatenation of all coefficient
arrays in order, whatever was in the fresh memory; its length is `wavedecn_size` of the
coefficients; and `unravel_coeffs` gives the coefficients back. -/
theorem C23_ravel {a : Arr M} {ds : List (List (Key × Arr M))} {axes : Option (List ℤ)}
    (hk : KeyCount a.ndim axes ds) (hs : KeysSorted ds) (junk : ℕ → M) :
    ∃ sl sh, ravelCoeffs (.arr a :: ds.map Item.ofDict) axes junk =
        .ok (a.data ++ flatDetails ds, sl, sh) ∧
      wavedecnSize (.arr a :: ds.map Item.ofDict) = .ok (a.data ++ flatDetails ds).length ∧
      unravelCoeffs (a.data ++ flatDetails ds) sl sh .wavedecn =
        .ok (.arr a :: ds.map Item.ofDict) := by
  refine ⟨_, _, ravelCoeffs_ok hk hs junk, ?_, unravelCoeffs_ok hs.distinct⟩
  simp only [wavedecnSize]
  rw [sizeDicts_eq, count_eq, List.length_append]
  intro c hc
  obtain ⟨x, -, rfl⟩ := List.mem_map.mp hc
  refine ⟨_, rfl, fun p hp => ?_⟩
  obtain ⟨q, -, rfl⟩ := List.mem_map.mp hp
  rfl

/-- **C23, any order of the keys.** If the keys of the dicts are in another order the coefficients
come back in dicts that have the same items, sorted by key. -/
theorem C23_ravel_any_order {a : Arr M} {ds : List (List (Key × Arr M))} {axes : Option (List ℤ)}
    (hk : KeyCount a.ndim axes ds) (hd : KeysDistinct ds)
    (hu : ∀ d ∈ ds, ∀ p ∈ d, ∀ q ∈ d, p.1.length = q.1.length) (junk : ℕ → M) :
    ∃ ds' sl sh, List.Forall₂ List.Perm ds' ds ∧ KeysSorted ds' ∧
      ravelCoeffs (.arr a :: ds.map Item.ofDict) axes junk =
        .ok (a.data ++ flatDetails ds', sl, sh) ∧
      unravelCoeffs (a.data ++ flatDetails ds') sl sh .wavedecn =
        .ok (.arr a :: ds'.map Item.ofDict) := by
  refine ⟨ds.map sortItems, _, _, ?_, keysSorted_sort hd, ?_,
    unravelCoeffs_ok (keysSorted_sort hd).distinct⟩
  · clear * -
    induction ds with
    | nil => exact .nil
    | cons d ds ih => exact .cons (sortItems_perm d) ih
  · rw [ravelCoeffs_sort hk hd hu]
    exact ravelCoeffs_ok (keyCount_sort hk hu) (keysSorted_sort hd) junk

/-- **C23, edited arrays.** Let `sl`, `sh` be the slices and shapes of raveled coefficients and `B`
any list of the same length.  `unravel_coeffs(B, sl, sh)` returns coefficients with the same keys and
shapes, and raveling these gives `B`, `sl`, `sh` again. -/
theorem C23_edited {a : Arr M} {ds : List (List (Key × Arr M))} {axes : Option (List ℤ)}
    (hk : KeyCount a.ndim axes ds) (hs : KeysSorted ds) {junk : ℕ → M} {A B : List M}
    {sl : List RSlice} {sh : List ShapeItem}
    (h : ravelCoeffs (.arr a :: ds.map Item.ofDict) axes junk = .ok (A, sl, sh))
    (hB : B.length = A.length) :
    ∃ (b : Arr M) (es : List (List (Key × Arr M))), b.shape = a.shape ∧
      detailSig es = detailSig ds ∧ b.data ++ flatDetails es = B ∧
      unravelCoeffs B sl sh .wavedecn = .ok (.arr b :: es.map Item.ofDict) ∧
      ravelCoeffs (.arr b :: es.map Item.ofDict) axes junk = .ok (B, sl, sh) := by
  rw [ravelCoeffs_ok hk hs] at h
  simp only [Except.ok.injEq, Prod.mk.injEq] at h
  obtain ⟨rfl, rfl, rfl⟩ := h
  rw [List.length_append] at hB
  obtain ⟨es, e1, e2⟩ := exists_details (detailSig ds) (B.drop a.data.length)
    (by rw [List.length_drop, ← flatDetails_length]; omega)
  have hb : (B.take a.data.length).length = a.shape.prod := by
    rw [List.length_take, ← a.ok]; omega
  have hbl : (B.take a.data.length).length = a.data.length := by rw [hb, a.ok]
  have hsum : B.take a.data.length ++ flatDetails es = B := by rw [e2, List.take_append_drop]
  have hu := unravelCoeffs_ok (a := ⟨a.shape, B.take a.data.length, hb⟩)
    (keysSorted_sig e1.symm hs).distinct
  have hr := ravelCoeffs_ok (a := ⟨a.shape, B.take a.data.length, hb⟩) (axes := axes)
    (keyCount_sig e1.symm hk) (keysSorted_sig e1.symm hs) junk
  simp only [hsum, hbl, listSlices_sig e1, listShapes_sig e1] at hu hr
  exact ⟨⟨a.shape, B.take a.data.length, hb⟩, es, rfl, e1, hsum, hu, hr⟩

/-- **C23, missing details.** Coefficients with a detail that is `None`, at any level, are
rejected with a `ValueError`. -/
theorem C23_missing_detail {a : Arr M} {p : Key × Option (Arr M)} {c : CDict M} {cs : List (CDict M)}
    {axes : Option (List ℤ)} (hk : p.1.length = (match axes with
      | none => a.ndim
      | some l => l.length))
    (h : ∃ d ∈ (p :: c) :: cs, ∃ q ∈ d, q.2 = none) (junk : ℕ → M) :
    ravelCoeffs (.arr a :: ((p :: c) :: cs).map Item.dict) axes junk = .error .value := by
  have e1 : ∃ l, packAxes a.ndim p.1.length axes = .ok l := by
    unfold packAxes
    cases axes with
    | none => exact ⟨rangeAxes a.ndim, by rw [hk]; simp [rangeAxes, Py_pure]⟩
    | some l => exact ⟨l, by simp [hk, Py_pure]⟩
  obtain ⟨l, e1⟩ := e1
  have e2 := sizeDicts_missing h a.data.length
  simp only [List.map_cons] at e2 ⊢
  simp only [ravelCoeffs, headArr, Py_bind_ok, Py_pure, detailsToN, firstKeyLen, e1, wavedecnSize,
    e2, Py_bind_error]

omit [AddCommGroup M] in
/-- **C23, mismatched arguments.** `unravel_coeffs` rejects empty lists of slices or shapes and
lists of different lengths. -/
theorem C23_bad_lists {arr : List M} {sl : List RSlice} {sh : List ShapeItem}
    (h : sl = [] ∨ sh = [] ∨ sl.length ≠ sh.length) (fmt : OutFormat) :
    unravelCoeffs arr sl sh fmt = .error .value := by
  unfold unravelCoeffs
  split
  · rfl
  split
  · rfl
  split
  · rfl
  rename_i h1 h2 h3
  exfalso
  rcases h with rfl | rfl | h
  · exact h1 rfl
  · exact h2 rfl
  · exact h3 (Ne.symm h)

end

section
variable {R M : Type} [Ring R] [AddCommGroup M] [Module R M]

/-- **C23, `wavedecn`.** Raveling and unraveling whatever `wavedecn` returned gives it back. -/
theorem C23_wavedecn {x : Arr M} {wavelet : PerAxis (Wavelet R)} {mode : PerAxis Mode}
    {axes : Option (List ℤ)} {st : List (Stage R)} (hne : st ≠ [])
    (hr : Resolves x.ndim wavelet mode axes st) (hb : ∀ s ∈ st, s.1 < x.ndim ∧ s.2.1.Ok)
    (hn : (st.map (·.1)).Nodup) {level : Option ℤ} {cs : List (Item M)}
    (h : wavedecn x wavelet mode level axes = .ok cs) (junk : ℕ → M) :
    ∃ A sl sh, ravelCoeffs cs axes junk = .ok (A, sl, sh) ∧ wavedecnSize cs = .ok A.length ∧
      unravelCoeffs A sl sh .wavedecn = .ok cs := by
  have hd : 1 ≤ x.ndim := by
    cases st with
    | nil => exact absurd rfl hne
    | cons s st => have := (hb s (by simp)).1; omega
  obtain ⟨L, -, hall⟩ := wavedecn_eq hd hne hr hb hn
  rw [hall] at h
  split at h
  · simp at h
  split at h
  · simp only [Except.ok.injEq] at h
    subst h
    obtain ⟨e1, e2, e3⟩ := packable_cascade hne hb hn ((level.map Int.toNat).getD L)
    rw [e1]
    have ha : AxesAre (x.approxN st ((level.map Int.toNat).getD L)).ndim axes (st.map (·.1)) := by
      rw [e2]; exact resolves_axesAre hr (fun s hs => (hb s hs).1) hn
    have hs : KeysSorted (((List.range ((level.map Int.toNat).getD L)).map fun j =>
        x.detailsN st j).reverse) := by
      intro d hd
      rw [List.mem_reverse, List.mem_map] at hd
      obtain ⟨j, -, rfl⟩ := hd
      unfold Arr.detailsN
      rw [List.map_map]
      have : ((fun x : Key × Arr M => x.1) ∘ fun k => (k, (x.approxN st j).subband st k)) = id := rfl
      rw [this, List.map_id]
      exact (words_sorted _).filter _
    obtain ⟨sl, sh, p1, p2, p3⟩ := C23_ravel (e3.keyCount ha) hs junk
    exact ⟨_, sl, sh, p1, p2, p3⟩
  · simp at h

/-- **C23, `wavedec2`.** The same for `wavedec2`, unraveled in that format. -/
theorem C23_wavedec2 {x : Arr M} {wavelet : PerAxis (Wavelet R)}
    {mode : PerAxis Mode} {axes : List ℤ} {s t : Stage R}
    (hr : Resolves x.ndim wavelet mode (some axes) [s, t])
    (hb : ∀ u ∈ [s, t], u.1 < x.ndim ∧ u.2.1.Ok) (hst : s.1 ≠ t.1) {level : Option ℤ}
    {cs : List (Item M)} (h : wavedec2 x wavelet mode level axes = .ok cs) (junk : ℕ → M) :
    ∃ A sl sh, ravelCoeffs cs (some axes) junk = .ok (A, sl, sh) ∧
      unravelCoeffs A sl sh .wavedec2 = .ok cs := by
  have hn : ([s, t].map (·.1)).Nodup := by simpa using hst
  obtain ⟨L, -, hall⟩ := wavedec2_eq hr hb hst
  rw [hall] at h
  split at h
  · simp at h
  split at h
  · simp only [Except.ok.injEq] at h
    subst h
    generalize (level.map Int.toNat).getD L = n
    obtain ⟨-, e2, e3⟩ := packable_cascade (by simp) hb hn n
    have hdet : ((List.range n).map fun j => x.detailsN [s, t] j).reverse =
        triples (((List.range n).map fun j =>
          ((x.approxN [s, t] j).subband [s, t] ['d', 'a'],
           (x.approxN [s, t] j).subband [s, t] ['a', 'd'],
           (x.approxN [s, t] j).subband [s, t] ['d', 'd']))).reverse := by
      rw [triples, List.map_reverse, List.map_map]
      rfl
    have hc2 : x.cascade2 [s, t] n = .arr (x.approxN [s, t] n) :: (((List.range n).map fun j =>
          ((x.approxN [s, t] j).subband [s, t] ['d', 'a'],
           (x.approxN [s, t] j).subband [s, t] ['a', 'd'],
           (x.approxN [s, t] j).subband [s, t] ['d', 'd'])).reverse).map Item.ofTriple := by
      unfold Arr.cascade2
      rw [List.map_reverse, List.map_map]
      rfl
    rw [hdet] at e3
    rw [hc2, ravelCoeffs_triples]
    obtain ⟨sl, sh, p1, p2, p3⟩ := C23_ravel (e3.keyCount (axes := some axes)
      (by rw [e2]; exact resolves_axesAre hr (fun s hs => (hb s hs).1) hn))
      (keysSorted_triples _) junk
    exact ⟨_, sl, sh, p1, unravelCoeffs_conv (fun ss ts => unravelLoop_triples _ ss ts) p3⟩
  · simp at h

/-- **C23, `wavedec`.** The same for the coefficients of `wavedec` of a 1-D signal: the raveled
array is their concatenation. -/
theorem C23_wavedec {w : Wavelet R} (hw : w.Ok) {mode : Mode} {level : Option ℤ} {x : List M}
    {cs : List (List M)} (h : wavedec w mode level x = .ok cs) (junk : ℕ → M) :
    ∃ sl sh, ravelCoeffs (cs.map fun c => .arr (Arr.ofList c)) none junk = .ok (cs.flatten, sl, sh) ∧
      unravelCoeffs cs.flatten sl sh .wavedec = .ok (cs.map fun c => .arr (Arr.ofList c)) := by
  obtain ⟨l, h⟩ : ∃ l : ℤ, wavedec w mode (some l) x = .ok cs := by
    cases level with
    | some l => exact ⟨l, h⟩
    | none =>
      obtain ⟨L, -, e⟩ := C09_wavedec_default_level hw mode x
      exact ⟨L, e ▸ h⟩
  rw [C09_wavedec_explicit_level hw] at h
  split at h
  · simp at h
  split at h
  · simp only [Except.ok.injEq] at h
    subst h
    generalize l.toNat = n
    have e1 : (cascade mode w.dec_lo w.dec_hi n x).map (fun c => Item.arr (Arr.ofList c)) =
        .arr (Arr.ofList (approx mode w.dec_lo n x)) :: (((List.range n).map fun j =>
          Arr.ofList (detail mode w.dec_lo w.dec_hi j x)).reverse).map Item.arr := by
      unfold cascade
      rw [List.map_cons, List.map_reverse, List.map_reverse, List.map_map, List.map_map]
      rfl
    have e2 : (cascade mode w.dec_lo w.dec_hi n x).flatten =
        (Arr.ofList (approx mode w.dec_lo n x)).data ++ flatDetails (single (((List.range n).map
          fun j => Arr.ofList (detail mode w.dec_lo w.dec_hi j x)).reverse)) := by
      unfold cascade
      rw [List.flatten_cons]
      simp only [flatDetails, single, List.flatMap_map, ← List.map_reverse]
      simp [Arr.ofList, List.flatMap_def]
    rw [e1, e2, ravelCoeffs_single]
    · obtain ⟨sl, sh, p1, p2, p3⟩ := C23_ravel (axes := none)
        (a := Arr.ofList (approx mode w.dec_lo n x))
        (ds := single (((List.range n).map
          fun j => Arr.ofList (detail mode w.dec_lo w.dec_hi j x)).reverse))
        (by
          cases (((List.range n).map
            fun j => Arr.ofList (detail mode w.dec_lo w.dec_hi j x)).reverse) with
          | nil => trivial
          | cons d ds => rfl) (keysSorted_single _) junk
      exact ⟨sl, sh, p1, unravelCoeffs_conv (fun ss ts => unravelLoop_single _ ss ts) p3⟩
    · intro d hd
      rw [List.mem_reverse, List.mem_map] at hd
      obtain ⟨j, -, rfl⟩ := hd
      rfl
  · simp at h

end

/-! Two levels of a 2-D transform meet the hypotheses; the keys of the first level are also given in
another order. -/

example : KeyCount (M := ℚ) 2 none
      [[(['a', 'd'], .zero [2, 3]), (['d', 'a'], .zero [2, 3]), (['d', 'd'], .zero [2, 3])],
       [(['a', 'd'], .zero [4, 5]), (['d', 'a'], .zero [4, 5]), (['d', 'd'], .zero [4, 5])]] ∧
    KeysSorted (M := ℚ)
      [[(['a', 'd'], .zero [2, 3]), (['d', 'a'], .zero [2, 3]), (['d', 'd'], .zero [2, 3])],
       [(['a', 'd'], .zero [4, 5]), (['d', 'a'], .zero [4, 5]), (['d', 'd'], .zero [4, 5])]] := by
  refine ⟨rfl, ?_⟩
  intro d hd
  simp only [List.mem_cons, List.not_mem_nil, or_false] at hd
  rcases hd with rfl | rfl <;> simp only [List.map_cons, List.map_nil] <;> decide

example : KeyCount (M := ℚ) 2 none
      [[(['d', 'd'], .zero [2, 3]), (['a', 'd'], .zero [2, 3]), (['d', 'a'], .zero [2, 3])]] ∧
    KeysDistinct (M := ℚ)
      [[(['d', 'd'], .zero [2, 3]), (['a', 'd'], .zero [2, 3]), (['d', 'a'], .zero [2, 3])]] := by
  refine ⟨rfl, ?_⟩
  intro d hd
  simp only [List.mem_cons, List.not_mem_nil, or_false] at hd
  subst hd
  simp only [List.map_cons, List.map_nil]
  decide

end Pywt
