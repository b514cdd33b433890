import Verif.Proof.PackFmt
import Verif.Props.Multi
import Verif.Proof.Waverec2
import Verif.Proof.Examples

/-!
# C22: coefficients packed into one array

The specification (`Verif.Spec.Pack`) places every array of a coefficient list in a *box* of the
packed array: the approximation at the origin, a detail array of a level behind the block of all
coarser coefficients on the axes with letter `d` and at the beginning on the others.
-/

namespace Pywt

open Finset Spec

set_option autoImplicit false

section
variable {M : Type} [AddCommGroup M]

/-- **C22, placement.** The boxes are pairwise disjoint and lie inside the packed array, every box
holds its coefficients, everything else is `padding`; and `array_to_coeffs` with the returned slices
gives the coefficients back. -/
theorem C22_placement {a : Arr M} {ds : List (List (Key × Arr M))} {axes : Option (List ℤ)}
    {ax : List ℕ} (ha : AxesAre a.ndim axes ax) (hp : Packable ax a.shape ds) (padding : M)
    (junk : ℕ → M) :
    ∃ A sl, coeffsToArray (.arr a :: ds.map Item.ofDict) (some padding) axes junk = .ok (A, sl) ∧
      A.shape = packedShape ax a.shape ds ∧
      (allBoxes ax a ds).Pairwise Box.Disjoint ∧
      (∀ b ∈ allBoxes ax a ds, b.arr.shape.length = A.shape.length ∧
        ∀ j < A.shape.length, b.lo j + b.arr.shape.getD j 0 ≤ A.shape.getD j 0) ∧
      (∀ b ∈ allBoxes ax a ds, ∀ idx, InB b.arr.shape idx →
        A.get (fun j => b.lo j + idx j) = b.arr.get idx) ∧
      (∀ idx, InB A.shape idx → (∀ b ∈ allBoxes ax a ds, ¬ b.Covers idx) → A.get idx = padding) ∧
      arrayToCoeffs A sl .wavedecn = .ok (.arr a :: ds.map Item.ofDict) := by
  obtain ⟨A, base, h1, h2, h3, h4⟩ := coeffsToArray_ok ha hp (padding := some padding) (by simp) junk
  have hin := allBoxes_inside ha.2.1 ha.2.2 hp
  have hl : A.shape.length = a.shape.length := by rw [h2, packedShape_length]
  refine ⟨A, _, h1, h2, allBoxes_disjoint ha.2.1 ha.2.2 hp, ?_, ?_, ?_,
    arrayToCoeffs_ok ha hp h2 h3⟩
  · intro b hb
    rw [hl, h2]
    exact hin b hb
  · intro b hb idx hidx
    have hc : b.Covers fun j => b.lo j + idx j := by
      intro k hk
      exact ⟨Nat.le_add_right _ _, Nat.add_lt_add_left (hidx k hk) _⟩
    have hA : InB A.shape fun j => b.lo j + idx j := by
      intro k hk
      rw [hl] at hk
      obtain ⟨i1, i2⟩ := hin b hb
      have := hidx k (by omega)
      have := i2 k hk
      rw [h2]
      simp only
      omega
    rw [h3.1 b hb _ hA hc]
    exact Arr.get_congr _ fun k _ => Nat.add_sub_cancel_left _ _
  · intro idx hidx hc
    rw [h3.2 idx hidx hc, h4 padding rfl]

/-- **C22, `padding=None`, tight.** If the coefficients fill the array without gaps, every index of
it belongs to a box, and the result does not depend on the contents of the fresh memory: it is the
result with any padding value. -/
theorem C22_tight {a : Arr M} {ds : List (List (Key × Arr M))} {axes : Option (List ℤ)}
    {ax : List ℕ} (ha : AxesAre a.ndim axes ax) (hp : Packable ax a.shape ds)
    (ht : TightPacking ax a ds) (padding : M) (junk junk' : ℕ → M) :
    (∀ idx, InB (packedShape ax a.shape ds) idx → ∃ b ∈ allBoxes ax a ds, b.Covers idx) ∧
      ∃ A sl, coeffsToArray (.arr a :: ds.map Item.ofDict) none axes junk = .ok (A, sl) ∧
        coeffsToArray (.arr a :: ds.map Item.ofDict) (some padding) axes junk' = .ok (A, sl) ∧
        arrayToCoeffs A sl .wavedecn = .ok (.arr a :: ds.map Item.ofDict) := by
  have hcov : ∀ idx, InB (packedShape ax a.shape ds) idx → ∃ b ∈ allBoxes ax a ds, b.Covers idx :=
    fun idx hidx => tight_covers ha.2.1 ha.2.2 hp ht hidx
  refine ⟨hcov, ?_⟩
  obtain ⟨A, base, h1, h2, h3, h4⟩ := coeffsToArray_ok ha hp (padding := none) (fun _ => ht) junk
  obtain ⟨B, base', g1, g2, g3, g4⟩ := coeffsToArray_ok ha hp (padding := some padding) (by simp)
    junk'
  have hAB : A = B := by
    refine Arr.ext_get (h2.trans g2.symm) fun idx hidx => ?_
    have hB : InB B.shape idx := by rw [g2, ← h2]; exact hidx
    rw [h2] at hidx
    obtain ⟨b, hb, hc⟩ := hcov idx hidx
    rw [h3.1 b hb idx (by rw [h2]; exact hidx) hc, g3.1 b hb idx hB hc]
  subst hAB
  exact ⟨A, _, h1, g1, arrayToCoeffs_ok ha hp h2 h3⟩

/-- **C22, `padding=None`, not tight.** Coefficients that leave gaps are rejected. -/
theorem C22_not_tight {a : Arr M} {d : List (Key × Arr M)} {ds : List (List (Key × Arr M))}
    {axes : Option (List ℤ)} {ax : List ℕ} (ha : AxesAre a.ndim axes ax)
    (hp : Packable ax a.shape (d :: ds)) (ht : ¬ TightPacking ax a (d :: ds)) (junk : ℕ → M) :
    coeffsToArray (.arr a :: (d :: ds).map Item.ofDict) none axes junk = .error .value := by
  have e0 := detailsToN_dict d ds
  have e1 := firstKeyLen_ok hp
  have e2 := packAxes_ok ha
  have e3 := arrShapeLoop_ok (axes := axes.getD (rangeAxes a.ndim)) ha.2.1 (d :: ds) a.shape ha.norm
    ha.2.2 hp a.data.length
  have e4 : decide ((packedShape ax a.shape (d :: ds)).prod = a.data.length +
      ((d :: ds).map fun d => (d.map fun p => p.2.data.length).sum).sum) = false :=
    decide_eq_false ht
  simp only [List.map_cons] at e0 e1 e3 e4 ⊢
  simp only [coeffsToArray, headArr, Py_bind_ok, Py_pure, e0, e1, e2, e3, e4, packInit,
    Bool.not_false, if_true, Py_throw, Py_bind_error]

/-- **C22, edited arrays.** Let `sl` be the slices of a packing and `B` any array of the packed shape
(for instance the packed array after thresholding).  `array_to_coeffs(B, sl)` reads every coefficient
array from its box of `B`; and if the packing is tight, packing these arrays again gives `B`. -/
theorem C22_edited {a : Arr M} {ds : List (List (Key × Arr M))} {axes : Option (List ℤ)}
    {ax : List ℕ} (ha : AxesAre a.ndim axes ax) (hp : Packable ax a.shape ds) {padding : Option M}
    {junk : ℕ → M} {A B : Arr M} {sl : List SliceItem}
    (h : coeffsToArray (.arr a :: ds.map Item.ofDict) padding axes junk = .ok (A, sl))
    (ht : padding = none → TightPacking ax a ds) (hB : B.shape = A.shape) :
    arrayToCoeffs B sl .wavedecn = .ok (.arr (B.box (fun _ => 0) a.shape) ::
        (rereadDetails B ax a.shape ds).map Item.ofDict) ∧
      (TightPacking ax a ds →
        coeffsToArray (.arr (B.box (fun _ => 0) a.shape) ::
          (rereadDetails B ax a.shape ds).map Item.ofDict) padding axes junk = .ok (B, sl)) := by
  obtain ⟨A', base, h1, h2, h3, h4⟩ := coeffsToArray_ok ha hp ht junk
  rw [h] at h1
  simp only [Except.ok.injEq, Prod.mk.injEq] at h1
  obtain ⟨rfl, rfl⟩ := h1
  have hin := allBoxes_inside ha.2.1 ha.2.2 hp
  have hBs : B.shape = packedShape ax a.shape ds := hB.trans h2
  have hf : Filled B B.get (allBoxes ax (B.box (fun _ => 0) a.shape)
      (rereadDetails B ax a.shape ds)) := by
    rw [allBoxes_reread]
    refine filled_reread fun b hb => ?_
    rw [(hin b hb).1, hBs, packedShape_length]
  have ha' : AxesAre (B.box (fun _ => 0) a.shape).ndim axes ax := ha
  have hp' : Packable ax (B.box (fun _ => 0) a.shape).shape (rereadDetails B ax a.shape ds) :=
    hp.reread B
  have hs' : packedShape ax (B.box (fun _ => 0) a.shape).shape (rereadDetails B ax a.shape ds) =
      packedShape ax a.shape ds := packedShape_reread B ax ds a.shape
  constructor
  · have := arrayToCoeffs_ok ha' hp' (A := B) (base := B.get) (hBs.trans hs'.symm) hf
    rwa [allSlices_reread] at this
  · intro htp
    have htp' := tight_reread (B := B) htp
    obtain ⟨C, base', g1, g2, g3, -⟩ := coeffsToArray_ok ha' hp' (padding := padding)
      (fun _ => htp') junk
    have hBC : B = C := by
      refine Arr.ext_get (by rw [g2, hs', hBs]) fun idx hidx => ?_
      have hC : InB C.shape idx := by rw [g2, hs', ← hBs]; exact hidx
      obtain ⟨b, hb, hc⟩ := tight_covers ha'.2.1 ha'.2.2 hp' htp' (idx := idx)
        (by rw [← g2]; exact hC)
      rw [hf.1 b hb idx hidx hc, g3.1 b hb idx hC hc]
    rw [g1, allSlices_reread, hBC]

/-- **C22, missing details.** A detail that is `None` is rejected, but with an `AttributeError`: the
`ValueError` that `coeffs_to_array` has for it is never reached, because the shapes of all details
are read first. -/
theorem C22_missing_detail (a : Arr M) (padding : Option M) (junk : ℕ → M) (h : a.ndim = 1)
    (rest : List (Item M)) :
    coeffsToArray (.arr a :: .dict [(['d'], none)] :: rest) padding none junk = .error .attr := by
  have e : packAxes 1 1 none = .ok [0] := rfl
  simp only [coeffsToArray, headArr, Py_bind_ok, Py_pure, detailsToN, firstKeyLen, h,
    List.length_singleton, e, arrShapeLoop, allDetail]
  rfl

end

section
variable {R M : Type} [Ring R] [AddCommGroup M] [Module R M]

/-- **C22, `wavedecn`.** Packing and unpacking whatever `wavedecn` returned gives it back, for every
padding value. -/
theorem C22_wavedecn {x : Arr M} {wavelet : PerAxis (Wavelet R)} {mode : PerAxis Mode}
    {axes : Option (List ℤ)} {st : List (Stage R)} (hne : st ≠ [])
    (hr : Resolves x.ndim wavelet mode axes st) (hb : ∀ s ∈ st, s.1 < x.ndim ∧ s.2.1.Ok)
    (hn : (st.map (·.1)).Nodup) {level : Option ℤ} {cs : List (Item M)}
    (h : wavedecn x wavelet mode level axes = .ok cs) (padding : M) (junk : ℕ → M) :
    ∃ A sl, coeffsToArray cs (some padding) axes junk = .ok (A, sl) ∧
      arrayToCoeffs A sl .wavedecn = .ok cs := by
  have hd : 1 ≤ x.ndim := by
    cases st with
    | nil => exact absurd rfl hne
    | cons s st => have := (hb s (by simp)).1; omega
  obtain ⟨L, -, hall⟩ := wavedecn_eq hd hne hr hb hn
  rw [hall] at h
  split at h
  · simp at h
  split at h
  · simp only [Except.ok.injEq] at h
    subst h
    obtain ⟨e1, e2, e3⟩ := packable_cascade hne hb hn ((level.map Int.toNat).getD L)
    rw [e1]
    obtain ⟨A, sl, p1, -, -, -, -, -, p2⟩ := C22_placement (axes := axes)
      (by rw [e2]; exact resolves_axesAre hr (fun s hs => (hb s hs).1) hn) e3 padding junk
    exact ⟨A, sl, p1, p2⟩
  · simp at h

/-- **C22, periodization.** If all axes use periodization and their lengths are multiples of
`2^level`, the coefficients fill an array of the shape of the data without gaps, so
`padding=None` is accepted and nothing is left undefined. -/
theorem C22_periodization {x : Arr M} {wavelet : PerAxis (Wavelet R)} {mode : PerAxis Mode}
    {axes : Option (List ℤ)} {st : List (Stage R)} (hne : st ≠ [])
    (hr : Resolves x.ndim wavelet mode axes st) (hb : ∀ s ∈ st, s.1 < x.ndim ∧ s.2.1.Ok)
    (hn : (st.map (·.1)).Nodup) (hper : ∀ s ∈ st, s.2.2 = .periodization) {l : ℕ}
    (hdiv : ∀ s ∈ st, 2 ^ l ∣ x.shape.getD s.1 0) {cs : List (Item M)}
    (h : wavedecn x wavelet mode (some (l : ℤ)) axes = .ok cs) (junk : ℕ → M) :
    ∃ A sl, coeffsToArray cs none axes junk = .ok (A, sl) ∧ A.shape = x.shape ∧
      (∀ junk', coeffsToArray cs none axes junk' = .ok (A, sl)) ∧
      arrayToCoeffs A sl .wavedecn = .ok cs := by
  have hd : 1 ≤ x.ndim := by
    cases st with
    | nil => exact absurd rfl hne
    | cons s st => have := (hb s (by simp)).1; omega
  obtain ⟨L, -, hall⟩ := wavedecn_eq hd hne hr hb hn
  rw [hall] at h
  split at h
  · simp at h
  split at h
  · simp only [Except.ok.injEq, Option.map_some, Option.getD_some, Int.toNat_natCast] at h
    subst h
    obtain ⟨e1, e2, e3⟩ := packable_cascade hne hb hn l
    obtain ⟨t1, -, t2⟩ := tight_cascade_aux hne hn (fun s hs => (hb s hs).1) hper l hdiv
    have ht : TightPacking (st.map (·.1)) (x.approxN st l)
        ((List.range l).map fun j => x.detailsN st j).reverse := by
      unfold TightPacking
      rw [Arr.ok, Arr.shape_approxN, t1]
      exact t2
    have hax : AxesAre (x.approxN st l).ndim axes (st.map (·.1)) := by
      rw [e2]; exact resolves_axesAre hr (fun s hs => (hb s hs).1) hn
    rw [e1]
    obtain ⟨-, A, sl, p1, p2, p3⟩ := C22_tight hax e3 ht 0 junk junk
    obtain ⟨A', sl', q1, q2, -⟩ := C22_placement hax e3 0 junk
    rw [p2] at q1
    simp only [Except.ok.injEq, Prod.mk.injEq] at q1
    refine ⟨A, sl, p1, ?_, ?_, p3⟩
    · rw [q1.1, q2, Arr.shape_approxN, t1]
    · intro junk'
      obtain ⟨-, A'', sl'', r1, r2, -⟩ := C22_tight hax e3 ht 0 junk' junk
      rw [p2] at r2
      simp only [Except.ok.injEq, Prod.mk.injEq] at r2
      rw [r1, r2.1, r2.2]
  · simp at h

/-- **C22, `wavedec2`.** The same for the coefficients of `wavedec2`, unpacked in that format. -/
theorem C22_wavedec2 {x : Arr M} {wavelet : PerAxis (Wavelet R)}
    {mode : PerAxis Mode} {axes : List ℤ} {s t : Stage R}
    (hr : Resolves x.ndim wavelet mode (some axes) [s, t])
    (hb : ∀ u ∈ [s, t], u.1 < x.ndim ∧ u.2.1.Ok) (hst : s.1 ≠ t.1) {level : Option ℤ}
    {cs : List (Item M)} (h : wavedec2 x wavelet mode level axes = .ok cs) (padding : M)
    (junk : ℕ → M) :
    ∃ A sl, coeffsToArray cs (some padding) (some axes) junk = .ok (A, sl) ∧
      arrayToCoeffs A sl .wavedec2 = .ok cs := by
  have hn : ([s, t].map (·.1)).Nodup := by simpa using hst
  obtain ⟨L, -, hall⟩ := wavedec2_eq hr hb hst
  rw [hall] at h
  split at h
  · simp at h
  split at h
  · simp only [Except.ok.injEq] at h
    subst h
    generalize (level.map Int.toNat).getD L = n
    obtain ⟨-, e2, e3⟩ := packable_cascade (by simp) hb hn n
    have hdet : ((List.range n).map fun j => x.detailsN [s, t] j).reverse =
        triples (((List.range n).map fun j =>
          ((x.approxN [s, t] j).subband [s, t] ['d', 'a'],
           (x.approxN [s, t] j).subband [s, t] ['a', 'd'],
           (x.approxN [s, t] j).subband [s, t] ['d', 'd']))).reverse := by
      rw [triples, List.map_reverse, List.map_map]
      rfl
    have hc2 : x.cascade2 [s, t] n = .arr (x.approxN [s, t] n) :: (((List.range n).map fun j =>
          ((x.approxN [s, t] j).subband [s, t] ['d', 'a'],
           (x.approxN [s, t] j).subband [s, t] ['a', 'd'],
           (x.approxN [s, t] j).subband [s, t] ['d', 'd'])).reverse).map Item.ofTriple := by
      unfold Arr.cascade2
      rw [List.map_reverse, List.map_map]
      rfl
    rw [hdet] at e3
    rw [hc2, coeffsToArray_triples]
    obtain ⟨A, sl, p1, -, -, -, -, -, p2⟩ := C22_placement (axes := some axes)
      (by rw [e2]; exact resolves_axesAre hr (fun s hs => (hb s hs).1) hn) e3 padding junk
    exact ⟨A, sl, p1, arrayToCoeffs_conv (fun ss => unpackLoop_triples _ ss) p2⟩
  · simp at h

/-- **C22, `wavedec`.** The same for the coefficients of `wavedec` of a 1-D signal. -/
theorem C22_wavedec {w : Wavelet R} (hw : w.Ok) {mode : Mode} {level : Option ℤ} {x : List M}
    {cs : List (List M)} (h : wavedec w mode level x = .ok cs) (padding : M) (junk : ℕ → M) :
    ∃ A sl, coeffsToArray (cs.map fun c => .arr (Arr.ofList c)) (some padding) none junk =
        .ok (A, sl) ∧
      arrayToCoeffs A sl .wavedec = .ok (cs.map fun c => .arr (Arr.ofList c)) := by
  obtain ⟨l, h⟩ : ∃ l : ℤ, wavedec w mode (some l) x = .ok cs := by
    cases level with
    | some l => exact ⟨l, h⟩
    | none =>
      obtain ⟨L, -, e⟩ := C09_wavedec_default_level hw mode x
      exact ⟨L, e ▸ h⟩
  rw [C09_wavedec_explicit_level hw] at h
  split at h
  · simp at h
  split at h
  · simp only [Except.ok.injEq] at h
    subst h
    generalize l.toNat = n
    have e3 := packable_cascade1_aux hw (mode := mode) (x := x) n _ le_rfl
    have e1 : (cascade mode w.dec_lo w.dec_hi n x).map (fun c => Item.arr (Arr.ofList c)) =
        .arr (Arr.ofList (approx mode w.dec_lo n x)) :: (((List.range n).map fun j =>
          Arr.ofList (detail mode w.dec_lo w.dec_hi j x)).reverse).map Item.arr := by
      unfold cascade
      rw [List.map_cons, List.map_reverse, List.map_reverse, List.map_map, List.map_map]
      rfl
    have e2 : (Arr.ofList (approx mode w.dec_lo n x)).shape =
        [approxLen mode w.dec_len x.length n] := by
      simp only [Arr.ofList]
      rw [approx_length]
      rfl
    rw [← e2] at e3
    rw [e1, coeffsToArray_single]
    · obtain ⟨A, sl, p1, -, -, -, -, -, p2⟩ := C22_placement (axes := none) (ax := [0])
        ⟨by simp only [Arr.ndim, e2]; rfl, by simp, by simp [Arr.ndim, e2]⟩ e3 padding junk
      exact ⟨A, sl, p1, arrayToCoeffs_conv (fun ss => unpackLoop_single _ ss) p2⟩
    · intro d hd
      rw [List.mem_reverse, List.mem_map] at hd
      obtain ⟨j, -, rfl⟩ := hd
      rfl
  · simp at h

end

/-! Two levels of an 8×8 array in periodization mode meet the hypotheses; so do a 3×2
approximation and two levels of details along the last axis. -/

example : Resolves (R := ℚ) 2 (.one haarQ) (.one .periodization) none
      [(0, haarQ, .periodization), (1, haarQ, .periodization)] ∧
    LevelsOkN [(0, haarQ, .periodization), (1, haarQ, .periodization)] [8, 8] 2 ∧
    2 ^ 2 ∣ ([8, 8] : List ℕ).getD 0 0 :=
  ⟨⟨rfl, rfl, rfl⟩, by decide, by decide⟩

example : AxesAre 2 (some [-1]) [1] ∧
    Packable [1] [3, 2] [[(['d'], Arr.zero (M := ℚ) [3, 2])], [(['d'], Arr.zero [3, 3])]] :=
  ⟨⟨by decide, by decide, by decide⟩, by simp [Packable, levelShape, grow, words, Arr.zero]; decide⟩

end Pywt
