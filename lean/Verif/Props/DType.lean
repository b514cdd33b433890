import Verif.Proof.DType3
import Verif.Proof.Examples
import Verif.Props.SwtN

/-!
# C62: data types

`Verif.Model.DType` models the handling of NumPy dtypes; a `Typed` array is a dtype with the values.
`Verif.Spec.DType` says which dtype a result should have: `Kept ins out`.  The theorems compare a
transform of arrays with dtypes with the transform of their values, which the other properties are
about: the same error, or the same values with a dtype that is `Kept`.  In particular no imaginary part
is dropped on the way, and no C function is called with arrays of a dtype it is not made for (this would
be the error `.c .oob`).

`re` is the function that takes the real part of a sample; it is applied where the code casts complex to
real numbers.
-/

set_option autoImplicit false

namespace Pywt

open Spec

/-- Complex numbers with rational parts. -/
abbrev QI := ℚ × ℚ

/-- The real part. -/
def reQ (z : QI) : QI := (z.1, 0)

section

variable {R M : Type} [Ring R] [AddCommGroup M] [Module R M] (re : M → M)

/-- **C62.** `dwt` of an array of any dtype, or of a sequence of real numbers. -/
theorem C62_dwt (w : Wavelet R) (mode : Mode) (x : Like M) (hx : ¬ ComplexSeq x) :
    ∃ T, Kept [dtypeOf x] T ∧
      tdwt re w mode x = (dwt w mode (values x)).map fun p => (⟨T, p.1⟩, ⟨T, p.2⟩) :=
  ⟨x.check, kept_like x hx, tdwt_eq re w mode x hx⟩

example : ¬ ComplexSeq (.arr ⟨.c64, [((1 : ℚ), (2 : ℚ)), (3, 4)]⟩) ∧
    tdwt reQ haarQ .zero (.arr ⟨.c64, [(1, 2), (3, 4)]⟩)
      = .ok (⟨.c64, [(2, 3)]⟩, ⟨.c64, [(-1, -1)]⟩) ∧
    tdwt reQ haarQ .zero (.arr ⟨.int true 4, [(1, 0), (3, 0)]⟩)
      = .ok (⟨.f64, [(2, 0)]⟩, ⟨.f64, [(-1, 0)]⟩) ∧
    tdwt reQ haarQ .zero (.seq (.int true 8) [(1, 0), (3, 0)])
      = .ok (⟨.f64, [(2, 0)]⟩, ⟨.f64, [(-1, 0)]⟩) := by
  refine ⟨by simp [ComplexSeq], by decide +kernel, by decide +kernel, by decide +kernel⟩

/-- **C62.** `idwt` of two arrays or sequences, or of one and `None`: unequal dtypes are reconciled. -/
theorem C62_idwt (w : Wavelet R) (mode : Mode) (cA cD : Option (Like M))
    (hA : ∀ a ∈ cA, ¬ ComplexSeq a) (hD : ∀ d ∈ cD, ¬ ComplexSeq d) :
    ∃ T, Kept ((cA.map dtypeOf).toList ++ (cD.map dtypeOf).toList) T ∧
      tidwt re w mode cA cD
        = (idwt w mode (cA.map values) (cD.map values)).map fun v => ⟨T, v⟩ :=
  ⟨_, kept_idwt cA cD hA hD, tidwt_eq re w mode cA cD hA hD⟩

example : tidwt reQ haarQ .zero (some (.arr ⟨.f32, [(2, 0)]⟩)) (some (.arr ⟨.c64, [(0, 3)]⟩))
      = .ok ⟨.c128, [(2, 3), (2, -3)]⟩ ∧
    tidwt reQ haarQ .zero (some (.arr ⟨.c64, [(2, 0)]⟩)) (some (.arr ⟨.c64, [(0, 3)]⟩))
      = .ok ⟨.c64, [(2, 3), (2, -3)]⟩ ∧
    tidwt reQ haarQ .zero (some (.arr ⟨.f64, [(2, 0)]⟩)) (some (.arr ⟨.c64, [(0, 3)]⟩))
      = .ok ⟨.c128, [(2, 3), (2, -3)]⟩ ∧
    tidwt reQ haarQ .zero none (some (.seq .f64 [(3, 0)])) = .ok ⟨.f64, [(3, 0), (-3, 0)]⟩ := by
  decide +kernel

/-- **C62.** `downcoef` and `upcoef`. -/
theorem C62_coef (w : Wavelet R) (x : Like M) (hx : ¬ ComplexSeq x) :
    ∃ T, Kept [dtypeOf x] T ∧
      (∀ part mode level, tdowncoef re part w mode level x
        = (downcoef part w mode level (values x)).map fun v => ⟨T, v⟩) ∧
      ∀ part level take, tupcoef re part w level take x
        = (upcoef part w level take (values x)).map fun v => ⟨T, v⟩ :=
  ⟨x.check, kept_like x hx, fun part mode level => tdowncoef_eq re part w mode level x hx,
    fun part level take => tupcoef_eq re part w level take x hx⟩

example : tdowncoef reQ "d" haarQ .zero 1 (.arr ⟨.f16, [(1, 0), (3, 0)]⟩)
      = .ok ⟨.f32, [(-1, 0)]⟩ ∧
    tupcoef reQ "a" haarQ 1 0 (.arr ⟨.c64, [(1, 2)]⟩) = .ok ⟨.c64, [(1, 2), (1, 2)]⟩ := by
  decide +kernel

/-- **C62.** `swt`: all arrays of the result have one dtype. -/
theorem C62_swt (w : Wavelet R) (level : Option Int) (start : Int) (trim : Bool) (norm : Option R)
    (x : Like M) (hx : ¬ ComplexSeq x) :
    ∃ T, Kept [dtypeOf x] T ∧
      tswt re w level start trim norm x
        = (swt w level start trim norm (values x)).map fun c => c.typed T :=
  ⟨x.check, kept_like x hx, tswt_eq re w level start trim norm x hx⟩

example : tswt reQ haarQ (some 1) 0 false none (.arr ⟨.c64, [(1, 2), (3, 4)]⟩)
    = .ok (SwtCoeffs.typed .c64 (.pairs [([(2, 3), (2, 3)], [(-1, -1), (1, 1)])])) := by
  decide +kernel

/-- **C62.** A Python sequence that contains complex numbers is refused with `TypeError` by `dwt`,
`downcoef`, `upcoef`, `swt` and `idwt`; its imaginary parts are not dropped silently. -/
theorem C62_complex_list (x : Like M) (hx : ComplexSeq x) :
    (∀ (w : Wavelet R) mode, tdwt re w mode x = .error .type)
    ∧ (∀ part (w : Wavelet R) mode level, tdowncoef re part w mode level x = .error .type)
    ∧ (∀ part (w : Wavelet R) level take, tupcoef re part w level take x = .error .type)
    ∧ (∀ (w : Wavelet R) level start trim norm, tswt re w level start trim norm x = .error .type)
    ∧ (∀ (w : Wavelet R) mode d, tidwt re w mode (some x) d = .error .type) :=
  seq_err re x hx

example : ComplexSeq (.seq .c128 [((1 : ℚ), (2 : ℚ))]) := by simp [ComplexSeq]; decide

/-- **C62.** `wavedec` of an array or sequence, which may contain complex numbers: `D` is the dtype NumPy
gives the data.  At least one level gives arrays of a kept dtype; level 0 returns the data unchanged. -/
theorem C62_wavedec (w : Wavelet R) (mode : Mode) (level : Option Int) (x : Like M) :
    ∃ D T, (∀ a, x = .arr a → D = a.dtype) ∧ (∀ i v, x = .seq i v → D = i) ∧ Kept [D] T ∧
      twavedec re w mode level x
        = (wavedec w mode level (values x)).map fun r =>
            if r.length ≤ 1 then r.map fun v => ⟨D, v⟩ else r.map fun v => ⟨T, v⟩ := by
  refine ⟨x.asarray'.dtype, x.asarray'.dtype.check, ?_, ?_, kept_check _, twavedec_eq re w mode level x⟩
  · rintro a rfl; rfl
  · rintro i v rfl; rfl

example : twavedec reQ haarQ .zero (some 1) (.seq .c128 [(1, 2), (3, 4)])
      = .ok [⟨.c128, [(2, 3)]⟩, ⟨.c128, [(-1, -1)]⟩] ∧
    twavedec reQ haarQ .zero (some 0) (.arr ⟨.f16, [(1, 0), (3, 0)]⟩)
      = .ok [⟨.f16, [(1, 0), (3, 0)]⟩] := by
  decide +kernel

/-- **C62.** `waverec` of at least two coefficient arrays of any dtypes, some of which may be `None`. -/
theorem C62_waverec (w : Wavelet R) (mode : Mode) (c0 c1 : Option (Typed (List M)))
    (cs : List (Option (Typed (List M)))) :
    Agrees (fun r r' => ∃ v T, r = some ⟨T, v⟩ ∧ r' = some v ∧ Kept (presentD (c0 :: c1 :: cs)) T)
      (twaverec re w mode (c0 :: c1 :: cs))
      (waverec w mode ((c0 :: c1 :: cs).map fun o => o.map (·.val))) :=
  twaverec_agrees re w mode c0 c1 cs

example : twaverec reQ haarQ .zero [some ⟨.c64, [(0, 1)]⟩, none, some ⟨.f32, [(2, 0), (3, 0)]⟩]
    = .ok (some ⟨.c128, [(2, 1), (-2, 1), (3, 1), (-3, 1)]⟩) := by
  decide +kernel

/-- **C62.** `dwtn` along at least one axis: all subbands have one dtype. -/
theorem C62_dwtn (x : Typed (Arr M)) (wavelet : PerAxis (Wavelet R)) (mode : PerAxis Mode)
    (axes : Option (List Int)) (ha : axes ≠ some []) :
    ∃ T, Kept [x.dtype] T ∧
      tdwtn re x wavelet mode axes
        = (dwtn x.val wavelet mode axes).map fun r => r.map fun p => (p.1, ⟨T, p.2⟩) :=
  ⟨x.dtype.check, kept_check _, tdwtn_eq re x wavelet mode axes ha⟩

example : tdwtn reQ ⟨.c64, ⟨[1, 2], [(1, 2), (3, 4)], rfl⟩⟩ (.one haarQ) (.one .zero) (some [1])
    = .ok [(['a'], ⟨.c64, ⟨[1, 1], [(2, 3)], rfl⟩⟩), (['d'], ⟨.c64, ⟨[1, 1], [(-1, -1)], rfl⟩⟩)] := by
  decide +kernel

/-- **C62.** `idwtn` of a dict (with distinct, non-empty names) of arrays of any dtypes, some of which may
be `None`. -/
theorem C62_idwtn (c : TDict M) (hc : (c.map (·.1)).Nodup) (hne : ∀ p ∈ c, p.1 ≠ [])
    (wavelet : PerAxis (Wavelet R)) (mode : PerAxis Mode) (axes : Option (List Int)) :
    Agrees (fun r r' => r.map (·.val) = r' ∧ ∀ t ∈ r, Kept (dictD c) t.dtype)
      (tidwtn re c wavelet mode axes) (idwtn (eraseT c) wavelet mode axes) := by
  refine (tidwtn_agrees re c hc wavelet mode axes).imp ?_
  rintro r r' ⟨h1, h2⟩
  refine ⟨h1, fun t ht => ?_⟩
  obtain ⟨hp, hs⟩ := h2 t ht
  refine ⟨hs hne, ?_, hp.precise, fun T hT _ h => hp.same T hT h⟩
  simp only [cplx_iff]; exact hp.complex

example : tidwtn reQ [(['a'], some ⟨.f32, ⟨[1], [(2, 0)], rfl⟩⟩), (['d'], some ⟨.c64, ⟨[1], [(0, 3)], rfl⟩⟩)]
      (.one haarQ) (.one .zero) none = .ok (some ⟨.c128, ⟨[2], [(2, 3), (2, -3)], rfl⟩⟩) := by
  decide +kernel

variable [Invertible (2 : R)]

/-- **C62.** `iswt` of an approximation and details of any dtypes. -/
theorem C62_iswt (w : Wavelet R) (norm : Option R) (cA : Typed (List M)) (cDs : List (Like M))
    (hc : ∀ c ∈ cDs, ¬ ComplexSeq c) :
    Agrees (fun r v => ∃ T, r = ⟨T, v⟩ ∧ Kept (cA.dtype :: cDs.map dtypeOf) T)
      (tiswt re w norm cA cDs) (iswt w norm (.trimmed (cA.val :: cDs.map values))) := by
  unfold tiswt iswt
  rw [astype_of re (castVal_check re cA.dtype)]
  exact tiswtLoop_agrees re (w.normed norm) cDs hc [cA.dtype] ⟨_, cA.val⟩ (by simp)
    (kept_check cA.dtype)

example : tiswt reQ haarQ none ⟨.f32, [(4, 0), (0, 0), (0, 0), (0, 0)]⟩
      [.arr ⟨.c64, [(0, 4), (0, 0), (0, 0), (0, 0)]⟩, .arr ⟨.f32, [(0, 0), (0, 0), (0, 0), (0, 0)]⟩]
    = .ok ⟨.c128, [(1, 1), (1, 1), (1, -1), (1, -1)]⟩ := by
  decide +kernel

/-- **C62, in part.** `iswtn`: if once the approximation or the details of a level are complex, then the
approximation or the details of every finer level are complex, too, then nothing is dropped and the
result is complex exactly if one of the arrays is.  If all arrays have one supported dtype, so has the
result.  Missing: coefficients of other mixed dtypes, for which the property is false
(`C62_iswtn_drops`, `C62_iswtn_precision`). -/
theorem C62_iswtn_partial (cA : Typed (Arr M)) (ds : List (List (Key × Typed (Arr M))))
    (hn : ∀ d ∈ ds, (d.map (·.1)).Nodup) (hs : StaysComplex cA.dtype (levelD ds))
    (wavelet : PerAxis (Wavelet R)) (axes : Option (List Int)) (norm : Option R) :
    Agrees (fun r v => r.val = v ∧
        (Cplx r.dtype ↔ Cplx cA.dtype ∨ ∃ l ∈ levelD ds, ∃ d ∈ l, Cplx d) ∧
        ∀ T, Supported T → cA.dtype = T → (∀ l ∈ levelD ds, ∀ d ∈ l, d = T) → r.dtype = T)
      (tiswtn re cA ds wavelet axes norm)
      (iswtn (.trimmed cA.val (ds.map eraseDict)) wavelet axes norm) := by
  refine (tiswtn_agrees re cA ds hn hs wavelet axes norm).imp ?_
  rintro r v rfl
  refine ⟨rfl, ?_, ?_⟩
  · rw [cplx_iff, lastD_complex]
    · simp only [stays_resultType]
      simp only [check_complex, ← cplx_iff]
      constructor
      · rintro (h | ⟨l, hl, h | h⟩)
        · exact .inl h
        · exact .inl h
        · exact .inr ⟨l, hl, h⟩
      · rintro (h | ⟨l, hl, h⟩)
        · exact .inl h
        · exact .inr ⟨l, hl, .inr h⟩
    · refine List.Pairwise.imp (fun h => ?_) hs
      rw [stays_resultType, stays_resultType]; exact h
    · intro h l _
      rw [stays_resultType]
      rw [check_complex] at h
      exact .inl ((cplx_iff _).2 h)
  · rintro T hT rfl h
    dsimp only
    rw [check_of_supported hT]
    exact lastD_same hT _ h

/-- A real coarse level and a complex fine level. -/
example : ∃ (cA : Typed (Arr QI)) (ds : List (List (Key × Typed (Arr QI)))),
    (∀ d ∈ ds, (d.map (·.1)).Nodup) ∧ StaysComplex cA.dtype (levelD ds) ∧
    tiswtn reQ cA ds (.one haarQ) none none
      = .ok ⟨.c128, ⟨[4], [(1, 0), (1, 0), (1, 2), (1, -2)], rfl⟩⟩ :=
  ⟨⟨.f64, ⟨[4], [(4, 0), (0, 0), (0, 0), (0, 0)], rfl⟩⟩,
    [[(['d'], ⟨.f64, ⟨[4], [(0, 0), (0, 0), (0, 0), (0, 0)], rfl⟩⟩)],
      [(['d'], ⟨.c128, ⟨[4], [(0, 0), (0, 0), (0, 4), (0, 0)], rfl⟩⟩)]],
    by decide, by unfold StaysComplex; decide, by decide +kernel⟩

/-- **C62, in part.** `iswt2`, as `C62_iswtn_partial`. -/
theorem C62_iswt2_partial (cA : Typed (Arr M)) (h2 : cA.val.ndim = 2)
    (ds : List (Typed (Arr M) × Typed (Arr M) × Typed (Arr M)))
    (hs : StaysComplex cA.dtype (levelD2 ds))
    (wavelet : PerAxis (Wavelet R)) (norm : Option R) :
    Agrees (fun r v => r.val = v ∧
        (Cplx r.dtype ↔ Cplx cA.dtype ∨ ∃ l ∈ levelD2 ds, ∃ d ∈ l, Cplx d) ∧
        ∀ T, Supported T → cA.dtype = T → (∀ l ∈ levelD2 ds, ∀ d ∈ l, d = T) → r.dtype = T)
      (tiswt2 re cA ds wavelet norm)
      (iswt2 (.trimmed cA.val (erase2 ds)) wavelet norm [-2, -1]) := by
  refine (tiswt2_agrees re cA h2 ds hs wavelet norm).imp ?_
  rintro r v rfl
  refine ⟨rfl, ?_, ?_⟩
  · rw [cplx_iff, lastD_complex]
    · simp only [List.mem_map, exists_exists_and_eq_and, stays_check]
      simp only [check_complex, ← cplx_iff]
      constructor
      · rintro (h | ⟨l, hl, h | h⟩)
        · exact .inl h
        · exact .inl h
        · exact .inr ⟨l, hl, h⟩
      · rintro (h | ⟨l, hl, h⟩)
        · exact .inl h
        · exact .inr ⟨l, hl, .inr h⟩
    · rw [List.pairwise_map]
      refine List.Pairwise.imp (fun h => ?_) hs
      rw [stays_check, stays_check]; exact h
    · intro h l hl
      obtain ⟨l, _, rfl⟩ := List.mem_map.1 hl
      rw [stays_check]
      rw [check_complex] at h
      exact .inl ((cplx_iff _).2 h)
  · rintro T hT rfl h
    dsimp only
    rw [check_of_supported hT]
    refine lastD_same hT _ fun l hl d hd => ?_
    obtain ⟨l, hl', rfl⟩ := List.mem_map.1 hl
    obtain ⟨d, hd', rfl⟩ := List.mem_map.1 hd
    rw [h l hl' d hd', check_of_supported hT]

/-- A 4×4 array that is zero but for the first element. -/
def corner (d : DType) (z : QI) : Typed (Arr QI) := ⟨d, ⟨[4, 4], z :: List.replicate 15 (0, 0), rfl⟩⟩

example : StaysComplex DType.c64 (levelD2
      [(corner .f32 (16, 0), corner .c64 0, corner .f32 0), (corner .c64 0, corner .f32 0, corner .f32 0)]) ∧
    (corner .c64 (0, 16)).val.ndim = 2 ∧
    tiswt2 reQ (corner .c64 (0, 16))
      [(corner .f32 (16, 0), corner .c64 0, corner .f32 0), (corner .c64 0, corner .f32 0, corner .f32 0)]
      (.one haarQ) none
    = .ok ⟨.c64, ⟨[4, 4], List.replicate 8 (1, 1) ++ List.replicate 8 (-1, 1), rfl⟩⟩ :=
  ⟨by unfold StaysComplex; decide, rfl, by decide +kernel⟩

/-- **C62, in part.** `coeffs_to_array` and `ravel_coeffs` keep all values if the approximation is
complex or no array of details is.  Missing: complex details with a real approximation, for which the
property is false (`C62_pack_drops`). -/
theorem C62_pack_partial (a : Typed (Arr M)) (ds : List (TItem M))
    (h : (∃ c ∈ ds, ∃ d ∈ c.dtypes, Cplx d) → Cplx a.dtype) (axes : Option (List Int))
    (junk : Nat → M) :
    (∀ padding, tcoeffsToArray re a ds padding axes junk
      = (coeffsToArray (.arr a.val :: ds.map TItem.erase) padding axes junk).map
          fun r => (⟨a.dtype, r.1⟩, r.2)) ∧
    travelCoeffs re a ds axes junk
      = (ravelCoeffs (.arr a.val :: ds.map TItem.erase) axes junk).map
          fun r => (⟨a.dtype, r.1⟩, r.2) := by
  have h' : ∀ c ∈ ds, ∀ d ∈ c.dtypes, d.isComplex = true → a.dtype.isComplex = true := by
    intro c hc d hd hcd
    exact (cplx_iff _).1 (h ⟨c, hc, d, hd, (cplx_iff _).2 hcd⟩)
  exact ⟨fun padding => tcoeffsToArray_eq re a ds h' padding axes junk,
    travelCoeffs_eq re a ds h' axes junk⟩

example : travelCoeffs reQ ⟨.c64, ⟨[1], [(1, 2)], rfl⟩⟩
      [.dict [(['d'], some ⟨.f64, ⟨[1], [(3, 0)], rfl⟩⟩)], .dict [(['d'], some ⟨.c64, ⟨[2], [(3, 4), (5, 6)], rfl⟩⟩)]]
      none (fun _ => 0)
    = .ok (⟨.c64, [(1, 2), (3, 0), (3, 4), (5, 6)]⟩,
        [.one ⟨0, some 1⟩, .dict [(['d'], ⟨1, some 2⟩)], .dict [(['d'], ⟨2, some 4⟩)]],
        [.shape [1], .dict [(['d'], [1])], .dict [(['d'], [2])]]) := by
  decide +kernel

end

section

variable {M : Type} [AddCommGroup M] (re : M → M)

/-- **C62, in part.** Setting the data of a node of a wavelet packet tree to an array keeps the values,
in the dtype the transforms would give them.  Missing: setting it to another node, whose dtype is not
looked at, so that the property is false (`C62_set_node_drops`). -/
theorem C62_set_node_partial (x : Typed (List M)) :
    ∃ T, Kept [x.dtype] T ∧ tsetData re false (.arr x) = ⟨T, x.val⟩ := by
  refine ⟨x.dtype.check, kept_check _, ?_⟩
  simp only [tsetData, Like.asarray', Like.check, Bool.false_eq_true, if_false]
  split
  · exact astype_of re (castVal_check re x.dtype)
  · rename_i h
    push Not at h
    cases x; simp at h; simp [← h]

example : tsetData reQ false (.arr ⟨.c64, [(1, 2)]⟩) = ⟨.c64, [(1, 2)]⟩ ∧
    tsetData reQ false (.arr ⟨.f16, [(1, 0)]⟩) = ⟨.f32, [(1, 0)]⟩ := by
  decide +kernel

end

/-! ### Where dtypes are lost -/

/-- **C62.** `iswtn` drops imaginary parts: a real approximation, complex details at the coarser of two
levels and real ones at the finer level.  The result is real, although an array is complex, and its
values are not those of the inverse transform. -/
theorem C62_iswtn_drops : ∃ (cA : Typed (Arr QI)) (ds : List (List (Key × Typed (Arr QI)))),
    (∀ d ∈ ds, (d.map (·.1)).Nodup) ∧ (∃ l ∈ levelD ds, ∃ d ∈ l, Cplx d) ∧
    ∃ r v, tiswtn reQ cA ds (.one haarQ) none none = .ok r ∧
      iswtn (.trimmed cA.val (ds.map eraseDict)) (.one haarQ) none none = .ok v ∧
      ¬ Cplx r.dtype ∧ r.val ≠ v :=
  ⟨⟨.f64, ⟨[4], [(4, 0), (0, 0), (0, 0), (0, 0)], rfl⟩⟩,
    [[(['d'], ⟨.c128, ⟨[4], [(0, 4), (0, 0), (0, 0), (0, 0)], rfl⟩⟩)],
      [(['d'], ⟨.f64, ⟨[4], [(0, 0), (0, 0), (0, 0), (0, 0)], rfl⟩⟩)]],
    by decide, by decide,
    ⟨.f64, ⟨[4], [(1, 0), (1, 0), (1, 0), (1, 0)], rfl⟩⟩,
    ⟨[4], [(1, 1), (1, 1), (1, -1), (1, -1)], rfl⟩,
    by decide +kernel, by decide +kernel, by decide, by decide +kernel⟩

/-- **C62.** `iswtn` loses precision: a single precision approximation, double precision details at the
coarser of two levels and single precision ones at the finer level give a single precision result. -/
theorem C62_iswtn_precision : ∃ (cA : Typed (Arr QI)) (ds : List (List (Key × Typed (Arr QI)))),
    (∀ d ∈ ds, (d.map (·.1)).Nodup) ∧
    ∃ r, tiswtn reQ cA ds (.one haarQ) none none = .ok r ∧
      ∃ l ∈ levelD ds, ∃ d ∈ l, ¬ precision d ≤ precision r.dtype :=
  ⟨⟨.f32, ⟨[4], [(4, 0), (0, 0), (0, 0), (0, 0)], rfl⟩⟩,
    [[(['d'], ⟨.f64, ⟨[4], [(4, 0), (0, 0), (0, 0), (0, 0)], rfl⟩⟩)],
      [(['d'], ⟨.f32, ⟨[4], [(0, 0), (0, 0), (0, 0), (0, 0)], rfl⟩⟩)]],
    by decide,
    ⟨.f32, ⟨[4], [(2, 0), (2, 0), (0, 0), (0, 0)], rfl⟩⟩,
    by decide +kernel, by decide +kernel⟩

/-- **C62.** `iswt2` drops imaginary parts, too. -/
theorem C62_iswt2_drops : ∃ (cA : Typed (Arr QI))
    (ds : List (Typed (Arr QI) × Typed (Arr QI) × Typed (Arr QI))),
    (∃ l ∈ levelD2 ds, ∃ d ∈ l, Cplx d) ∧
    ∃ r v, tiswt2 reQ cA ds (.one haarQ) none = .ok r ∧
      iswt2 (.trimmed cA.val (erase2 ds)) (.one haarQ) none [-2, -1] = .ok v ∧
      ¬ Cplx r.dtype ∧ r.val ≠ v :=
  ⟨corner .f64 (16, 0),
    [(corner .c128 (0, 16), corner .f64 0, corner .f64 0),
      (corner .f64 0, corner .f64 0, corner .f64 0)],
    by decide,
    ⟨.f64, ⟨[4, 4], List.replicate 16 (1, 0), rfl⟩⟩,
    ⟨[4, 4], List.replicate 8 (1, 1) ++ List.replicate 8 (1, -1), rfl⟩,
    by decide +kernel, by decide +kernel, by decide, by decide +kernel⟩

/-- **C62.** `coeffs_to_array` and `ravel_coeffs` drop the imaginary parts of complex details beside a
real approximation, without an error. -/
theorem C62_pack_drops : ∃ (a : Typed (Arr QI)) (ds : List (TItem QI)),
    (∃ c ∈ ds, ∃ d ∈ c.dtypes, Cplx d) ∧
    (∃ r v, tcoeffsToArray reQ a ds (some 0) none (fun _ => 0) = .ok r ∧
      coeffsToArray (.arr a.val :: ds.map TItem.erase) (some 0) none (fun _ => 0) = .ok v ∧
      r.1.val ≠ v.1) ∧
    ∃ r v, travelCoeffs reQ a ds none (fun _ => 0) = .ok r ∧
      ravelCoeffs (.arr a.val :: ds.map TItem.erase) none (fun _ => 0) = .ok v ∧
      r.1.val ≠ v.1 := by
  refine ⟨⟨.f64, ⟨[2], [(1, 0), (2, 0)], rfl⟩⟩, [.dict [(['d'], some ⟨.c128, ⟨[2], [(3, 4), (5, 6)], rfl⟩⟩)]],
    by decide, ?_, ?_⟩
  · exact ⟨(⟨.f64, ⟨[4], [(1, 0), (2, 0), (3, 0), (5, 0)], rfl⟩⟩,
        [.tup [⟨0, some 2⟩], .dict [(['d'], [⟨2, some 4⟩])]]),
      (⟨[4], [(1, 0), (2, 0), (3, 4), (5, 6)], rfl⟩, [.tup [⟨0, some 2⟩], .dict [(['d'], [⟨2, some 4⟩])]]),
      by decide +kernel, by decide +kernel, by decide +kernel⟩
  · exact ⟨(⟨.f64, [(1, 0), (2, 0), (3, 0), (5, 0)]⟩,
        [.one ⟨0, some 2⟩, .dict [(['d'], ⟨2, some 4⟩)]], [.shape [2], .dict [(['d'], [2])]]),
      ([(1, 0), (2, 0), (3, 4), (5, 6)],
        [.one ⟨0, some 2⟩, .dict [(['d'], ⟨2, some 4⟩)]], [.shape [2], .dict [(['d'], [2])]]),
      by decide +kernel, by decide +kernel, by decide +kernel⟩

/-- **C62.** Setting the data of a node of a wavelet packet tree to another node with complex data drops
the imaginary parts. -/
theorem C62_set_node_drops : ∃ x : Typed (List QI), Cplx x.dtype ∧ Supported x.dtype ∧
    (tsetData reQ true (.arr x)).val ≠ x.val ∧ ¬ Cplx (tsetData reQ true (.arr x)).dtype :=
  ⟨⟨.c128, [(1, 2)]⟩, by decide, by decide, by decide +kernel, by decide +kernel⟩

end Pywt
