import Verif.Proof.MraAxis
import Verif.Props.Mra
import Verif.Props.SwtN

/-!
# C25: multiresolution analysis of n-D arrays

`coefPos ds` are the positions of the arrays of `[cA, {…}, …, {…}]`: `none` for the approximation and
`some (j, k)` for key `k` of dict number `j`; `onlyA` and `onlyD` set all arrays but one to zero, and
`arrayAt` reads one.  The triples `(cH, cV, cD)` of the 2-D functions are read as dicts with the keys
`da`, `ad`, `dd` (`dict3`).
-/

namespace Pywt

open Finset Spec

set_option autoImplicit false

section
variable {R M : Type} [Ring R] [AddCommGroup M] [Module R M]

/-- **C25 (`mran`, `transform='dwtn'`).** Whenever `wavedecn` accepts the arguments, `mran` returns an
array and dicts with the same keys as the dicts of `wavedecn`.  Every array has the shape of the data; it
is what `waverecn` makes of the coefficients with all arrays but the corresponding one set to zero, cut
to the shape of the data.  Their sum, in the order in which `imran` adds them, is the data. -/
theorem C25_mran_dwtn {x : Arr M} {wavelet : PerAxis (Wavelet R)}
    {mode : PerAxis Mode} {axes : Option (List ℤ)} {st : List (Stage R)} (hne : st ≠ [])
    (hr : Resolves x.ndim wavelet mode axes st) (hb : ∀ s ∈ st, s.1 < x.ndim ∧ s.2.1.Ok)
    (hn : (st.map (·.1)).Nodup)
    (hpr : ∀ s ∈ st, PR s.2.1.dec_lo s.2.1.dec_hi s.2.1.rec_lo s.2.1.rec_hi)
    {level : Option ℤ} {cs : List (Item M)} (h : wavedecn x wavelet mode level axes = .ok cs) :
    ∃ A ds c0 cds, cs = .arr A :: ds.map Item.ofDict ∧ mranDwtn x wavelet level axes mode = .ok (c0, cds) ∧
      dictKeys cds = dictKeys ds ∧
      (∀ i ∈ coefPos ds, ∃ c y, arrayAt c0 cds i = some c ∧ c.shape = x.shape ∧
        waverecn (.arr (onlyA A i) :: (onlyD ds i).map Item.ofDict) wavelet mode axes = .ok (.arr y) ∧
        y.Extends c) ∧
      imra (allArrays c0 cds) = .ok x :=
  mranDwtn_ok hne hr hb hn hpr h

/-- **C25.** If `wavedecn` raises for well-formed axes, wavelets and modes, `mran` raises the same. -/
theorem C25_mran_dwtn_rejects {x : Arr M} {wavelet : PerAxis (Wavelet R)}
    {mode : PerAxis Mode} {axes : Option (List ℤ)} {st : List (Stage R)} (hne : st ≠ [])
    (hr : Resolves x.ndim wavelet mode axes st) (hb : ∀ s ∈ st, s.1 < x.ndim ∧ s.2.1.Ok)
    (hn : (st.map (·.1)).Nodup) {level : Option ℤ} {e : PyErr}
    (h : wavedecn x wavelet mode level axes = .error e) : mranDwtn x wavelet level axes mode = .error e :=
  mranDwtn_err hne hr hb hn h

/-- **C25 (`mra2`, `transform='dwt2'`).** The same for `wavedec2` and `waverec2`. -/
theorem C25_mra2_dwt2 {x : Arr M} {wavelet : PerAxis (Wavelet R)}
    {mode : PerAxis Mode} {axes : List ℤ} {s u : Stage R}
    (hr : Resolves x.ndim wavelet mode (some axes) [s, u]) (hb : ∀ v ∈ [s, u], v.1 < x.ndim ∧ v.2.1.Ok)
    (hn : s.1 ≠ u.1)
    (hpr : ∀ v ∈ [s, u], PR v.2.1.dec_lo v.2.1.dec_hi v.2.1.rec_lo v.2.1.rec_hi)
    {level : Option ℤ} {cs : List (Item M)} (h : wavedec2 x wavelet mode level axes = .ok cs) :
    ∃ (A : Arr M) (ps : List (Arr M × Arr M × Arr M)) (c0 : Arr M) (qs : List (Arr M × Arr M × Arr M)),
      cs = .arr A :: ps.map Item.ofTriple ∧
      mra2Dwt2 x wavelet level axes mode = .ok (c0, qs.map tripleList) ∧
      qs.length = ps.length ∧
      (∀ i ∈ coefPos (ps.map dict3), ∃ c y, arrayAt c0 (qs.map dict3) i = some c ∧ c.shape = x.shape ∧
        waverec2 (.arr (onlyA A i) :: (onlyP ps i).map Item.ofTriple) wavelet mode axes = .ok (.arr y) ∧
        y.Extends c) ∧
      imra (allArrays c0 (qs.map dict3)) = .ok x :=
  mra2Dwt2_ok hr hb hn hpr h

/-- **C25.** If `wavedec2` raises, `mra2` raises the same. -/
theorem C25_mra2_dwt2_rejects {x : Arr M} {wavelet : PerAxis (Wavelet R)} {mode : PerAxis Mode} {axes : List ℤ}
    {level : Option ℤ} {e : PyErr} (h : wavedec2 x wavelet mode level axes = .error e) :
    mra2Dwt2 x wavelet level axes mode = .error e := by
  unfold mra2Dwt2; rw [h]; rfl

end

/-- Data with odd extents, and what `mran` and `mra2` return for three rows of two samples. -/
def arr32 : Arr ℚ := ⟨[3, 2], [1, 2, 3, 4, 5, 6], rfl⟩

example : Resolves 2 (.one legallQ) (.one .symmetric) none [(0, legallQ, .symmetric), (1, legallQ, .symmetric)] ∧
    ((wavedecn arr32 (.one legallQ) (.one .symmetric) (some 1) none).map List.length) = .ok 2 ∧
    mranDwtn arr32 (.one haarQ) (some 1) none (.one .symmetric) =
      .ok (⟨[3, 2], [5/2, 5/2, 5/2, 5/2, 11/2, 11/2], rfl⟩,
        [[(['a', 'd'], ⟨[3, 2], [-1/2, 1/2, -1/2, 1/2, -1/2, 1/2], rfl⟩),
          (['d', 'a'], ⟨[3, 2], [-1, -1, 1, 1, 0, 0], rfl⟩),
          (['d', 'd'], ⟨[3, 2], [0, 0, 0, 0, 0, 0], rfl⟩)]]) ∧
    mra2Dwt2 arr32 (.one haarQ) (some 1) [-2, -1] (.one .symmetric) =
      .ok (⟨[3, 2], [5/2, 5/2, 5/2, 5/2, 11/2, 11/2], rfl⟩,
        [[⟨[3, 2], [-1, -1, 1, 1, 0, 0], rfl⟩, ⟨[3, 2], [-1/2, 1/2, -1/2, 1/2, -1/2, 1/2], rfl⟩,
          ⟨[3, 2], [0, 0, 0, 0, 0, 0], rfl⟩]]) :=
  ⟨⟨rfl, rfl, rfl⟩, by decide +kernel, by decide +kernel, by decide +kernel⟩

section
variable {R M : Type} [CommRing R] [AddCommGroup M] [Module R M] [Invertible (2 : R)]

/-- **C25 (`mran`, `transform='swtn'`).** Whenever `swtn` (with `norm=True`, `trim_approx=True`) accepts
the arguments and the level is at least one, `mran` returns an array and dicts with the keys of `swtn`.
Every array is `iswtn` of the coefficients with all arrays but the corresponding one set to zero, and
their sum is the data.  `l` is the level given, or the default (`C25_default_level`). -/
theorem C25_mran_swtn {s s' : R} (hs : s * s' = 1) {x : Arr M} {wavelet : PerAxis (Wavelet R)}
    (hw : wavelet.Ok) (hpr : wavelet.PR) {level : Option ℤ} {l : ℤ} (hlev : mraSwtLevel level x.shape = .ok l)
    (hl : 1 ≤ l) {axes : Option (List ℤ)}
    (hax : axes ≠ some []) {r : SwtN M} (h : swtn x wavelet l 0 axes true (some s) = .ok r) :
    ∃ A ds c0 cds, r = .trimmed A ds ∧
      mranSwtn s s' x wavelet level axes (.one .periodization) = .ok (c0, cds) ∧
      dictKeys cds = dictKeys ds ∧
      (∀ i ∈ coefPos ds, ∃ c, arrayAt c0 cds i = some c ∧ c.shape = x.shape ∧
        iswtn (.trimmed (onlyA A i) (onlyD ds i)) wavelet axes (some s') = .ok c) ∧
      imra (allArrays c0 cds) = .ok x :=
  mranSwtn_ok hw (normsInv_some hpr hs) hlev hl hax h

/-- **C25 (`mra2`, `transform='swt2'`).** The same for `swt2` and `iswt2`. -/
theorem C25_mra2_swt2 {s s' : R} (hs : s * s' = 1) {x : Arr M} {wavelet : PerAxis (Wavelet R)}
    (hw : wavelet.Ok) (hpr : wavelet.PR) {level : Option ℤ} {l : ℤ} (hlev : mraSwtLevel level x.shape = .ok l)
    (hl : 1 ≤ l) {axes : List ℤ} {r : Swt2 M} (h : swt2 x wavelet l 0 axes true (some s) = .ok r) :
    ∃ (A : Arr M) (ps : List (Arr M × Arr M × Arr M)) (c0 : Arr M) (qs : List (Arr M × Arr M × Arr M)),
      r = .trimmed A ps ∧
      mra2Swt2 s s' x wavelet level axes (.one .periodization) = .ok (c0, qs.map tripleList) ∧
      qs.length = ps.length ∧
      (∀ i ∈ coefPos (ps.map dict3), ∃ c, arrayAt c0 (qs.map dict3) i = some c ∧ c.shape = x.shape ∧
        iswt2 (.trimmed (onlyA A i) (onlyP ps i)) wavelet (some s') axes = .ok c) ∧
      imra (allArrays c0 (qs.map dict3)) = .ok x :=
  mra2Swt2_ok hw (normsInv_some hpr hs) hlev hl h

/-- **C25 (`mra`, `transform='swt'`, along an axis).** The same for `swt` and `iswt` along an axis of n-D
data. -/
theorem C25_mra_swt_axis {s s' : R} (hs : s * s' = 1) {w : Wavelet R} (hw : w.Ok)
    (hpr : PR w.dec_lo w.dec_hi w.rec_lo w.rec_hi) {level : Option ℤ} {axis : ℤ} {ax : ℕ} {x : Arr M}
    (hax : AxisIs x.ndim axis ax) {r : SwtCoeffs (Arr M)}
    (h : swtA w level 0 true (some s) axis x = .ok r) :
    ∃ cs comps, r = .trimmed cs ∧ mraSwtA w s s' .periodization level axis x = .ok comps ∧
      comps.length = cs.length ∧
      (∀ k, (hk : k < comps.length) → comps[k].shape = x.shape ∧
        iswtA w (some s') axis (.trimmed (cs.mapIdx fun j c => if j = k then c else Arr.zero c.shape)) =
          .ok comps[k]) ∧
      imra comps = .ok x :=
  mraSwtA_ok hw hax h (iswtA_swtA hw hax h fun _ _ hr => C15_iswt_swt_norm hw hpr hs hr)

/-- **C25.** With a stationary transform every mode but periodization is rejected, and what the forward
transform raises is passed on. -/
theorem C25_swt_rejects (s s' : R) (x : Arr M) (w : Wavelet R) (wavelet : PerAxis (Wavelet R))
    (level : Option ℤ) :
    (∀ mode axes, mode ≠ .one Mode.periodization → ∃ e, mranSwtn s s' x wavelet level axes mode = .error e) ∧
    (∀ mode axes, mode ≠ .one Mode.periodization → mra2Swt2 s s' x wavelet level axes mode = .error .value) ∧
    (∀ mode axis, mode ≠ Mode.periodization → mraSwtA w s s' mode level axis x = .error .value) ∧
    (∀ l axes e, mraSwtLevel level x.shape = .ok l → swt2 x wavelet l 0 axes true (some s) = .error e →
      mra2Swt2 s s' x wavelet level axes (.one .periodization) = .error e) ∧
    (∀ axis e, swtA w level 0 true (some s) axis x = .error e →
      mraSwtA w s s' .periodization level axis x = .error e) :=
  ⟨fun _ _ h => mranSwtn_mode h, fun _ _ h => mra2Swt2_mode h, fun _ _ h => by
    unfold mraSwtA; rw [if_pos h]; rfl, fun _ _ _ hl h => mra2Swt2_err hl h, fun _ _ h => by
    unfold mraSwtA; rw [if_neg (by simp), h]; rfl⟩

/-- **C25.** If `swtn` raises for well-formed axes and wavelets, `mran` raises the same. -/
theorem C25_mran_swtn_rejects {s s' : R} {x : Arr M} (hd : 1 ≤ x.ndim) {wavelet : PerAxis (Wavelet R)}
    {level : Option ℤ} {l : ℤ} (hlev : mraSwtLevel level x.shape = .ok l) {axes : Option (List ℤ)}
    {st : List (SStage R)} (hr : SwtResolves x.ndim wavelet axes (some s) st) (hb : ∀ p ∈ st, p.1 < x.ndim)
    (hn : (st.map (·.1)).Nodup) {e : PyErr} (h : swtn x wavelet l 0 axes true (some s) = .error e) :
    mranSwtn s s' x wavelet level axes (.one .periodization) = .error e :=
  mranSwtn_err hd hlev hr hb hn h

end

/-- **C25.** The default level of `mra2` and `mran` with a stationary transform: the largest for which all
extents of the data are multiples of `2 ** level`, those of the axes that are not transformed included. -/
theorem C25_default_level {shape : List ℕ} (hne : shape ≠ []) (h : ∀ n ∈ shape, 1 ≤ n) :
    (∃ L : ℕ, mraSwtLevel none shape = .ok (L : ℤ) ∧ ∀ k, k ≤ L ↔ ∀ n ∈ shape, 2 ^ k ∣ n) ∧
    ∀ l, mraSwtLevel (some l) shape = .ok l :=
  ⟨mraSwtLevel_default hne h, fun _ => rfl⟩

section
variable {R M : Type} [CommRing R] [AddCommGroup M] [Module R M] [Invertible (2 : R)]

/-- Finding: without a level, an odd extent anywhere, even along an axis that is not transformed, makes
the level zero, and then `mran` raises (unless the second extent happens to be the number of axes). -/
theorem C25_default_level_fails {s s' : R} {x : Arr M} {n k : ℕ} {rest : List ℕ} (hsh : x.shape = n :: k :: rest)
    (hpos : ∀ n ∈ x.shape, 1 ≤ n) (hodd : ∃ n ∈ x.shape, n % 2 = 1) {wavelet : PerAxis (Wavelet R)}
    {axes : Option (List ℤ)} {st : List (SStage R)} (hr : SwtResolves x.ndim wavelet axes (some s) st)
    (hb : ∀ p ∈ st, p.1 < x.ndim) (hn : (st.map (·.1)).Nodup) (hk : k ≠ st.length) :
    mranSwtn s s' x wavelet none axes (.one .periodization) = .error .value :=
  mranSwtn_default hsh hpos hodd hr hb hn hk

end

/-- Data of shape `(2, 2, 3)` transformed along the first two axes, and of shape `(2, 4)`. -/
def arr223 : Arr ℚ := ⟨[2, 2, 3], [1, 2, 3, 4, 5, 6, 7, 8, 9, 10, 11, 13], rfl⟩

/-- With the level given, the data is analysed; without it, `mran` raises. -/
example : ((mranSwtn 2 (1/2) arr223 (.one haarQ) (some 1) (some [0, 1]) (.one .periodization)).map
      fun r => (r.1.data, r.2.length)) =
      .ok ([11/2, 13/2, 31/4, 11/2, 13/2, 31/4, 11/2, 13/2, 31/4, 11/2, 13/2, 31/4], 1) ∧
    mranSwtn 2 (1/2) arr223 (.one haarQ) none (some [1, 0]) (.one .periodization) =
      .ok (arr223, []) ∧
    mranSwtn 2 (1/2) arr223 (.one haarQ) none (some [0]) (.one .periodization) = .error .value ∧
    mra2Swt2 2 (1/2) (⟨[2, 2], [(1 : ℚ), 2, 3, 8], rfl⟩) (.one haarQ) none [-2, -1] (.one .periodization) =
      .ok (⟨[2, 2], [7/2, 7/2, 7/2, 7/2], rfl⟩, [[⟨[2, 2], [-2, -2, 2, 2], rfl⟩,
        ⟨[2, 2], [-3/2, 3/2, -3/2, 3/2], rfl⟩, ⟨[2, 2], [1, -1, -1, 1], rfl⟩]]) ∧
    mraSwtA haarQ 2 (1/2) .periodization (some 1) 0 arr32 = .error .value ∧
    mraSwtA haarQ 2 (1/2) .periodization (some 1) 1 arr32 =
      .ok [⟨[3, 2], [3/2, 3/2, 7/2, 7/2, 11/2, 11/2], rfl⟩,
        ⟨[3, 2], [-1/2, 1/2, -1/2, 1/2, -1/2, 1/2], rfl⟩] := by
  refine ⟨?_, ?_, ?_, ?_, ?_, ?_⟩ <;> decide +kernel

/-! ### `imran` and `imra2` of the components -/

/-- **C25.** `imran` (and `imra2`) of components that add up to the data returns the data, in the place
of the first component. -/
theorem C25_imran {M : Type} [AddCommGroup M] {x c0 : Arr M} {cds : List (List (List Char × Arr M))}
    (h : imra (allArrays c0 cds) = .ok x) :
    ∃ heap, imranH (allArrays c0 cds) 0 (List.range' 1 ((allArrays c0 cds).length - 1)) = .ok (heap, 0) ∧
      heap[0]? = some x := by
  obtain ⟨h', e1, -, e3, -⟩ := C26_imran_partial (h := allArrays c0 cds) (a := 0)
    (ds := List.range' 1 ((allArrays c0 cds).length - 1)) (v := c0)
    (arrs := (allArrays c0 cds).tail) (y := x) (by simp) rfl (by
      apply List.ext_getElem (by simp [allArrays])
      intro j h1 h2
      have hj : j < (allArrays c0 cds).tail.length := by simpa using h2
      simp only [List.getElem_map, List.getElem_range', List.getElem_tail]
      rw [one_mul, add_comm 1 j, List.getElem?_eq_getElem]) h
  exact ⟨h', e1, e3⟩

example : (mranDwtn arr32 (.one haarQ) (some 1) none (.one .symmetric)).bind
    (fun r => imra (allArrays r.1 r.2)) = .ok arr32 ∧
    (mranDwtn arr32 (.one haarQ) (some 1) none (.one .symmetric)).bind
      (fun r => (imranH (allArrays r.1 r.2) 0 [1, 2, 3]).map fun p => p.1[p.2]?) = .ok (some arr32) := by
  decide +kernel

/-- The case the code computes: `s = 1/√2`, `s' = √2`. -/
theorem C25_mran_swtn_sqrt2 {M : Type} [AddCommGroup M] [Module ℝ M] {x : Arr M} {wavelet : PerAxis (Wavelet ℝ)}
    (hw : wavelet.Ok) (hpr : wavelet.PR) {level : Option ℤ} {l : ℤ} (hlev : mraSwtLevel level x.shape = .ok l)
    (hl : 1 ≤ l) {axes : Option (List ℤ)} (hax : axes ≠ some []) {r : SwtN M}
    (h : swtn x wavelet l 0 axes true (some (1 / Real.sqrt 2)) = .ok r) :
    ∃ c0 cds, mranSwtn (1 / Real.sqrt 2) (Real.sqrt 2) x wavelet level axes (.one .periodization) = .ok (c0, cds) ∧
      imra (allArrays c0 cds) = .ok x := by
  obtain ⟨A, ds, c0, cds, -, h2, -, -, h5⟩ := C25_mran_swtn (s := 1 / Real.sqrt 2)
    (s' := Real.sqrt 2) (by
      rw [one_div, inv_mul_cancel₀]
      exact (Real.sqrt_pos.mpr two_pos).ne') hw hpr hlev hl hax h
  exact ⟨c0, cds, h2, h5⟩

example : haarR.Ok ∧ PR haarR.dec_lo haarR.dec_hi haarR.rec_lo haarR.rec_hi := ⟨haarR_ok, haarR_PR⟩

end Pywt
