import Verif.Proof.Mra
import Verif.Props.Swt
import Verif.Props.AxisMulti

/-!
# C25, C26: multiresolution analysis

`isolated cs j`: the coefficient list `cs` with all arrays but number `j` replaced by zeros.
-/

namespace Pywt

open Finset Spec

set_option autoImplicit false
set_option linter.unnecessarySimpa false

section
variable {R M : Type} [Ring R] [AddCommGroup M] [Module R M]

/-- The coefficient list with zeros everywhere except in array number `j`. -/
def isolated (cs : List (Arr M)) (j : ℕ) : List (Option (Arr M)) :=
  (List.range cs.length).map fun k =>
    if k = j then cs[k]? else cs[k]?.map fun c => Arr.zero c.shape

theorem isolated_eq {cs : List (Arr M)} {j : ℕ} (hj : j < cs.length) :
    ((cs.map Arr.zerosLike).set j cs[j]).map some = isolated cs j := by
  apply List.ext_getElem (by simp [isolated])
  intro k h1 h2
  have hk : k < cs.length := by simpa using h1
  simp only [isolated, List.getElem_map, List.getElem_set, List.getElem_range,
    List.getElem?_eq_getElem hk, Option.map_some]
  by_cases h : j = k
  · subst h; simp
  · rw [if_neg h, if_neg (Ne.symm h)]; rfl

/-- **C25 (`transform='dwt'`).** Whenever `wavedec` accepts the arguments, `mra` returns as many arrays
as `wavedec`, all with the shape of the data; each is the reconstruction from one coefficient array,
the others being zero, cut to the shape of the data; and `imra` of them, their sum, is the data.
If `wavedec` raises, `mra` raises the same error. -/
theorem C25_mra_dwt {w : Wavelet R} (hw : w.Ok)
    (hpr : PR w.dec_lo w.dec_hi w.rec_lo w.rec_hi) {mode : Mode} {level : Option ℤ} {x : Arr M}
    {axis : ℤ} {ax : ℕ} (hax : AxisIs x.ndim axis ax) {cs : List (Arr M)}
    (h : wavedecA w mode level axis x = .ok cs) :
    ∃ comps, mraDwt w mode level axis x = .ok comps ∧ comps.length = cs.length ∧
      (∀ j, (hj : j < comps.length) → comps[j].shape = x.shape ∧
        ∃ y, waverecA w mode axis (isolated cs j) = .ok (some y) ∧ y.Extends comps[j]) ∧
      imra comps = .ok x := by
  obtain ⟨y0, e1, e2, e3⟩ := C43_round_trip hw hpr hax h
  have hax' : ax < x.shape.length := hax.2
  have hF : 2 ≤ w.dec_len := hw.1
  have hrl : w.rec_len = w.dec_len := hw.2.2.2.1
  obtain ⟨n, hcs, hlv⟩ : ∃ n : ℕ, cs = x.cascadeAlong ax mode w.dec_lo w.dec_hi n ∧
      LevelsOk mode w.dec_len (x.shape.getD ax 0) n := by
    have key : ∀ n : ℕ, wavedecALoop w mode axis n x [] = .ok cs →
        cs = x.cascadeAlong ax mode w.dec_lo w.dec_hi n ∧
        LevelsOk mode w.dec_len (x.shape.getD ax 0) n := by
      intro n hn
      by_cases hlv : LevelsOk mode w.dec_len (x.shape.getD ax 0) n
      · rw [wavedecALoop_ok hw n x [] hax hlv] at hn
        simp only [Except.ok.injEq, List.reverse_nil, List.append_nil] at hn
        exact ⟨hn.symm, hlv⟩
      · rw [wavedecALoop_err hw n x [] hax hlv] at hn
        simp at hn
    unfold wavedecA at h
    simp only [AxisIs.pyIndex (shape := x.shape) hax, checkLevel_one hF] at h
    cases level with
    | none => exact ⟨_, key _ h⟩
    | some l =>
      simp only at h
      split at h
      · simp at h
      · exact ⟨_, key _ h⟩
  have e : ∀ m, (x.shape.set ax m).getD ax 0 = m := by
    intro m; rw [getD_set hax', if_pos rfl]
  obtain ⟨r1, r2⟩ := recOk_cascade (mode := mode) (F := w.dec_len) (N := x.shape.getD ax 0) hw.1
    hw.2.1 n (approxLen mode w.dec_len (x.shape.getD ax 0) n) hlv (.inl rfl)
  have hshapes : RecShapes w.rec_len mode axis ax (cs.map Arr.shape) := by
    rw [hcs]
    simp only [Arr.cascadeAlong, List.map_cons, RecShapes]
    refine ⟨by simpa [Arr.shape_along, Arr.ndim] using hax, ?_, ?_⟩
    · intro t ht
      simp only [List.mem_map, List.mem_reverse] at ht
      obtain ⟨c, ⟨j, _, rfl⟩, rfl⟩ := ht
      exact (SameBut.set _ _).trans (SameBut.set _ _).symm
    · simp only [List.map_reverse, List.map_map, Function.comp_def, Arr.shape_along, e, hrl]
      exact r1
  obtain ⟨y1, -, f1, f2, -⟩ := mraWaverec_ok hw hshapes
  have hy : y1 = y0 := by rw [e1] at f1; simpa using f1.symm
  subst hy
  rw [f2] at e2
  obtain ⟨t, y, t1, t2, t3, t4⟩ := mraLoop_dwt hw (x := x) hshapes (by rw [e2]; simp) (by
    intro k hk
    rw [e2, getD_set hax']
    split
    · rename_i hk; subst hk; omega
    · exact le_rfl)
  have hy : y = y1 := by rw [e1] at t2; simpa using t2.symm
  subst hy
  have hne : cs.length ≠ 0 := by rw [hcs]; simp [Arr.cascadeAlong]
  refine ⟨(List.range cs.length).map t, ?_, by simp, ?_, ?_⟩
  · unfold mraDwt
    rw [h]
    exact t1
  · intro j hj
    have hj : j < cs.length := by simpa using hj
    simp only [List.getElem_map, List.getElem_range]
    obtain ⟨g1, r, g2, g3⟩ := t3 j hj
    rw [isolated_eq hj] at g2
    exact ⟨g1, r, g2, g3⟩
  · obtain ⟨z, z1, z2, z3⟩ := imra_ok (l := (List.range cs.length).map t) (S := x.shape)
      (by simpa using hne) (by
        intro c hc
        simp only [List.mem_map, List.mem_range] at hc
        obtain ⟨j, hj, rfl⟩ := hc
        exact (t3 j hj).1)
    rw [z1]
    congr 1
    refine Arr.ext_get z2 fun idx hidx => ?_
    rw [z2] at hidx
    rw [z3, List.map_map, sum_map_range]
    simp only [Function.comp]
    rw [t4 idx hidx]
    exact e3 idx hidx

/-- **C25.** If `wavedec` raises, `mra` with `transform='dwt'` raises the same error. -/
theorem C25_mra_dwt_rejects {w : Wavelet R} {mode : Mode} {level : Option ℤ} {axis : ℤ} {x : Arr M}
    {e : PyErr} (h : wavedecA w mode level axis x = .error e) :
    mraDwt w mode level axis x = .error e := by
  unfold mraDwt; rw [h]; rfl

end

/-- The hypotheses are met, and this is what `mra` returns for five samples. -/
example : legallQ.Ok ∧ PR legallQ.dec_lo legallQ.dec_hi legallQ.rec_lo legallQ.rec_hi ∧
    AxisIs 1 (-1) 0 ∧
    ((wavedecA haarQ .symmetric (some 2) (-1) (⟨[5], [1, 2, 3, 4, 5], rfl⟩ : Arr ℚ)).map List.length)
      = .ok 3 ∧
    mraDwt haarQ .symmetric (some 2) (-1) (⟨[5], [1, 2, 3, 4, 5], rfl⟩ : Arr ℚ) =
      .ok [⟨[5], [5/2, 5/2, 5/2, 5/2, 5], rfl⟩, ⟨[5], [-1, -1, 1, 1, 0], rfl⟩,
        ⟨[5], [-1/2, 1/2, -1/2, 1/2, 0], rfl⟩] :=
  ⟨legallQ_ok, legallQ_PR, ⟨by decide, by decide⟩, by decide +kernel, by decide +kernel⟩

section
variable {R M : Type} [CommRing R] [AddCommGroup M] [Module R M] [Invertible (2 : R)]

theorem Arr.get_of1 (l : List M) (idx : ℕ → ℕ) : (Arr.of1 l).get idx = l.getD (idx 0) 0 := by
  simp [Arr.get, Arr.of1, ravelIx]

/-- **C25 (`transform='swt'`, 1-D data).** Whenever `swt` (with `norm=True`, `trim_approx=True`)
accepts the arguments, `mra` returns as many arrays as `swt`, each as long as the data; array `j` is
`iswt` of the coefficients with all arrays but number `j` set to zero; and `imra` of them is the
data. -/
theorem C25_mra_swt {w : Wavelet R} (hw : w.Ok)
    (hpr : PR w.dec_lo w.dec_hi w.rec_lo w.rec_hi) {s s' : R} (hs : s * s' = 1)
    {level : Option ℤ} {x : List M} {r : SwtCoeffs (List M)}
    (h : swt w level 0 true (some s) x = .ok r) :
    ∃ cs comps, r = .trimmed cs ∧ mraSwt w s s' .periodization level x = .ok comps ∧
      comps.length = cs.length ∧
      (∀ j, (hj : j < comps.length) → comps[j].length = x.length ∧
        iswt w (some s') (.trimmed ((List.range cs.length).map fun k =>
          if k = j then cs.getD k [] else zeros x.length)) = .ok comps[j]) ∧
      imra (comps.map Arr.of1) = .ok (Arr.of1 x) := by
  have hinv := C15_iswt_swt_norm hw hpr hs h
  obtain ⟨l, hl1, hN, hd, hr⟩ := swt_trimmed_is hw h
  set cs : List (List M) := swtApprox (w.normed (some s)).dec_lo 0 x l ::
    ((List.range l).map fun j =>
      swtDetail (w.normed (some s)).dec_lo (w.normed (some s)).dec_hi 0 x j).reverse with hcs
  have hne : cs ≠ [] := by simp [hcs]
  have hlen : cs.length = l + 1 := by simp [hcs]
  have hl : ∀ c ∈ cs, c.length = x.length := by
    intro c hc
    simp only [hcs, List.mem_cons, List.mem_reverse, List.mem_map] at hc
    rcases hc with rfl | ⟨j, _, rfl⟩ <;> simp
  have hd' : 2 ^ (cs.length - 1) ∣ x.length := by rw [hlen]; simpa using hd
  have hloop := mraLoop_swt hw (some s') hne hN hl hd'
  rw [hr, iswt_trimmed hw (some s') hne hN hl hd'] at hinv
  simp only [Except.ok.injEq] at hinv
  set t : ℕ → List M := fun j =>
    iswtAll (w.normed (some s')).rec_lo (w.normed (some s')).rec_hi (isolate cs j) with ht
  have hne' : ∀ j, isolate cs j ≠ [] := by
    intro j h0
    apply hne
    rw [← List.length_eq_zero_iff] at h0 ⊢
    simpa [isolate] using h0
  have htl : ∀ j, (t j).length = x.length := fun j =>
    iswtAll_length _ _ (hne' j) (isolate_lengths hl j)
  refine ⟨cs, (List.range cs.length).map t, hr, ?_, by simp, ?_, ?_⟩
  · have hh : (cs.headD []).length = x.length := by
      rw [hcs]; simp
    unfold mraSwt
    rw [if_neg (by simp), h, hr]
    simp only [Py_bind_ok, hh]
    exact hloop
  · intro j hj
    have hj : j < cs.length := by simpa using hj
    simp only [List.getElem_map, List.getElem_range]
    refine ⟨htl j, ?_⟩
    rw [show ((List.range cs.length).map fun k =>
        if k = j then cs.getD k [] else zeros x.length) = isolate cs j from ?_]
    · exact iswt_trimmed hw (some s') (hne' j) hN (isolate_lengths hl j)
        (by simpa [isolate] using hd')
    · apply List.ext_getElem (by simp [isolate])
      intro k h1 h2
      have hk : k < cs.length := by simpa using h1
      simp only [isolate, List.getElem_map, List.getElem_range, List.getElem_mapIdx,
        List.getD_eq_getElem (hn := hk), hl _ (List.getElem_mem hk)]
  · obtain ⟨z, z1, z2, z3⟩ := imra_ok (l := ((List.range cs.length).map t).map Arr.of1)
      (S := [x.length]) (by simpa using hne) (by
        intro c hc
        simp only [List.mem_map] at hc
        obtain ⟨_, ⟨j, _, rfl⟩, rfl⟩ := hc
        simp [Arr.of1, htl])
    rw [z1]
    congr 1
    refine Arr.ext_get z2 fun idx hidx => ?_
    rw [z3, Arr.get_of1, List.map_map, List.map_map, sum_map_range]
    simp only [Function.comp, Arr.get_of1, ht]
    rw [sum_isolate (R := R) (recP := iswtAll (w.normed (some s')).rec_lo (w.normed (some s')).rec_hi)
      (fun φ L => iswtAll_map φ _ _ L), hinv]

/-- **C25.** `mra` with `transform='swt'` rejects every mode but periodization, and raises what `swt`
raises. -/
theorem C25_mra_swt_rejects (w : Wavelet R) (s s' : R) (level : Option ℤ) (x : List M) :
    (∀ mode, mode ≠ Mode.periodization → mraSwt w s s' mode level x = .error .value) ∧
    (∀ e, swt w level 0 true (some s) x = .error e →
      mraSwt w s s' .periodization level x = .error e) := by
  constructor
  · intro mode h
    unfold mraSwt
    rw [if_pos h]
    rfl
  · intro e h
    unfold mraSwt
    rw [if_neg (by simp), h]
    rfl

end

/-- The case the code computes: `s = 1/√2`, `s' = √2`. -/
theorem C25_mra_swt_sqrt2 {M : Type} [AddCommGroup M] [Module ℝ M] {w : Wavelet ℝ} (hw : w.Ok)
    (hpr : PR w.dec_lo w.dec_hi w.rec_lo w.rec_hi) {level : Option ℤ} {x : List M}
    {r : SwtCoeffs (List M)} (h : swt w level 0 true (some (1 / Real.sqrt 2)) x = .ok r) :
    ∃ comps, mraSwt w (1 / Real.sqrt 2) (Real.sqrt 2) .periodization level x = .ok comps ∧
      imra (comps.map Arr.of1) = .ok (Arr.of1 x) := by
  obtain ⟨cs, comps, -, h2, -, -, h5⟩ := C25_mra_swt hw hpr (s := 1 / Real.sqrt 2)
    (s' := Real.sqrt 2) (by
      rw [one_div, inv_mul_cancel₀]
      exact (Real.sqrt_pos.mpr two_pos).ne') h
  exact ⟨comps, h2, h5⟩

example : (∃ r, swt haarR (some ((2 : ℕ) : ℤ)) ((0 : ℕ) : ℤ) true (some (1 / Real.sqrt 2))
      [(1 : ℝ), 2, 3, 4] = .ok r) ∧
    mraSwt haarQ 2 (1/2) .periodization (some 1) [(1 : ℚ), 2, 3, 4] =
      .ok [[2, 2, 3, 3], [-1, 0, 0, 1]] := by
  refine ⟨(C14_swt_accepts haarR_ok 2 0 true _ _).1.mpr (by decide), by decide +kernel⟩

/-! ### C26 -/

section
variable {M : Type} [AddCommGroup M]

/-- **C26 (`imra`).** If the references point to arrays that `imra` can add up, then `imra` changes no
existing array, returns a reference to their sum, which is a new array if there are at least two,
and calling it again yields the same sum. -/
theorem C26_imra_leaves_arrays {h : List (Arr M)} {refs : List ℕ} {arrs : List (Arr M)} {y : Arr M}
    (hr : refs.map (h[·]?) = arrs.map some) (hy : imra arrs = .ok y) :
    ∃ h' r, imraH h refs = .ok (h', r) ∧ h'[r]? = some y ∧ (∀ k < h.length, h'[k]? = h[k]?) ∧
      (2 ≤ refs.length → h.length ≤ r) ∧
      ∃ h'' r', imraH h' refs = .ok (h'', r') ∧ h''[r']? = some y := by
  cases refs with
  | nil =>
    have : arrs = [] := by simpa using hr.symm
    subst this
    simp [imra, Py_throw] at hy
  | cons a l =>
    cases arrs with
    | nil => simp at hr
    | cons v arrs =>
      simp only [List.map_cons, List.cons.injEq] at hr
      obtain ⟨t, r, t1, t2, t3⟩ := heapAdd_fold l arrs h a v y hr.1 hr.2 hy
      obtain ⟨t', r', t1', t2', -⟩ := heapAdd_fold l arrs (h ++ t) a v y
        (heapRead_append hr.1 t) (by
          rw [← hr.2]
          apply List.map_congr_left
          intro k hk
          have : h[k]? ∈ arrs.map some := by rw [← hr.2]; exact List.mem_map_of_mem hk
          obtain ⟨z, -, hz⟩ := List.mem_map.mp this
          rw [heapRead_append hz.symm, hz]) hy
      refine ⟨h ++ t, r, t1, t2, ?_, ?_, _, r', t1', t2'⟩
      · intro k hk
        rw [List.getElem?_append_left hk]
      · intro h2
        apply t3
        rintro rfl
        simp at h2

/-- **C26 (`imra2`, `imran`).** They return the sum, but store it in the array `mra_coeffs[0]`; the
other arrays are not changed. -/
theorem C26_imran_partial {h : List (Arr M)} {a : ℕ} {ds : List ℕ} {v y : Arr M} {arrs : List (Arr M)}
    (hn : a ∉ ds) (hv : h[a]? = some v) (hr : ds.map (h[·]?) = arrs.map some)
    (hy : imra (v :: arrs) = .ok y) :
    ∃ h', imranH h a ds = .ok (h', a) ∧ h'.length = h.length ∧ h'[a]? = some y ∧
      ∀ k, k ≠ a → h'[k]? = h[k]? := by
  have ha : a < h.length := by
    rcases Nat.lt_or_ge a h.length with h' | h'
    · exact h'
    · rw [List.getElem?_eq_none h'] at hv; simp at hv
  refine ⟨h.set a y, ?_, by simp, by simp [ha], fun k hk => List.getElem?_set_ne (Ne.symm hk)⟩
  unfold imranH
  rw [heapIadd_fold a ds arrs h v y hn hv hr hy]
  rfl

/-- **C26 fails for `imra2` and `imran`:** whenever the details do not add up to zero, the call
changes the caller's first array, and a second call returns a different answer. -/
theorem C26_imran_disturbs {h : List (Arr M)} {a : ℕ} {ds : List ℕ} {v : Arr M} {arrs : List (Arr M)}
    (hn : a ∉ ds) (hv : h[a]? = some v) (hr : ds.map (h[·]?) = arrs.map some)
    (hs : ∀ d ∈ arrs, d.shape = v.shape)
    (hne : ∃ idx, (arrs.map fun d => d.get idx).sum ≠ 0) :
    ∃ h' y h'' y', imranH h a ds = .ok (h', a) ∧ h'[a]? = some y ∧ y ≠ v ∧
      imranH h' a ds = .ok (h'', a) ∧ h''[a]? = some y' ∧ y' ≠ y := by
  obtain ⟨idx, hidx⟩ := hne
  obtain ⟨y, y1, y2, y3⟩ := foldAdd_ok arrs v hs
  obtain ⟨h', p1, p2, p3, p4⟩ := C26_imran_partial hn hv hr (y := y) y1
  obtain ⟨y', y1', -, y3'⟩ := foldAdd_ok arrs y fun d hd => by rw [y2]; exact hs d hd
  obtain ⟨h'', q1, q2, q3, q4⟩ := C26_imran_partial (h := h') (v := y) hn p3 (by
    rw [← hr]
    apply List.map_congr_left
    intro k hk
    exact p4 k fun h => hn (h ▸ hk)) (y := y') y1'
  refine ⟨h', y, h'', y', p1, p3, ?_, q1, q3, ?_⟩
  · rintro rfl
    have := y3 idx
    simp [hidx] at this
  · intro he
    have := y3' idx
    rw [he] at this
    simp [hidx] at this

end

/-- Two arrays: the first call returns `[11, 22]`, the second `[21, 42]`. -/
example : imranH [(⟨[2], [1, 2], rfl⟩ : Arr ℤ), ⟨[2], [10, 20], rfl⟩] 0 [1] =
      .ok ([⟨[2], [11, 22], rfl⟩, ⟨[2], [10, 20], rfl⟩], 0) ∧
    imranH [(⟨[2], [11, 22], rfl⟩ : Arr ℤ), ⟨[2], [10, 20], rfl⟩] 0 [1] =
      .ok ([⟨[2], [21, 42], rfl⟩, ⟨[2], [10, 20], rfl⟩], 0) ∧
    imraH [(⟨[2], [1, 2], rfl⟩ : Arr ℤ), ⟨[2], [10, 20], rfl⟩] [0, 1] =
      .ok ([⟨[2], [1, 2], rfl⟩, ⟨[2], [10, 20], rfl⟩, ⟨[2], [11, 22], rfl⟩], 2) := by decide

end Pywt
