import Verif.Proof.HeapCalls1

/-!
# The n-D functions on the heap: lines of arrays
-/

set_option linter.unusedSectionVars false
set_option linter.unusedVariables false

namespace Pywt.Heap

open Spec

variable {R M : Type} [Ring R] [AddCommGroup M] [Module R M]
variable {t : ℕ} {orc : ℕ → Bool}

/-- A line has been written: the cells `off + j * stride` hold `l`, the others are as before. -/
structure WroteLine (c c' : List (Option (Val R M))) (off stride : ℤ) (n : ℕ) (l : List M) :
    Prop where
  length : c'.length = c.length
  line : ∀ j : ℕ, j < n → c'[(off + j * stride).toNat]? = some (some (.samp (l.getD j 0)))
  rest : ∀ k : ℕ, (∀ j : ℕ, j < n → (k : ℤ) ≠ off + j * stride) → c'[k]? = c[k]?

section Copy
variable {s : St (Val R M)} {T p : Ptr} {c : List (Option (Val R M))} {n : ℕ} {l : List M}

theorem run_rdM {x : Loc} {i : ℤ} {v : M} (h : load s.heap x.blk (x.off + i) = .ok (.samp v)) :
    run t orc (rdM x i) s = .ok (v, s) := by
  simp only [rdM, run, h]

theorem run_putCell (hp : s.heap p = some ⟨false, c⟩) {o i : ℤ} (h0 : 0 ≤ o + i)
    (h1 : o + i < c.length) (v : Val R M) :
    run t orc (put ⟨some p, o⟩ i v) s = .ok ((), s.setCells p (c.set (o + i).toNat (some v))) := by
  have h2 : (((o + i).toNat : ℕ) : ℤ) = o + i := by omega
  have := store_setCells (s := s) (p := p) (c := c) (i := (o + i).toNat) (by omega) v
  rw [setCells_same hp, h2] at this
  simp only [put, run, this]
  rfl

theorem run_copyIn (hT : s.heap T = some ⟨false, c⟩) (hc : c.length = n) {src : Loc} {stride : ℤ}
    (hl : l.length = n) (hne : src.blk ≠ some T)
    (hs : ∀ j : ℕ, j < n → load s.heap src.blk (src.off + j * stride) = .ok (.samp (l.getD j 0))) :
    run t orc (copyIn ⟨some T, 0⟩ src stride n) s = .ok ((), s.setCells T (cellsM l)) := by
  obtain ⟨s', h1, h2⟩ := forN_spec (t := t) (orc := orc)
    (I := fun i s' => s' = s.setCells T (over c 0 (cellsM (l.take i)))) (s := s)
    (body := fun j => do
      let v ← rdM src ((j : ℤ) * stride)
      put (⟨some T, 0⟩ : Loc) j (.samp v)) (n := n)
    (by simp [over, cellsM, setCells_same hT]) (by
      rintro i hi s' rfl
      have hlen : (over c 0 (cellsM (l.take i))).length = c.length := over_length (by simp; omega)
      refine ⟨_, ?_, rfl⟩
      rw [run_bind_ok (run_rdM (by rw [load_setCells_ne hne]; exact hs i hi)),
        run_putCell setCells_self (by omega) (by rw [hlen]; omega), setCells_setCells]
      congr 4
      apply List.ext_getElem?
      intro k
      rw [zero_add, Int.toNat_natCast]
      by_cases hk : k = i
      · subst hk
        rw [List.getElem?_set_self (by rw [hlen]; omega), ← zero_add k,
          over_getElem? (by simp; omega) (by simp; omega)]
        simp only [cellsM, List.getElem?_map, zero_add]
        rw [List.getElem?_take_of_lt (by omega), List.getElem?_eq_getElem (by omega),
          List.getD_eq_getElem (hn := by omega)]
        rfl
      · rw [List.getElem?_set_ne (by omega)]
        by_cases hk2 : k < i
        · rw [← zero_add k, over_getElem? (by simp; omega) (by simp; omega),
            over_getElem? (by simp; omega) (by simp; omega)]
          simp only [cellsM, List.getElem?_map]
          rw [List.getElem?_take_of_lt (by omega), List.getElem?_take_of_lt (by omega)]
        · rw [over_getElem?_out (by simp; omega) (by simp; omega),
            over_getElem?_out (by simp; omega) (by simp; omega)])
  unfold copyIn
  rw [h1, h2, List.take_of_length_le (by omega), over_full (by simp; omega)]

theorem run_copyOut (hp : s.heap p = some ⟨false, c⟩) {row : Loc} (hr : HoldsM s.heap row l)
    (hne : row.blk ≠ some p) {off stride : ℤ} (hl : l.length = n)
    (hb : ∀ j : ℕ, j < n → 0 ≤ off + j * stride ∧ off + j * stride < c.length)
    (hinj : ∀ i j : ℕ, i < n → j < n → off + i * stride = off + j * stride → i = j) :
    ∃ c', run t orc (copyOut ⟨some p, off⟩ row stride n) s = .ok ((), s.setCells p c') ∧
      WroteLine c c' off stride n l := by
  obtain ⟨s', h1, c', h2, h3⟩ := forN_spec (t := t) (orc := orc)
    (I := fun i s' => ∃ c', s' = s.setCells p c' ∧ (i ≤ n → WroteLine c c' off stride i l)) (s := s)
    (body := fun j => do
      let v ← rdM row j
      put (⟨some p, off⟩ : Loc) ((j : ℤ) * stride) (.samp v)) (n := n)
    ⟨c, (setCells_same hp).symm, fun _ => ⟨rfl, fun j hj => by omega, fun _ _ => rfl⟩⟩ (by
      rintro i hi s' ⟨c', rfl, h⟩
      have hw := h (by omega)
      have hv : load (s.setCells p c').heap row.blk (row.off + (i : ℤ)) =
          .ok (.samp (l.getD i 0)) := by
        rw [load_setCells_ne hne, hr i (by omega), List.getD_eq_getElem (hn := by omega)]
      obtain ⟨hb1, hb2⟩ := hb i hi
      refine ⟨_, ?_, c'.set (off + (i : ℤ) * stride).toNat (some (.samp (l.getD i 0))), rfl, ?_⟩
      · rw [run_bind_ok (run_rdM hv), run_putCell setCells_self hb1 (by rw [hw.length]; exact hb2),
          setCells_setCells]
      · intro hi'
        refine ⟨by simpa using hw.length, ?_, ?_⟩
        · intro j hj
          by_cases hji : j = i
          · subst hji
            rw [List.getElem?_set_self (by rw [hw.length]; omega)]
          · rw [List.getElem?_set_ne]
            · exact hw.line j (by omega)
            · intro he
              have := hb j (by omega)
              exact hji (hinj j i (by omega) hi (by omega))
        · intro k hk
          rw [List.getElem?_set_ne (by have := hk i (by omega); omega)]
          exact hw.rest k fun j hj => hk j (by omega))
  exact ⟨c', by unfold copyOut; rw [h1, h2], h3 le_rfl⟩

/-- A whole contiguous line. -/
theorem wroteLine_over {o : ℕ} (hl : l.length = n) (h : o + n ≤ c.length) :
    WroteLine c (over c o (cellsM l)) o 1 n l := by
  refine ⟨over_length (by simpa [hl] using h), ?_, ?_⟩
  · intro j hj
    rw [show ((o : ℤ) + (j : ℤ) * 1).toNat = o + j by omega,
      over_getElem? (by simpa [hl] using h) (by simpa [hl] using hj)]
    simp only [cellsM, List.getElem?_map]
    rw [List.getElem?_eq_getElem (by omega), List.getD_eq_getElem (hn := by omega)]
    rfl
  · intro k hk
    by_cases h1 : k < o
    · exact over_getElem?_out (by simpa [hl] using h) (by simp; omega)
    · by_cases h2 : k < o + n
      · exact absurd (by omega) (hk (k - o) (by omega))
      · exact over_getElem?_out (by simpa [hl] using h) (by simp [hl]; omega)

end Copy

/-! ### The loop over the lines -/

section Loop
variable {shape : List ℕ} {axis : ℕ}

theorem lineAddr (ha : axis < shape.length) (i j : ℕ) :
    rowOffset shape (cstrides shape) axis shape.length i 0 + j * (cstrides shape).getD axis 0 =
      (ravelIx shape (Function.update (digit shape axis shape.length i) axis j)
        shape.length : ℤ) := by
  rw [rowOffset_eq, zero_add, ← dot_cstrides, dot_update ha (digit_axis ha)]

theorem lineBound (ha : axis < shape.length) {i : ℕ} (hi : i < numTo shape axis shape.length)
    (j : ℕ) (hj : j < shape.getD axis 0) :
    0 ≤ rowOffset shape (cstrides shape) axis shape.length i 0 +
        j * (cstrides shape).getD axis 0 ∧
      rowOffset shape (cstrides shape) axis shape.length i 0 +
        j * (cstrides shape).getD axis 0 < shape.prod := by
  rw [lineAddr ha]
  have := (update_inB (shape := shape) (axis := axis) (red := i) hi hj).ravel_lt
  omega

theorem lineInj (ha : axis < shape.length) {m : ℕ} (hm : m < numTo shape axis shape.length)
    (i j : ℕ) (hi : i < shape.getD axis 0) (hj : j < shape.getD axis 0)
    (h : rowOffset shape (cstrides shape) axis shape.length m 0 +
        i * (cstrides shape).getD axis 0 =
      rowOffset shape (cstrides shape) axis shape.length m 0 +
        j * (cstrides shape).getD axis 0) : i = j := by
  rw [lineAddr ha, lineAddr ha] at h
  have := ravelIx_inj (update_inB (red := m) hm hi) (update_inB (red := m) hm hj)
    (by exact_mod_cast h) axis ha
  simpa using this

/-- The loop over the lines of the C-ordered array in block `p`. -/
theorem run_lines (ha : axis < shape.length) {p : Ptr} {body : ℕ → Prog (Val R M) Unit}
    {rows : ℕ → List M} (P : St (Val R M) → Prop)
    (hbody : ∀ i < numTo shape axis shape.length, ∀ s c, P s → s.heap p = some ⟨false, c⟩ →
      c.length = shape.prod → ∃ s' c', run t orc (body i) s = .ok ((), s') ∧ P s' ∧
        s'.heap p = some ⟨false, c'⟩ ∧
        WroteLine c c' (rowOffset shape (cstrides shape) axis shape.length i 0)
          ((cstrides shape).getD axis 0) (shape.getD axis 0) (rows i))
    {s : St (Val R M)} {c : List (Option (Val R M))} (hP : P s) (hp : s.heap p = some ⟨false, c⟩)
    (hc : c.length = shape.prod) {f : (ℕ → ℕ) → M} (hf : Arr.Local shape.length f)
    (hrows : ∀ idx, InB shape idx →
      (rows (rank shape axis idx shape.length)).getD (idx axis) 0 = f idx) :
    ∃ s', run t orc (forN body (numLoops shape axis)) s = .ok ((), s') ∧ P s' ∧
      s'.heap p = some ⟨false, cellsM (Arr.ofFn shape f).data⟩ := by
  rw [numLoops_eq]
  obtain ⟨s', h1, hP', c', h2, h3, h4⟩ := forN_spec (t := t) (orc := orc)
    (I := fun m s' => P s' ∧ ∃ c', s'.heap p = some ⟨false, c'⟩ ∧ c'.length = shape.prod ∧
      ∀ idx, InB shape idx → rank shape axis idx shape.length < m →
        c'[ravelIx shape idx shape.length]? = some (some (.samp (f idx)))) (s := s)
    (body := body) (n := numTo shape axis shape.length)
    ⟨hP, c, hp, hc, fun _ _ h => by omega⟩ (by
      rintro m hm s ⟨hP, c, hp, hc, h⟩
      obtain ⟨s', c', e, hP', hp', hw⟩ := hbody m hm s c hP hp hc
      refine ⟨s', e, hP', c', hp', by rw [hw.length, hc], ?_⟩
      intro idx hidx hr
      by_cases hrm : rank shape axis idx shape.length = m
      · have hidx' : ∀ k < shape.length,
            Function.update (digit shape axis shape.length m) axis (idx axis) k = idx k := by
          intro k hk
          by_cases hka : k = axis
          · subst hka; simp
          · rw [Function.update_of_ne hka, ← hrm]
            exact digit_rank (fun k hk _ => hidx k hk) k hk hka
        have := hw.line (idx axis) (hidx axis ha)
        rw [lineAddr ha, Int.toNat_natCast, ravelIx_congr hidx'] at this
        rw [this, ← hrows idx hidx, hrm]
      · rw [hw.rest, h idx hidx (by omega)]
        intro j hj he
        rw [lineAddr ha] at he
        have hk := ravelIx_inj hidx (update_inB (red := m) hm hj) (by exact_mod_cast he)
        apply hrm
        rw [rank_congr (g := digit shape axis shape.length m), rank_digit hm]
        intro k hk' hka
        rw [hk k hk', Function.update_of_ne hka])
  refine ⟨s', h1, hP', ?_⟩
  rw [h2]
  congr 2
  apply List.ext_getElem?
  intro k
  by_cases hk : k < shape.prod
  · have hk' : k < prodTo shape shape.length := by rw [prodTo_length]; exact hk
    have hin : InB shape (unravelIx shape shape.length k) := unravelIx_inB hk'
    have h5 := h4 _ hin (rank_lt fun k hk _ => hin k hk)
    rw [ravel_unravel hk'] at h5
    have h6 := Arr.get_ofFn hf hin
    unfold Arr.get at h6
    have hlen : (Arr.ofFn shape f).data.length = shape.prod := (Arr.ofFn shape f).ok
    have hsh : (Arr.ofFn shape f).shape = shape := rfl
    rw [hsh, ravel_unravel hk', List.getD_eq_getElem (hn := by omega)] at h6
    rw [h5, ← h6]
    simp only [cellsM, List.getElem?_map]
    rw [List.getElem?_eq_getElem (by omega)]
    rfl
  · rw [List.getElem?_eq_none (by omega), List.getElem?_eq_none (by
      rw [cellsM_length, (Arr.ofFn shape f).ok]; exact Nat.le_of_not_lt hk)]

end Loop

end Pywt.Heap
