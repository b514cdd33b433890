import Verif.Proof.Arr
import Verif.Proof.SwtTop
import Verif.Model.AxisPy

/-! The n-D C drivers visit every line of the array exactly once. -/

namespace Pywt

open Finset Spec

set_option linter.unusedSectionVars false

variable {R M : Type} [Ring R] [AddCommGroup M] [Module R M]

/-- The index (0 along `axis`) of line number `red`. -/
def digit (shape : List ℕ) (axis : ℕ) : ℕ → ℕ → ℕ → ℕ
  | 0, _, _ => 0
  | j + 1, red, k =>
      if k = j then (if j = axis then 0 else red % shape.getD j 0)
      else digit shape axis j (if j = axis then red else red / shape.getD j 0) k

/-- The line number of an index. -/
def rank (shape : List ℕ) (axis : ℕ) (idx : ℕ → ℕ) : ℕ → ℕ
  | 0 => 0
  | j + 1 =>
      if j = axis then rank shape axis idx j else rank shape axis idx j * shape.getD j 0 + idx j

def numTo (shape : List ℕ) (axis : ℕ) : ℕ → ℕ
  | 0 => 1
  | j + 1 => if j = axis then numTo shape axis j else numTo shape axis j * shape.getD j 0

theorem numLoops_eq (shape : List ℕ) (axis : ℕ) :
    numLoops shape axis = numTo shape axis shape.length := by
  unfold numLoops
  have : ∀ j, (List.range j).foldl (fun n i => if i ≠ axis then n * shape.getD i 0 else n) 1 =
      numTo shape axis j := by
    intro j
    induction j with
    | zero => rfl
    | succ j ih =>
      rw [List.range_succ, List.foldl_append, ih]
      simp only [List.foldl_cons, List.foldl_nil, numTo]
      split <;> simp_all
  exact this _

theorem dot_congr {strides : List ℤ} {f g : ℕ → ℕ} {j : ℕ} (h : ∀ k < j, f k = g k) :
    dot strides f j = dot strides g j := by
  unfold dot
  apply sum_congr rfl
  intro k hk
  rw [h k (mem_range.mp hk)]

theorem rowOffset_eq (shape : List ℕ) (strides : List ℤ) (axis : ℕ) (j red : ℕ) (off : ℤ) :
    rowOffset shape strides axis j red off = off + dot strides (digit shape axis j red) j := by
  induction j generalizing red off with
  | zero => simp [rowOffset, dot]
  | succ j ih =>
    unfold rowOffset
    have hc : dot strides (digit shape axis (j + 1) red) (j + 1) =
        dot strides (digit shape axis j (if j = axis then red else red / shape.getD j 0)) j +
          ((if j = axis then 0 else red % shape.getD j 0 : ℕ) : ℤ) * strides.getD j 0 := by
      unfold dot
      rw [sum_range_succ]
      congr 1
      · apply sum_congr rfl
        intro k hk
        have := mem_range.mp hk
        simp only [digit]
        rw [if_neg (by omega)]
      · simp [digit]
    rw [hc]
    split
    · rw [ih]; simp
    · rw [ih]; ring

theorem cstrides_getD {shape : List ℕ} {k : ℕ} (hk : k < shape.length) :
    (cstrides shape).getD k 0 = ((shape.drop (k + 1)).prod : ℤ) := by
  rw [List.getD_eq_getElem (hn := by simpa [cstrides] using hk)]
  simp [cstrides]

theorem dot_cstrides (shape : List ℕ) (idx : ℕ → ℕ) :
    dot (cstrides shape) idx shape.length = (ravelIx shape idx shape.length : ℤ) := by
  have : ∀ j ≤ shape.length, dot (cstrides shape) idx j =
      (ravelIx shape idx j : ℤ) * ((shape.drop j).prod : ℕ) := by
    intro j
    induction j with
    | zero => simp [dot, ravelIx]
    | succ j ih =>
      intro hj
      unfold dot at ih ⊢
      rw [sum_range_succ, ih (by omega), cstrides_getD (by omega), List.drop_eq_getElem_cons
        (show j < shape.length by omega), List.prod_cons, ravelIx,
        List.getD_eq_getElem (hn := by omega)]
      push_cast
      ring
  rw [this _ le_rfl]
  simp

theorem digit_axis {shape : List ℕ} {axis j red : ℕ} (h : axis < j) :
    digit shape axis j red axis = 0 := by
  induction j generalizing red with
  | zero => omega
  | succ j ih =>
    simp only [digit]
    by_cases h1 : axis = j
    · simp [h1]
    · rw [if_neg h1]
      exact ih (by omega)

theorem digit_lt {shape : List ℕ} {axis j red : ℕ} (hr : red < numTo shape axis j) :
    ∀ k < j, k ≠ axis → digit shape axis j red k < shape.getD k 0 := by
  induction j generalizing red with
  | zero => intro k hk; omega
  | succ j ih =>
    intro k hk hka
    simp only [digit]
    simp only [numTo] at hr
    by_cases h : j = axis
    · rw [if_pos h] at hr
      rw [if_neg (by omega), if_pos h]
      exact ih hr k (by omega) hka
    · rw [if_neg h] at hr
      rw [if_neg h, if_neg h]
      have hpos : 0 < shape.getD j 0 := by
        rcases Nat.eq_zero_or_pos (shape.getD j 0) with h' | h'
        · rw [h'] at hr; omega
        · exact h'
      split
      · rename_i hkj; subst hkj; exact Nat.mod_lt _ hpos
      · exact ih (Nat.div_lt_of_lt_mul (by rw [Nat.mul_comm]; exact hr)) k (by omega) hka

theorem rank_lt {shape : List ℕ} {axis j : ℕ} {idx : ℕ → ℕ}
    (h : ∀ k < j, k ≠ axis → idx k < shape.getD k 0) :
    rank shape axis idx j < numTo shape axis j := by
  induction j with
  | zero => simp [rank, numTo]
  | succ j ih =>
    have h1 := ih fun k hk => h k (by omega)
    simp only [rank, numTo]
    split
    · exact h1
    · have h2 := h j (by omega) (by omega)
      calc rank shape axis idx j * shape.getD j 0 + idx j
          < rank shape axis idx j * shape.getD j 0 + shape.getD j 0 := by omega
        _ = (rank shape axis idx j + 1) * shape.getD j 0 := by ring
        _ ≤ _ := Nat.mul_le_mul_right _ h1

theorem digit_rank {shape : List ℕ} {axis j : ℕ} {idx : ℕ → ℕ}
    (h : ∀ k < j, k ≠ axis → idx k < shape.getD k 0) :
    ∀ k < j, k ≠ axis → digit shape axis j (rank shape axis idx j) k = idx k := by
  induction j with
  | zero => intro k hk; omega
  | succ j ih =>
    intro k hk hka
    have ih' := ih (fun k hk => h k (by omega))
    simp only [rank, digit]
    by_cases hj : j = axis
    · simp only [if_pos hj]
      rw [if_neg (by omega)]
      exact ih' k (by omega) hka
    · simp only [if_neg hj]
      have h2 := h j (by omega) hj
      have e1 : (rank shape axis idx j * shape.getD j 0 + idx j) % shape.getD j 0 = idx j := by
        rw [Nat.mul_comm, Nat.mul_add_mod, Nat.mod_eq_of_lt h2]
      have e2 : (rank shape axis idx j * shape.getD j 0 + idx j) / shape.getD j 0 =
          rank shape axis idx j := by
        rw [Nat.mul_comm, Nat.mul_add_div (by omega), Nat.div_eq_of_lt h2, Nat.add_zero]
      rw [e1, e2]
      split
      · rename_i h'; rw [h']
      · exact ih' k (by omega) hka

theorem rank_congr {shape : List ℕ} {axis j : ℕ} {f g : ℕ → ℕ}
    (h : ∀ k < j, k ≠ axis → f k = g k) : rank shape axis f j = rank shape axis g j := by
  induction j with
  | zero => rfl
  | succ j ih =>
    simp only [rank, ih fun k hk => h k (by omega)]
    split
    · rfl
    · rw [h j (by omega) (by omega)]

theorem rank_digit {shape : List ℕ} {axis j red : ℕ} (hr : red < numTo shape axis j) :
    rank shape axis (digit shape axis j red) j = red := by
  induction j generalizing red with
  | zero => simp [numTo] at hr; simp [rank, hr]
  | succ j ih =>
    simp only [numTo] at hr
    simp only [rank]
    by_cases hj : j = axis
    · rw [if_pos hj] at hr ⊢
      rw [rank_congr (g := digit shape axis j red), ih hr]
      intro k hk _
      simp only [digit, if_pos hj]
      rw [if_neg (by omega)]
    · rw [if_neg hj] at hr ⊢
      rw [rank_congr (g := digit shape axis j (red / shape.getD j 0)),
        ih (Nat.div_lt_of_lt_mul (by rw [Nat.mul_comm]; exact hr))]
      · simp only [digit, if_neg hj, if_true]
        rw [Nat.mul_comm]
        exact Nat.div_add_mod _ _
      · intro k hk _
        simp only [digit, if_neg hj]
        rw [if_neg (by omega)]

/-! ### Reading and writing lines -/

theorem mapM_ok {α β : Type} {l : List α} {f : α → C β} {g : α → β}
    (h : ∀ a ∈ l, f a = .ok (g a)) : l.mapM f = .ok (l.map g) := by
  induction l with
  | nil => rfl
  | cons a l ih =>
    rw [List.mapM_cons, h a (by simp), ih fun b hb => h b (by simp [hb])]
    rfl

theorem readRow_eq {mem : List M} {off stride : ℤ} {n : ℕ}
    (h : ∀ j : ℕ, j < n → 0 ≤ off + j * stride ∧ off + j * stride < mem.length) :
    readRow mem off stride n =
      .ok ((List.range n).map fun j : ℕ => mem.getD (off + j * stride).toNat 0) := by
  unfold readRow
  apply mapM_ok
  intro j hj
  obtain ⟨h1, h2⟩ := h j (List.mem_range.mp hj)
  rw [rdZ, if_pos h1, rd_eq (by omega)]

theorem writeRow_spec {mem row : List M} {off stride : ℤ} {n : ℕ}
    (h : ∀ j : ℕ, j < n → 0 ≤ off + j * stride ∧ off + j * stride < mem.length)
    (hrow : row.length = n)
    (hinj : ∀ i j : ℕ, i < n → j < n → off + i * stride = off + j * stride → i = j) :
    ∃ mem', writeRow mem off stride n row = .ok mem' ∧ mem'.length = mem.length ∧
      (∀ j : ℕ, j < n → mem'.getD (off + j * stride).toNat 0 = row.getD j 0) ∧
      (∀ q : ℕ, (∀ j : ℕ, j < n → (q : ℤ) ≠ off + j * stride) → mem'.getD q 0 = mem.getD q 0) := by
  unfold writeRow
  have key : ∀ m ≤ n, ∃ mem', (List.range m).foldlM (fun m j => do
      let v ← rd row j
      wrZ m (off + j * stride) v) mem = (.ok mem' : C (List M)) ∧ mem'.length = mem.length ∧
      (∀ j : ℕ, j < m → mem'.getD (off + j * stride).toNat 0 = row.getD j 0) ∧
      (∀ q : ℕ, (∀ j : ℕ, j < m → (q : ℤ) ≠ off + j * stride) →
        mem'.getD q 0 = mem.getD q 0) := by
    intro m
    induction m with
    | zero => intro _; exact ⟨mem, rfl, rfl, fun j hj => by omega, fun q _ => rfl⟩
    | succ m ih =>
      intro hm
      obtain ⟨mem', e, hl, h1, h2⟩ := ih (by omega)
      obtain ⟨hb1, hb2⟩ := h m (by omega)
      refine ⟨mem'.set (off + m * stride).toNat (row.getD m 0), ?_, by simpa using hl, ?_, ?_⟩
      · rw [List.range_succ, List.foldlM_append, e]
        simp only [C_bind_ok, List.foldlM_cons, List.foldlM_nil]
        rw [rd_eq (by omega)]
        simp only [C_bind_ok, wrZ]
        rw [if_pos hb1, wr_eq (by omega)]
        rfl
      · intro j hj
        by_cases hjm : j = m
        · subst hjm
          rw [List.getD_eq_getElem (hn := by rw [List.length_set]; omega)]
          simp
        · have hne : (off + (m : ℤ) * stride).toNat ≠ (off + (j : ℤ) * stride).toNat := by
            intro he
            have := h j (by omega)
            exact hjm (hinj j m (by omega) (by omega) (by omega))
          rw [← h1 j (by omega)]
          simp only [List.getD_eq_getElem?_getD, List.getElem?_set_ne hne]
      · intro q hq
        have hne : (off + (m : ℤ) * stride).toNat ≠ q := by
          have := hq m (by omega)
          omega
        rw [← h2 q fun j hj => hq j (by omega)]
        simp only [List.getD_eq_getElem?_getD, List.getElem?_set_ne hne]
  exact key n le_rfl

/-! ### The loop over the lines -/

theorem update_inB {shape : List ℕ} {axis red j : ℕ}
    (hr : red < numTo shape axis shape.length) (hj : j < shape.getD axis 0) :
    InB shape (Function.update (digit shape axis shape.length red) axis j) := by
  intro k hk
  by_cases h : k = axis
  · subst h; simpa using hj
  · rw [Function.update_of_ne h]
    exact digit_lt hr k hk h

theorem dot_update {strides : List ℤ} {idx : ℕ → ℕ} {axis n j : ℕ} (ha : axis < n)
    (h0 : idx axis = 0) :
    dot strides (Function.update idx axis j) n = dot strides idx n + j * strides.getD axis 0 := by
  unfold dot
  rw [← sum_erase_add (range n) _ (mem_range.mpr ha), ← sum_erase_add (range n)
    (fun k => (idx k : ℤ) * strides.getD k 0) (mem_range.mpr ha)]
  simp only [Function.update_self, h0, Nat.cast_zero, zero_mul, add_zero]
  congr 1
  apply sum_congr rfl
  intro k hk
  rw [Function.update_of_ne (ne_of_mem_erase hk)]

/-- The loop over all lines of a C-ordered output array, when the line transform `body` succeeds
on every line with a result that does not depend on the old contents. -/
theorem rowLoop_spec {shape : List ℕ} {axis : ℕ} (ha : axis < shape.length)
    {body : ℕ → List M → C (List M)} {rows : ℕ → List M} {out : List M}
    (hout : out.length = shape.prod)
    (hbody : ∀ i < numTo shape axis shape.length, ∀ orow : List M,
      orow.length = shape.getD axis 0 → body i orow = .ok (rows i))
    (hrows : ∀ i < numTo shape axis shape.length, (rows i).length = shape.getD axis 0) :
    ∃ out', rowLoop ⟨shape, cstrides shape⟩ axis body out = .ok out' ∧ out'.length = shape.prod ∧
      ∀ idx, InB shape idx → out'.getD (ravelIx shape idx shape.length) 0 =
        (rows (rank shape axis idx shape.length)).getD (idx axis) 0 := by
  unfold rowLoop
  rw [numLoops_eq]
  have haddr : ∀ i, i < numTo shape axis shape.length → ∀ j < shape.getD axis 0,
      rowOffset shape (cstrides shape) axis shape.length i 0 + j * (cstrides shape).getD axis 0 =
        (ravelIx shape (Function.update (digit shape axis shape.length i) axis j)
          shape.length : ℤ) := by
    intro i hi j hj
    rw [rowOffset_eq, zero_add, ← dot_cstrides, dot_update ha (digit_axis ha)]
  have key : ∀ m ≤ numTo shape axis shape.length, ∃ out',
      (List.range m).foldlM (fun out i => do
        let off := rowOffset shape (cstrides shape) axis shape.length i 0
        let n := shape.getD axis 0
        let row ← readRow out off ((cstrides shape).getD axis 0) n
        let row ← body i row
        writeRow out off ((cstrides shape).getD axis 0) n row) out = (.ok out' : C (List M)) ∧
      out'.length = shape.prod ∧
      ∀ idx, InB shape idx → rank shape axis idx shape.length < m →
        out'.getD (ravelIx shape idx shape.length) 0 =
        (rows (rank shape axis idx shape.length)).getD (idx axis) 0 := by
    intro m
    induction m with
    | zero => intro _; exact ⟨out, rfl, hout, fun _ _ h => by omega⟩
    | succ m ih =>
      intro hm
      obtain ⟨o, e, hl, h1⟩ := ih (by omega)
      have hb : ∀ j : ℕ, j < shape.getD axis 0 →
          0 ≤ rowOffset shape (cstrides shape) axis shape.length m 0 +
            j * (cstrides shape).getD axis 0 ∧
          rowOffset shape (cstrides shape) axis shape.length m 0 +
            j * (cstrides shape).getD axis 0 < o.length := by
        intro j hj
        rw [haddr m (by omega) j hj, hl]
        have := (update_inB (shape := shape) (axis := axis) (red := m) (by omega) hj).ravel_lt
        omega
      have hinj : ∀ i j : ℕ, i < shape.getD axis 0 → j < shape.getD axis 0 →
          rowOffset shape (cstrides shape) axis shape.length m 0 +
            i * (cstrides shape).getD axis 0 =
          rowOffset shape (cstrides shape) axis shape.length m 0 +
            j * (cstrides shape).getD axis 0 → i = j := by
        intro i j hi hj h
        rw [haddr m (by omega) i hi, haddr m (by omega) j hj] at h
        have := ravelIx_inj (update_inB (red := m) (by omega) hi) (update_inB (red := m) (by omega) hj)
          (by exact_mod_cast h) axis ha
        simpa using this
      obtain ⟨o', e', hl', hw1, hw2⟩ := writeRow_spec (row := rows m) hb (hrows m (by omega)) hinj
      refine ⟨o', ?_, by rw [hl', hl], ?_⟩
      · rw [List.range_succ, List.foldlM_append, e]
        simp only [C_bind_ok, List.foldlM_cons, List.foldlM_nil]
        rw [readRow_eq hb]
        simp only [C_bind_ok]
        rw [hbody m (by omega) _ (by simp)]
        simp only [C_bind_ok]
        rw [e']
        rfl
      · intro idx hidx hr
        by_cases hrm : rank shape axis idx shape.length = m
        · have hidx' : ∀ k < shape.length,
              Function.update (digit shape axis shape.length m) axis (idx axis) k = idx k := by
            intro k hk
            by_cases hka : k = axis
            · subst hka; simp
            · rw [Function.update_of_ne hka, ← hrm]
              exact digit_rank (fun k hk _ => hidx k hk) k hk hka
          have := hw1 (idx axis) (hidx axis ha)
          rw [haddr m (by omega) _ (hidx axis ha), Int.toNat_natCast, ravelIx_congr hidx'] at this
          rw [this, hrm]
        · rw [hw2, h1 idx hidx (by omega)]
          intro j hj he
          rw [haddr m (by omega) j hj] at he
          have hk := ravelIx_inj hidx (update_inB (red := m) (by omega) hj) (by exact_mod_cast he)
          apply hrm
          rw [rank_congr (g := digit shape axis shape.length m), rank_digit (by omega)]
          intro k hk' hka
          rw [hk k hk', Function.update_of_ne hka]
  obtain ⟨out', e, hl, h⟩ := key _ le_rfl
  exact ⟨out', e, hl, fun idx hidx => h idx hidx (rank_lt fun k hk _ => hidx k hk)⟩

end Pywt
