import Verif.Spec.Pack
import Verif.Proof.Shapes

/-! `coeffs_to_array`, `array_to_coeffs`. -/

namespace Pywt

open Finset Spec

set_option linter.unusedSectionVars false

variable {M : Type} [AddCommGroup M]

/-- The slices select the box `(lo, shape)` of an array of shape `S`. -/
def SlFor (S : List ℕ) (sl : List Slice) (lo : ℕ → ℕ) (shape : List ℕ) : Prop :=
  sl.length = S.length ∧ shape.length = S.length ∧
    ∀ k < S.length, (sl.getD k .full).lo (S.getD k 0) = lo k ∧
      (sl.getD k .full).len (S.getD k 0) = shape.getD k 0

theorem sliceShape_eq {S : List ℕ} {sl : List Slice} {lo : ℕ → ℕ} {shape : List ℕ}
    (h : SlFor S sl lo shape) : sliceShape S sl = shape := by
  apply List.ext_getElem
  · simp [sliceShape, h.2.1]
  intro k h1 h2
  have hk : k < S.length := by rw [← h.2.1]; exact h2
  have := (h.2.2 k hk).2
  rw [List.getD_eq_getElem (hn := hk), List.getD_eq_getElem (hn := h2)] at this
  simp only [sliceShape, List.getElem_mapIdx]
  exact this

theorem sliceLo_eq {S : List ℕ} {sl : List Slice} {lo : ℕ → ℕ} {shape : List ℕ}
    (h : SlFor S sl lo shape) {k : ℕ} (hk : k < S.length) : sliceLo S sl k = lo k :=
  (h.2.2 k hk).1

theorem SlFor.le {S : List ℕ} {sl : List Slice} {lo : ℕ → ℕ} {shape : List ℕ}
    (h : SlFor S sl lo shape) {k : ℕ} (hk : k < S.length) :
    lo k + shape.getD k 0 ≤ S.getD k 0 := by
  obtain ⟨h1, h2⟩ := h.2.2 k hk
  rw [← h1, ← h2]
  unfold Slice.len
  have : (sl.getD k .full).lo (S.getD k 0) ≤ S.getD k 0 := Nat.min_le_right _ _
  omega

theorem Box.covers_inB {S : List ℕ} {sl : List Slice} {b : Box M}
    (h : SlFor S sl b.lo b.arr.shape) {idx : ℕ → ℕ} (hc : b.Covers idx) : InB S idx := by
  intro k hk
  have := hc k (by rw [h.2.1]; exact hk)
  have := h.le hk
  omega

theorem inSlices_iff {S : List ℕ} {sl : List Slice} {b : Box M}
    (h : SlFor S sl b.lo b.arr.shape) {idx : ℕ → ℕ} :
    inSlices S sl idx = true ↔ b.Covers idx := by
  unfold inSlices Box.Covers
  rw [sliceShape_eq h]
  simp only [List.all_eq_true, List.mem_range, Bool.and_eq_true, decide_eq_true_eq]
  rw [h.2.1]
  exact forall₂_congr fun k hk => by rw [sliceLo_eq h hk]

theorem bcastOk_self (s : List ℕ) : bcastOk s s = true := by
  unfold bcastOk
  simp

/-- Contents of a partly filled array. -/
def Filled (A : Arr M) (base : (ℕ → ℕ) → M) (bs : List (Box M)) : Prop :=
  (∀ b ∈ bs, ∀ idx, InB A.shape idx → b.Covers idx →
    A.get idx = b.arr.get fun k => idx k - b.lo k) ∧
  (∀ idx, InB A.shape idx → (∀ b ∈ bs, ¬ b.Covers idx) → A.get idx = base idx)

theorem Box.covers_congr (b : Box M) {f g : ℕ → ℕ} (h : ∀ k < b.arr.shape.length, f k = g k) :
    b.Covers f ↔ b.Covers g := by
  unfold Box.Covers
  exact forall₂_congr fun k hk => by rw [h k hk]

theorem setSlices_filled {A : Arr M} {base : (ℕ → ℕ) → M} {bs : List (Box M)} {b : Box M}
    {sl : List Slice} (hf : Filled A base bs) (hs : SlFor A.shape sl b.lo b.arr.shape)
    (hd : ∀ c ∈ bs, c.Disjoint b) :
    ∃ A', A.setSlices sl b.arr = .ok A' ∧ A'.shape = A.shape ∧ Filled A' base (bs ++ [b]) := by
  have e1 : ¬ A.ndim < sl.length := by unfold Arr.ndim; rw [hs.1]; omega
  have e2 : ¬ ((!bcastOk (sliceShape A.shape sl) b.arr.shape) = true) := by
    rw [sliceShape_eq hs, bcastOk_self]; simp
  refine ⟨Arr.ofFn A.shape fun idx =>
      if inSlices A.shape sl idx then
        b.arr.get (bcastIx (sliceShape A.shape sl) b.arr.shape fun k => idx k - sliceLo A.shape sl k)
      else A.get idx, by simp only [Arr.setSlices, if_neg e1, if_neg e2]; rfl, rfl, ?_⟩
  have hlen : b.arr.shape.length = A.shape.length := hs.2.1
  have hcov : ∀ idx, b.Covers idx →
      b.arr.get (bcastIx (sliceShape A.shape sl) b.arr.shape fun k => idx k - sliceLo A.shape sl k) =
        b.arr.get fun k => idx k - b.lo k := by
    intro idx hc
    apply Arr.get_congr
    intro k hk
    have h1 := hc k hk
    unfold bcastIx
    rw [sliceShape_eq hs]
    split
    · omega
    · simp only [Nat.sub_self, Nat.zero_add]
      rw [sliceLo_eq hs (by omega)]
  have hlocal : Arr.Local A.shape.length fun idx =>
      if inSlices A.shape sl idx then
        b.arr.get (bcastIx (sliceShape A.shape sl) b.arr.shape fun k => idx k - sliceLo A.shape sl k)
      else A.get idx := by
    intro f g h
    have h1 : inSlices A.shape sl f = inSlices A.shape sl g := by
      rw [Bool.eq_iff_iff, inSlices_iff hs, inSlices_iff hs]
      exact b.covers_congr fun k hk => h k (by omega)
    simp only [h1]
    split
    · apply Arr.get_congr
      intro k hk
      unfold bcastIx
      rw [sliceShape_eq hs]
      split
      · rfl
      · simp only [Nat.sub_self, Nat.zero_add]
        rw [h k (by omega)]
    · exact Arr.get_congr _ h
  have hget : ∀ idx, InB A.shape idx → (Arr.ofFn A.shape fun idx =>
      if inSlices A.shape sl idx then
        b.arr.get (bcastIx (sliceShape A.shape sl) b.arr.shape fun k => idx k - sliceLo A.shape sl k)
      else A.get idx).get idx = if inSlices A.shape sl idx then
        b.arr.get (bcastIx (sliceShape A.shape sl) b.arr.shape fun k => idx k - sliceLo A.shape sl k)
      else A.get idx := fun idx hidx => Arr.get_ofFn hlocal hidx
  constructor
  · intro c hc idx hidx hcc
    rw [hget idx hidx]
    rcases List.mem_append.mp hc with hc | hc
    · rw [if_neg (by rw [inSlices_iff hs]; exact hd c hc idx hcc)]
      exact hf.1 c hc idx hidx hcc
    · simp only [List.mem_singleton] at hc
      subst hc
      rw [if_pos ((inSlices_iff hs).mpr hcc)]
      exact hcov idx hcc
  · intro idx hidx hcc
    rw [hget idx hidx, if_neg (by rw [inSlices_iff hs]; exact hcc b (by simp))]
    exact hf.2 idx hidx fun c hc => hcc c (by simp [hc])

theorem getSlices_filled {A : Arr M} {base : (ℕ → ℕ) → M} {bs : List (Box M)} {b : Box M}
    {sl : List Slice} (hf : Filled A base bs) (hb : b ∈ bs)
    (hs : SlFor A.shape sl b.lo b.arr.shape) : A.getSlices sl = .ok b.arr := by
  have e1 : ¬ A.ndim < sl.length := by unfold Arr.ndim; rw [hs.1]; omega
  simp only [Arr.getSlices, if_neg e1, sliceShape_eq hs]
  have hlen : b.arr.shape.length = A.shape.length := hs.2.1
  congr 1
  refine Arr.ext_get rfl ?_
  intro idx hidx
  simp only [Arr.shape_ofFn] at hidx
  have hlocal : Arr.Local b.arr.shape.length fun idx : ℕ → ℕ =>
      A.get fun k => sliceLo A.shape sl k + idx k := by
    intro f g h
    exact Arr.get_congr _ fun k hk => by rw [h k (by omega)]
  rw [Arr.get_ofFn hlocal hidx]
  have hcong : (A.get fun k => sliceLo A.shape sl k + idx k) = A.get fun k => b.lo k + idx k :=
    Arr.get_congr _ fun k hk => by rw [sliceLo_eq hs hk]
  have hc : b.Covers fun k => b.lo k + idx k := by
    intro k hk
    have := hidx k hk
    exact ⟨Nat.le_add_right _ _, Nat.add_lt_add_left this _⟩
  rw [hcong, hf.1 b hb _ (b.covers_inB hs hc) hc]
  exact Arr.get_congr _ fun k hk => Nat.add_sub_cancel_left _ _

/-! ### Slices of one subband -/

/-- The slices of a subband. -/
def slicesOf (ax cur dsh : List ℕ) (sl : ℕ → Slice) (key : Key) (j : ℕ) : Slice :=
  if (j, 'd') ∈ ax.zip key then ⟨cur.getD j 0, some (cur.getD j 0 + dsh.getD j 0)⟩
  else if (j, 'a') ∈ ax.zip key then ⟨0, some (dsh.getD j 0)⟩
  else sl j

theorem not_mem_zip_of_not_mem {ax : List ℕ} {key : Key} {j : ℕ} {c : Char} (h : j ∉ ax) :
    (j, c) ∉ ax.zip key := fun hm => h (List.of_mem_zip hm).1

theorem keySlices_ok {ndim : ℕ} {cur dsh : List ℕ} {key : Key} {axes : List ℤ} {ax : List ℕ}
    {sl : List Slice} (hsl : sl.length = ndim) (hc : cur.length = ndim) (hd : dsh.length = ndim)
    (hax : normAxes ndim axes = ax.map fun n : ℕ => (n : ℤ)) (hn : ax.Nodup)
    (hb : ∀ j ∈ ax, j < ndim) (hk : key.length = ax.length) (hkl : ∀ c ∈ key, c = 'a' ∨ c = 'd') :
    keySlices cur dsh key axes sl =
      .ok ((List.range ndim).map (slicesOf ax cur dsh (fun j => sl.getD j .full) key)) := by
  induction key generalizing axes ax sl with
  | nil =>
    simp only [keySlices, Py_pure]
    congr 1
    apply List.ext_getElem
    · simp [hsl]
    intro j h1 h2
    simp [slicesOf, h1]
  | cons c key ih =>
    cases ax with
    | nil => simp at hk
    | cons x ax =>
      cases axes with
      | nil => simp [normAxes] at hax
      | cons a axes =>
        simp only [normAxes, List.map_cons, List.cons.injEq] at hax
        have hx : x < ndim := hb x (by simp)
        obtain ⟨hn1, hn2⟩ := List.nodup_cons.mp hn
        have e1 : pyIndex dsh a = some (dsh.getD x 0) :=
          pyIndex_eq (by omega) (by rw [hd]; exact hax.1.symm)
        have e2 : pyIndex cur a = some (cur.getD x 0) :=
          pyIndex_eq (by omega) (by rw [hc]; exact hax.1.symm)
        have e3 : ∀ v, pySet sl a v = .ok (sl.set x v) := fun v =>
          pySet_eq (by omega) (by rw [hsl]; exact hax.1.symm)
        have hk' : key.length = ax.length := by simpa using hk
        have key_eq : ∀ v, (∀ j, j ≠ x → (slicesOf (x :: ax) cur dsh (fun j => sl.getD j .full)
              (c :: key) j) = slicesOf ax cur dsh (fun j => sl.getD j .full) key j) →
            slicesOf (x :: ax) cur dsh (fun j => sl.getD j .full) (c :: key) x = v →
            (List.range ndim).map (slicesOf ax cur dsh (fun j => (sl.set x v).getD j .full) key) =
            (List.range ndim).map (slicesOf (x :: ax) cur dsh (fun j => sl.getD j .full)
              (c :: key)) := by
          intro v h1 h2
          apply List.map_congr_left
          intro j hj
          simp only [List.mem_range] at hj
          by_cases hjx : j = x
          · subst hjx
            rw [h2]
            unfold slicesOf
            rw [if_neg (not_mem_zip_of_not_mem hn1), if_neg (not_mem_zip_of_not_mem hn1)]
            simp [List.getD_eq_getElem?_getD, hsl, hj]
          · rw [h1 j hjx]
            unfold slicesOf
            have : (sl.set x v).getD j Slice.full = sl.getD j .full := by
              simp [List.getD_eq_getElem?_getD, Ne.symm hjx]
            simp only [this]
        have hoff : ∀ j, j ≠ x → (slicesOf (x :: ax) cur dsh (fun j => sl.getD j .full)
              (c :: key) j) = slicesOf ax cur dsh (fun j => sl.getD j .full) key j := by
          intro j hj
          unfold slicesOf
          simp [List.zip_cons_cons, hj]
        rcases hkl c (by simp) with rfl | rfl
        · simp only [keySlices, if_true, shapeAt, e1, Py_bind_ok, Py_pure, e3]
          rw [ih (by simpa using hsl) hax.2 hn2 (fun j hj => hb j (by simp [hj])) hk'
            (fun c hc => hkl c (by simp [hc]))]
          congr 1
          apply key_eq _ hoff
          unfold slicesOf
          rw [if_neg, if_pos (by simp)]
          simp only [List.zip_cons_cons, List.mem_cons, Prod.mk.injEq, not_or]
          exact ⟨by simp, not_mem_zip_of_not_mem hn1⟩
        · have hne : ¬ ('d' = 'a') := by decide
          simp only [keySlices, if_neg hne, if_true, shapeAt, e1, e2, Py_bind_ok, Py_pure, e3]
          rw [ih (by simpa using hsl) hax.2 hn2 (fun j hj => hb j (by simp [hj])) hk'
            (fun c hc => hkl c (by simp [hc]))]
          congr 1
          apply key_eq _ hoff
          unfold slicesOf
          rw [if_pos (by simp)]

/-- The slices of a subband select its box. -/
theorem slFor_slicesOf {S ax cur aSh : List ℕ} {dsh : List ℕ} {key : Key} (hn : ax.Nodup)
    (hS : S.length = cur.length) (hd : dsh.length = cur.length) (hk : key.length = ax.length)
    (hkl : ∀ c ∈ key, c = 'a' ∨ c = 'd')
    (hfit : ∀ j < cur.length, if j ∈ ax then
      cur.getD j 0 + dsh.getD j 0 ≤ S.getD j 0 else dsh.getD j 0 = S.getD j 0)
    (hag : ∀ j ∈ ax, aSh.getD j 0 = cur.getD j 0) :
    SlFor S ((List.range cur.length).map (slicesOf ax aSh dsh
      (fun j => (List.replicate cur.length Slice.full).getD j .full) key))
      (boxLo ax cur key) dsh := by
  refine ⟨by simp [hS], by omega, ?_⟩
  intro j hj
  have hj' : j < cur.length := by omega
  have e : ((List.range cur.length).map (slicesOf ax aSh dsh
      (fun j => (List.replicate cur.length Slice.full).getD j .full) key)).getD j .full =
      slicesOf ax aSh dsh
      (fun j => (List.replicate cur.length Slice.full).getD j .full) key j := by
    rw [List.getD_eq_getElem (hn := by simpa using hj')]
    simp
  rw [e]
  have hf := hfit j hj'
  unfold slicesOf boxLo Slice.len Slice.lo
  by_cases h1 : (j, 'd') ∈ ax.zip key
  · have hja := (List.of_mem_zip h1).1
    rw [if_pos hja] at hf
    rw [if_pos h1, if_pos h1, hag j hja]
    simp only [Option.getD_some]
    omega
  · rw [if_neg h1, if_neg h1]
    by_cases h2 : (j, 'a') ∈ ax.zip key
    · have hja := (List.of_mem_zip h2).1
      rw [if_pos hja] at hf
      rw [if_pos h2]
      simp only [Option.getD_some]
      omega
    · rw [if_neg h2]
      have hja : j ∉ ax := by
        intro hja
        obtain ⟨i, hi, rfl⟩ := List.getElem_of_mem hja
        have hm : (ax[i], key[i]'(by omega)) ∈ ax.zip key := by
          rw [List.mem_iff_getElem]
          exact ⟨i, by simp; omega, by simp⟩
        rcases hkl (key[i]'(by omega)) (List.getElem_mem _) with h | h
        · rw [h] at hm; exact h2 hm
        · rw [h] at hm; exact h1 hm
      rw [if_neg hja] at hf
      have hg : (List.replicate cur.length Slice.full).getD j .full = .full := by
        rw [List.getD_eq_getElem (hn := by simpa using hj')]; simp
      simp only [hg]
      simp only [Slice.full, Option.getD_none]
      omega

end Pywt
