import Verif.Proof.FsItems

/-! Result objects of the fully separable transform after any history of assignments. -/

namespace Pywt

open Finset Spec

set_option linter.unusedSectionVars false

section
variable {R M : Type} [Ring R] [AddCommGroup M] [Module R M]

theorem offsetSlices_table (ns : List ℕ) : offsetSlices ns 0 = sliceTable ns := by
  refine List.ext_getElem? fun j => ?_
  by_cases hj : j < ns.length
  · rw [offsetSlices_get _ _ hj]
    simp only [sliceTable, List.getElem?_map, List.getElem?_range hj, Option.map_some, Nat.zero_add]
    rw [List.take_add_one, List.sum_append, List.getD_eq_getElem (hn := hj), List.getElem?_eq_getElem hj]
    simp
  · rw [List.getElem?_eq_none (by rw [offsetSlices_length]; omega),
      List.getElem?_eq_none (by simp [sliceTable]; omega)]

theorem setSlices_shape {a v b : Arr M} {sl : List Slice} (h : a.setSlices sl v = .ok b) :
    b.shape = a.shape := by
  unfold Arr.setSlices at h
  split at h
  · simp [throw, throwThe, MonadExceptOf.throw] at h
  · split at h
    · simp [throw, throwThe, MonadExceptOf.throw] at h
    · simp only [Py_pure, Except.ok.injEq] at h
      rw [← h]
      rfl

theorem setItem_with {r r' : FsResult R M} {key : List ℤ} {v : Arr M} (h : r.setItem key v = .ok r') :
    ∃ c, r' = { r with coeffs := c } ∧ c.shape = r.coeffs.shape := by
  unfold FsResult.setItem at h
  cases h1 : r.validateIndex key with
  | error e => rw [h1] at h; simp at h
  | ok u =>
    rw [h1] at h
    simp only [Py_bind_ok] at h
    cases h2 : r.getCoefSl (key.map Int.toNat) with
    | error e => rw [h2] at h; simp at h
    | ok sl =>
      rw [h2] at h
      simp only [Py_bind_ok] at h
      cases h3 : r.coeffs.getSlices sl with
      | error e => rw [h3] at h; simp at h
      | ok cur =>
        rw [h3] at h
        simp only [Py_bind_ok] at h
        split at h
        · simp at h
        · cases h4 : r.coeffs.setSlices sl v with
          | error e => rw [h4] at h; simp at h
          | ok c =>
            rw [h4] at h
            simp only [Py_pure, Except.ok.injEq, Py_bind_ok] at h
            exact ⟨c, h.symm, setSlices_shape h4⟩

theorem FsHeld.setting {x : Arr M} {wavelet : PerAxis (Wavelet R)} {mode : PerAxis Mode}
    {levels : PerAxis (Option ℤ)} {axes : Option (List ℤ)} {ps : List (FsAxis R)}
    (hr : FsResolves x.shape wavelet mode levels axes ps) (hok : FsOk x.shape ps)
    {r : FsResult R M} (h : FsHeld x wavelet mode levels axes r) : FsSetting r x.shape ps := by
  have ha : ∀ p ∈ ps, AxisIs x.shape.length p.arg p.ax := fun p hp => (hr.2.2.2.2.1 p hp).1
  have hn := hr.2.2.2.2.2
  induction h with
  | result h =>
    rw [fswavedecn_ok hr hok, Except.ok.injEq] at h
    subst h
    exact ⟨⟨rfl, rfl, rfl, rfl, fsTransform_shape hn fun p hp => (ha p hp).2⟩, hn, ha⟩
  | item _ h ih =>
    obtain ⟨c, rfl, hc⟩ := setItem_with h
    exact ih.with hc
  | @coeffs r r' c _ h ih =>
    unfold FsResult.setCoeffs at h
    split at h
    · simp at h
    · rename_i hc
      simp only [Py_pure, Except.ok.injEq] at h
      subst h
      exact ih.with (not_not.mp hc)

theorem run_shape (ops : List (LOp M)) (c : Arr M) :
    (c.run ops).shape = ops.foldl (fun s o => s.set o.ax o.n) c.shape := by
  induction ops generalizing c with
  | nil => rfl
  | cons o ops ih =>
    rw [Arr.run_cons, ih]
    rfl

theorem foldl_set_getD {l : List (ℕ × ℕ)} (hn : (l.map (·.1)).Nodup) (s : List ℕ) (k : ℕ) :
    (k ∉ l.map (·.1) → (l.foldl (fun s o => s.set o.1 o.2) s).getD k 0 = s.getD k 0) ∧
    (∀ n, (k, n) ∈ l → k < s.length → (l.foldl (fun s o => s.set o.1 o.2) s).getD k 0 = n) ∧
    (l.foldl (fun s o => s.set o.1 o.2) s).length = s.length := by
  induction l generalizing s with
  | nil => simp
  | cons o l ih =>
    simp only [List.map_cons, List.nodup_cons] at hn
    obtain ⟨h1, h2, h3⟩ := ih hn.2 (s.set o.1 o.2)
    refine ⟨fun hk => ?_, fun n hk hs => ?_, ?_⟩
    · simp only [List.map_cons, List.mem_cons, not_or] at hk
      rw [List.foldl_cons, h1 hk.2, List.getD_eq_getElem?_getD, List.getElem?_set_ne (Ne.symm hk.1),
        List.getD_eq_getElem?_getD]
    · rw [List.foldl_cons]
      rcases List.mem_cons.mp hk with h | h
      · subst h
        rw [h1 hn.1, List.getD_eq_getElem (hn := by simpa using hs), List.getElem_set_self]
      · exact h2 n h (by simpa using hs)
    · rw [List.foldl_cons, h3, List.length_set]

theorem item_shape {r : FsResult R M} {shape : List ℕ} {ps : List (FsAxis R)}
    (h : FsSetting r shape ps) {key : List ℕ} (hk : FsKey ps key) :
    (r.coeffs.run (keyOps shape (ps.zip key))).shape = fsItemShape ps shape key := by
  obtain ⟨hn, hq⟩ := h.zip hk
  obtain ⟨_, hz2⟩ := hk.zip
  have e : fsItemShape ps shape key = ((ps.zip key).map fun q => (q.1.ax,
      (cascadeLens q.1.mode q.1.w.dec_len (shape.getD q.1.ax 0) q.1.n).getD q.2 0)).foldl
        (fun s o => s.set o.1 o.2) shape := by
    unfold fsItemShape
    rw [List.foldl_map]
  have hn' : (((ps.zip key).map fun q => (q.1.ax,
      (cascadeLens q.1.mode q.1.w.dec_len (shape.getD q.1.ax 0) q.1.n).getD q.2 0)).map
        (·.1)).Nodup := by
    rw [List.map_map]; exact hn
  have hlen : r.coeffs.shape.length = shape.length := h.is.2.2.2.2.1
  rw [e]
  refine List.ext_getElem (by rw [Arr.run_length, (foldl_set_getD hn' shape 0).2.2, hlen]) ?_
  intro k k1 k2
  have e : ∀ l : List ℕ, ∀ hl : k < l.length, l[k] = l.getD k 0 := by
    intro l hl; rw [List.getD_eq_getElem (hn := hl)]
  rw [e, e]
  rw [Arr.run_length] at k1
  by_cases hk2 : k ∈ (ps.zip key).map (·.1.ax)
  · obtain ⟨q, hqm, rfl⟩ := List.mem_map.mp hk2
    rw [keyOps_shape_mem hn hqm (hq q hqm).1.2]
    refine ((foldl_set_getD hn' shape _).2.1 _ (List.mem_map.mpr ⟨q, hqm, rfl⟩) ?_).symm
    rw [← hlen]; exact k1
  · rw [Arr.run_shape_ne _ (by rw [keyOps_ax]; exact hk2),
      (foldl_set_getD hn' shape k).1 (by rw [List.map_map]; exact hk2)]
    refine h.is.2.2.2.2.2.2 k ?_
    rw [← hz2]; exact hk2

theorem zip_replicate {α β : Type} (l : List α) (b : β) {n : ℕ} (h : l.length ≤ n) :
    l.zip (List.replicate n b) = l.zip (List.replicate l.length b) := by
  induction l generalizing n with
  | nil => rfl
  | cons a l ih =>
    cases n with
    | zero => simp at h
    | succ n =>
      simp only [List.length_cons, List.replicate_succ, List.zip_cons_cons]
      rw [ih (by simpa using h)]

end

end Pywt
