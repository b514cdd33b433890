import Verif.Proof.HeapAlloc
import Verif.Model.HeapNames

/-!
# Filling wavelets
-/

set_option linter.unusedSectionVars false
set_option linter.unusedVariables false

namespace Pywt.Heap

open Spec

variable {R M : Type} [Ring R] [AddCommGroup M] [Module R M]
variable {t : ℕ} {orc : ℕ → Bool}

/-- The number of a filter in `WS`. -/
def slot (rec hi : Bool) (q : Prec) : ℕ := fFilter rec hi q - 2

theorem slot_lt (rec hi : Bool) (q : Prec) : slot rec hi q < 8 := by
  cases rec <;> cases hi <;> cases q <;> decide

theorem fFilter_eq (rec hi : Bool) (q : Prec) : fFilter rec hi q = slot rec hi q + 2 := by
  cases rec <;> cases hi <;> cases q <;> rfl

section
variable {h0 : Ptr → Option (Blk (Val R M))} {s : St (Val R M)} {w : Ptr} {n : ℕ}
    {p : ℕ → Ptr} {G : ℕ → List R} {b : Val R M}

theorem WS.field (a : WS t h0 s w n p G b) (rec hi : Bool) (q : Prec) :
    run t orc (rdPtr (some w) (fFilter rec hi q)) s = .ok (some (p (slot rec hi q)), s) := by
  refine run_rdPtr a.struct ?_
  cases rec <;> cases hi <;> cases q <;> rfl

theorem WS.decLen (a : WS t h0 s w n p G b) : run t orc (rdNum (some w) fDecLen) s = .ok (n, s) :=
  run_rdNum a.struct rfl

theorem WS.recLen (a : WS t h0 s w n p G b) : run t orc (rdNum (some w) fRecLen) s = .ok (n, s) :=
  run_rdNum a.struct rfl

theorem WS.ne (a : WS t h0 s w n p G b) {k : ℕ} (hk : k < 8) : p k ≠ w := by
  intro h
  have := (List.nodup_cons.mp a.held.nodup).1
  exact this (by rw [← h]; exact List.mem_map.mpr ⟨k, List.mem_range.mpr hk, rfl⟩)

theorem WS.inj (a : WS t h0 s w n p G b) {k l : ℕ} (hk : k < 8) (hl : l < 8) (h : p k = p l) :
    k = l := by
  have := (List.nodup_cons.mp a.held.nodup).2
  exact (List.nodup_map_iff_inj_on List.nodup_range).mp this k (List.mem_range.mpr hk) l
    (List.mem_range.mpr hl) h

/-- Writing one coefficient. -/
theorem WS.put (a : WS t h0 s w n p G b) {k i : ℕ} (hk : k < 8) (hi : i < (G k).length) (v : R) :
    ∃ s', run t orc (put ⟨some (p k), 0⟩ i (.coef v)) s = .ok ((), s') ∧ s'.next = s.next ∧
      WS t h0 s' w n p (Function.update G k ((G k).set i v)) b := by
  have hr := run_putCell (t := t) (orc := orc) (s := s) (p := p k) (a.blocks k hk) (o := 0) (i := i)
    (by simp) (by simpa using hi) (.coef v)
  rw [show ((0 : ℤ) + (i : ℤ)).toNat = i by simp] at hr
  refine ⟨_, hr, rfl, ?_, ?_, ?_⟩
  · exact a.held.setCells (by simp; exact Or.inr ⟨k, hk, rfl⟩) _
  · rw [setCells_ne (a.ne hk).symm, a.struct]
  · intro l hl
    by_cases e : l = k
    · subst e
      rw [setCells_self, Function.update_self, List.map_set]
    · rw [setCells_ne (fun h => e (a.inj hl hk h)), Function.update_of_ne e, a.blocks l hl]

theorem WS.setFilter (a : WS t h0 s w n p G b) {rec hi : Bool} {q : Prec} {i : ℕ}
    (h : i < (G (slot rec hi q)).length) (v : R) :
    ∃ s', run t orc (setFilter (some w) rec hi q i v) s = .ok ((), s') ∧ s'.next = s.next ∧
      WS t h0 s' w n p
        (Function.update G (slot rec hi q) ((G (slot rec hi q)).set i v)) b := by
  unfold Heap.setFilter
  rw [run_bind_ok (a.field rec hi q)]
  exact a.put (slot_lt _ _ _) h v

theorem WS.setBase (a : WS t h0 s w n p G b) (b' : Val R M) :
    ∃ s', run t orc (setField (some w) fBase b') s = .ok ((), s') ∧ s'.next = s.next ∧
      WS t h0 s' w n p G b' := by
  have hr := run_putCell (t := t) (orc := orc) (s := s) (p := w) a.struct (o := 0) (i := (fBase : ℕ))
    (by simp) (by simp [fBase]) b'
  refine ⟨_, hr, rfl, ?_, ?_, ?_⟩
  · exact a.held.setCells (by simp) _
  · rw [setCells_self]
    rfl
  · intro l hl
    rw [setCells_ne (a.ne hl), a.blocks l hl]

/-- `copy_object_to_float64_array`, as in the functional model. -/
theorem WS.copyObj {k : ℕ} (hk : k < 8) (l : List R) : ∀ (i : ℕ) (s : St (Val R M)) (G : ℕ → List R)
    (l' : List R), WS t h0 s w n p G b → copyObject l i (G k) = .ok l' →
    ∃ s', run t orc (copyObj (some (p k)) i l) s = .ok ((), s') ∧ s'.next = s.next ∧
      WS t h0 s' w n p (Function.update G k l') b := by
  induction l with
  | nil =>
    intro i s G l' a h
    cases h
    exact ⟨s, rfl, rfl, by rwa [Function.update_eq_self]⟩
  | cons x l ih =>
    intro i s G l' a h
    unfold copyObject wr at h
    by_cases hi : i < (G k).length
    · rw [if_pos hi] at h
      obtain ⟨s1, e1, n1, a1⟩ := a.put (orc := orc) hk hi x
      have h' : copyObject l (i + 1) ((G k).set i x) = .ok l' := h
      obtain ⟨s2, e2, n2, a2⟩ := ih (i + 1) s1 _ l' a1 (by rw [Function.update_self]; exact h')
      refine ⟨s2, ?_, by omega, ?_⟩
      · show run t orc (Heap.put _ _ _ >>= fun _ => Heap.copyObj _ _ _) s = _
        rw [run_bind_ok e1, e2]
      · rw [Function.update_idem] at a2; exact a2
    · rw [if_neg hi] at h; cases h

theorem WS.copyField (a : WS t h0 s w n p G b) (rec hi : Bool) (q : Prec) {l l' : List R}
    (h : copyObject l 0 (G (slot rec hi q)) = .ok l') :
    ∃ s', run t orc (copyField (some w) rec hi q l) s = .ok ((), s') ∧ s'.next = s.next ∧
      WS t h0 s' w n p (Function.update G (slot rec hi q) l') b := by
  unfold Heap.copyField
  rw [run_bind_ok (a.field rec hi q)]
  exact WS.copyObj (slot_lt _ _ _) l 0 s G l' a h

/-- A wavelet structure that holds a wavelet. -/
theorem WS.wavelet (a : WS t h0 s w n p G b) {q : Prec} {wl : Wavelet R}
    (h1 : wl.dec_len = n) (h2 : wl.rec_len = n)
    (e1 : G (slot false false q) = wl.dec_lo) (e2 : G (slot false true q) = wl.dec_hi)
    (e3 : G (slot true false q) = wl.rec_lo) (e4 : G (slot true true q) = wl.rec_hi) :
    WaveletAt s.heap q w wl := by
  refine ⟨_, _, a.struct, by rw [h1]; rfl, by rw [h2]; rfl, ⟨p (slot false false q), ?_, false, ?_⟩,
    ⟨p (slot false true q), ?_, false, ?_⟩, ⟨p (slot true false q), ?_, false, ?_⟩,
    ⟨p (slot true true q), ?_, false, ?_⟩⟩
  · cases q <;> rfl
  · rw [a.blocks _ (slot_lt _ _ _), e1]
  · cases q <;> rfl
  · rw [a.blocks _ (slot_lt _ _ _), e2]
  · cases q <;> rfl
  · rw [a.blocks _ (slot_lt _ _ _), e3]
  · cases q <;> rfl
  · rw [a.blocks _ (slot_lt _ _ _), e4]

theorem WS.free (a : WS t h0 s w n p G b) (hn : 0 < n) :
    run t orc (freeWavelet (some w)) s = .ok ((), ⟨h0, s.next⟩) := by
  refine run_freeWavelet (a := some (p 4)) (b' := some (p 5)) (d := some (p 0)) (e := some (p 1))
    (f := some (p 6)) (g := some (p 7)) (h := some (p 2)) (i := some (p 3)) (n := n) (m := n)
    (a.held.perm (List.Perm.cons w ?_)) a.struct rfl hn rfl hn rfl rfl rfl rfl rfl rfl rfl rfl
  show List.Perm [p 0, p 1, p 2, p 3, p 4, p 5, p 6, p 7] [p 4, p 5, p 0, p 1, p 6, p 7, p 2, p 3]
  rw [List.perm_iff_count]
  intro x
  simp only [List.count_cons, List.count_nil]
  omega

end

/-- The outcome of making a wavelet that should be `wl q` in the precision `q`: an exception, all memory
being freed and some allocation having failed, or a wavelet that can be freed again. -/
def Made (t : ℕ) (orc : ℕ → Bool) (h0 : Ptr → Option (Blk (Val R M))) (n0 : ℕ) (e : PyErr)
    (wl : Prec → Wavelet R) (r : Except PyErr Ptr) (s' : St (Val R M)) : Prop :=
  (r = .error e ∧ s'.heap = h0 ∧ ∃ k, n0 ≤ k ∧ k < s'.next ∧ orc k = false) ∨
  (∃ w, r = .ok w ∧ AllOk orc n0 s'.next ∧ (∀ q, WaveletAt s'.heap q w (wl q)) ∧ h0 w = none ∧
    Ext h0 s'.heap ∧ run t orc (freeWavelet (some w)) s' = .ok ((), ⟨h0, s'.next⟩))

theorem WS.made {h0 : Ptr → Option (Blk (Val R M))} {s : St (Val R M)} {w : Ptr} {n : ℕ}
    {p : ℕ → Ptr} {G : ℕ → List R} {b : Val R M} (a : WS t h0 s w n p G b) (hn : 0 < n) {n0 : ℕ}
    (ha : AllOk orc n0 s.next) {wl : Prec → Wavelet R}
    (h1 : ∀ q, (wl q).dec_len = n) (h2 : ∀ q, (wl q).rec_len = n)
    (e1 : ∀ q, G (slot false false q) = (wl q).dec_lo) (e2 : ∀ q, G (slot false true q) = (wl q).dec_hi)
    (e3 : ∀ q, G (slot true false q) = (wl q).rec_lo) (e4 : ∀ q, G (slot true true q) = (wl q).rec_hi)
    (e : PyErr) : Made t orc h0 n0 e wl (.ok w) s := by
  refine Or.inr ⟨w, rfl, ha, fun q => a.wavelet (h1 q) (h2 q) (e1 q) (e2 q) (e3 q) (e4 q),
    a.held.fresh w (by simp), ?_, a.free hn⟩
  intro q b hb
  rw [a.held.rest q (fun hq => by rw [a.held.fresh q hq] at hb; cases hb), hb]

/-- `Wavelet(name, filter_bank)`. -/
theorem run_waveletOfBank (s : St (Val R M)) (hu : Unused t s.heap s.next) {bk : Wavelet R}
    (hn : 0 < bk.dec_lo.length) (l2 : bk.dec_hi.length = bk.dec_lo.length)
    (l3 : bk.rec_lo.length = bk.dec_lo.length) (l4 : bk.rec_hi.length = bk.dec_lo.length) :
    ∃ r s', run t orc (waveletOfBank bk) s = .ok (r, s') ∧ s.next ≤ s'.next ∧
      Made t orc s.heap s.next .alloc (fun _ => ⟨padEven bk.dec_lo, padEven bk.dec_hi,
        padEven bk.rec_lo, padEven bk.rec_hi⟩) r s' := by
  have c1 := copyObject_blank bk.dec_lo
  have c2 := copyObject_blank bk.dec_hi
  have c3 := copyObject_blank bk.rec_lo
  have c4 := copyObject_blank bk.rec_hi
  rw [l2] at c2
  rw [l3] at c3
  rw [l4] at c4
  obtain ⟨r, s1, e0, n0, ⟨rfl, h1, h2⟩ | ⟨w, p, rfl, h1, a⟩⟩ := run_blankWavelet (orc := orc) s hu hn
  · refine ⟨.error .alloc, s1, ?_, n0, Or.inl ⟨rfl, h1, h2⟩⟩
    unfold waveletOfBank
    rw [run_bind_ok e0]
    rfl
  · obtain ⟨s2, r2, n2, a2⟩ := a.copyField (orc := orc) false false .float c1
    obtain ⟨s3, r3, n3, a3⟩ := a2.copyField (orc := orc) false true .float (l := bk.dec_hi) c2
    obtain ⟨s4, r4, n4, a4⟩ := a3.copyField (orc := orc) true false .float (l := bk.rec_lo) c3
    obtain ⟨s5, r5, n5, a5⟩ := a4.copyField (orc := orc) true true .float (l := bk.rec_hi) c4
    obtain ⟨s6, r6, n6, a6⟩ := a5.copyField (orc := orc) false false .double (l := bk.dec_lo) c1
    obtain ⟨s7, r7, n7, a7⟩ := a6.copyField (orc := orc) false true .double (l := bk.dec_hi) c2
    obtain ⟨s8, r8, n8, a8⟩ := a7.copyField (orc := orc) true false .double (l := bk.rec_lo) c3
    obtain ⟨s9, r9, n9, a9⟩ := a8.copyField (orc := orc) true true .double (l := bk.rec_hi) c4
    have hlen : ∀ f : List R, 0 < f.length → (padEven f).length = blankLength f.length := by
      intro f hf
      unfold padEven blankLength
      by_cases h : f.length % 2 = 1
      · rw [if_pos h, if_pos ⟨hf, h⟩]; simp
      · rw [if_neg h, if_neg (by omega)]
    refine ⟨.ok w, s9, ?_, by omega, a9.made ?_ ?_ ?_ ?_ ?_ ?_ ?_ ?_ _⟩
    · unfold waveletOfBank
      rw [run_bind_ok e0]
      simp only
      rw [run_bind_ok r2, run_bind_ok r3, run_bind_ok r4, run_bind_ok r5, run_bind_ok r6,
        run_bind_ok r7, run_bind_ok r8, run_bind_ok r9]
      rfl
    · unfold blankLength; split_ifs <;> omega
    · rw [show s9.next = s1.next by omega]; exact h1
    · intro q; exact hlen _ hn
    · intro q; exact (hlen _ (by omega)).trans (by rw [l3])
    all_goals intro q; cases q <;> rfl

/-! ### Built-in wavelets -/

section
variable {h0 : Ptr → Option (Blk (Val ℤ M))} {w : Ptr} {n : ℕ} {p : ℕ → Ptr} {b : Val ℤ M}

/-- The filters with those of precision `q` replaced. -/
def withFilters (G : ℕ → List ℤ) (q : Prec) (wl : Wavelet ℤ) : ℕ → List ℤ :=
  Function.update (Function.update (Function.update (Function.update G (slot true false q) wl.rec_lo)
    (slot false false q) wl.dec_lo) (slot true true q) wl.rec_hi) (slot false true q) wl.dec_hi

theorem withFilters_set (G : ℕ → List ℤ) (q : Prec) (wl : Wavelet ℤ) (a b c d : List ℤ) :
    Function.update (Function.update (Function.update (Function.update (withFilters G q wl)
      (slot true false q) a) (slot false false q) b) (slot true true q) c) (slot false true q) d =
    withFilters G q ⟨b, d, a, c⟩ := by
  funext k
  unfold withFilters
  cases q <;>
  · simp only [Function.update_apply, slot, fFilter]
    split_ifs <;> rfl

theorem withFilters_self (G : ℕ → List ℤ) (q : Prec) :
    withFilters G q ⟨G (slot false false q), G (slot false true q), G (slot true false q),
      G (slot true true q)⟩ = G := by
  unfold withFilters
  simp only [Function.update_eq_self]

theorem withFilters_1 (G : ℕ → List ℤ) (q : Prec) (wl : Wavelet ℤ) :
    withFilters G q wl (slot true false q) = wl.rec_lo := by cases q <;> rfl
theorem withFilters_2 (G : ℕ → List ℤ) (q : Prec) (wl : Wavelet ℤ) :
    withFilters G q wl (slot false false q) = wl.dec_lo := by cases q <;> rfl
theorem withFilters_3 (G : ℕ → List ℤ) (q : Prec) (wl : Wavelet ℤ) :
    withFilters G q wl (slot true true q) = wl.rec_hi := by cases q <;> rfl
theorem withFilters_4 (G : ℕ → List ℤ) (q : Prec) (wl : Wavelet ℤ) :
    withFilters G q wl (slot false true q) = wl.dec_hi := by cases q <;> rfl

/-- The loop that fills the filters of one precision does what the functional model does. -/
theorem WS.fillRows {s : St (Val ℤ M)} {G : ℕ → List ℤ} {q : Prec} {f : FillFrom} {z wl : Wavelet ℤ}
    (a : WS t h0 s w n p (withFilters G q z) b) (h : fillLoop f.b f.c f.n n 0 n z = .ok wl) :
    ∃ s', run t orc (forN (fillRow (some w) q f) n) s = .ok ((), s') ∧ s'.next = s.next ∧
      WS t h0 s' w n p (withFilters G q wl) b := by
  have key : ∀ i < n, ∀ s1 : St (Val ℤ M), (s1.next = s.next ∧ ∃ v,
      WS t h0 s1 w n p (withFilters G q v) b ∧ fillLoop f.b f.c f.n n i (n - i) v = .ok wl) →
      ∃ s2, run t orc (fillRow (some w) q f i) s1 = .ok ((), s2) ∧ s2.next = s.next ∧ ∃ v,
        WS t h0 s2 w n p (withFilters G q v) b ∧
          fillLoop f.b f.c f.n n (i + 1) (n - (i + 1)) v = .ok wl := by
    rintro i hi s1 ⟨n1, v, a1, e1⟩
    obtain ⟨k, hk⟩ : ∃ k, n - i = k + 1 := ⟨n - i - 1, by omega⟩
    rw [hk] at e1
    unfold fillLoop at e1
    have hsub : Pywt.sub (n - 1) i = .ok (n - 1 - i) := by
      unfold Pywt.sub; rw [if_pos (by omega)]
    rw [show n - (i + 1) = k by omega]
    -- the reads and writes succeed
    cases r1 : rd f.b (i + f.n) with
    | error e => rw [r1] at e1; cases e1
    | ok bi =>
    cases r2 : rd f.c (n - 1 - i) with
    | error e => rw [r1] at e1; simp only [C_bind_ok, hsub] at e1; rw [r2] at e1; cases e1
    | ok cj =>
    rw [r1] at e1
    simp only [C_bind_ok, hsub] at e1
    rw [r2] at e1
    simp only [C_bind_ok] at e1
    unfold wr at e1
    by_cases g1 : i < v.rec_lo.length
    swap
    · rw [if_neg g1] at e1; cases e1
    by_cases g2 : i < v.dec_lo.length
    swap
    · rw [if_pos g1, if_neg g2] at e1; cases e1
    by_cases g3 : i < v.rec_hi.length
    swap
    · rw [if_pos g1, if_pos g2, if_neg g3] at e1; cases e1
    by_cases g4 : i < v.dec_hi.length
    swap
    · rw [if_pos g1, if_pos g2, if_pos g3, if_neg g4] at e1; cases e1
    rw [if_pos g1, if_pos g2, if_pos g3, if_pos g4] at e1
    simp only [C_bind_ok] at e1
    have q1 : f.b.getD (i + f.n) 0 = bi := by
      unfold rd at r1
      rw [List.getD_eq_getElem?_getD]
      split at r1
      · next h => cases r1; rw [h]; rfl
      · cases r1
    have q2 : f.c.getD (n - 1 - i) 0 = cj := by
      unfold rd at r2
      rw [List.getD_eq_getElem?_getD]
      split at r2
      · next h => cases r2; rw [h]; rfl
      · cases r2
    obtain ⟨s2, t2, m2, a2⟩ := a1.setFilter (orc := orc) (rec := true) (hi := false) (q := q) (i := i)
      (by rw [withFilters_1]; exact g1) bi
    obtain ⟨s3, t3, m3, a3⟩ := a2.setFilter (orc := orc) (rec := false) (hi := false) (q := q) (i := i)
      (by cases q <;> exact g2) cj
    obtain ⟨s4, t4, m4, a4⟩ := a3.setFilter (orc := orc) (rec := true) (hi := true) (q := q) (i := i)
      (by cases q <;> exact g3) (sgn i * cj)
    obtain ⟨s5, t5, m5, a5⟩ := a4.setFilter (orc := orc) (rec := false) (hi := true) (q := q) (i := i)
      (by cases q <;> exact g4) (sgn (n - 1 - i) * bi)
    refine ⟨s5, ?_, by omega, ⟨v.dec_lo.set i cj, v.dec_hi.set i (sgn (n - 1 - i) * bi),
      v.rec_lo.set i bi, v.rec_hi.set i (sgn i * cj)⟩, ?_, e1⟩
    · unfold fillRow
      rw [q1, run_bind_ok t2, run_bind_ok a2.decLen, q2, run_bind_ok t3, run_bind_ok a3.decLen, q2,
        run_bind_ok t4, run_bind_ok a4.decLen]
      exact t5
    · rw [← withFilters_set G q v]
      convert a5 using 1
      rw [withFilters_1]
      cases q <;> rfl
  obtain ⟨s', h1, h2, v, h3, h4⟩ := forN_spec (t := t) (orc := orc) (n := n)
    (I := fun i s' => s'.next = s.next ∧ ∃ v, WS t h0 s' w n p (withFilters G q v) b ∧
      fillLoop f.b f.c f.n n i (n - i) v = .ok wl) (s := s) (body := fillRow (some w) q f)
    ⟨rfl, z, a, by rw [Nat.sub_zero]; exact h⟩ key
  refine ⟨s', h1, h2, ?_⟩
  rw [Nat.sub_self] at h4
  cases h4
  exact h3

/-- `discrete_wavelet` up to its result: nothing is made and nothing has changed, or the structure. -/
def MadeWS (t : ℕ) (orc : ℕ → Bool) (h0 : Ptr → Option (Blk (Val ℤ M))) (n0 n : ℕ)
    (wl : Prec → Wavelet ℤ) (r : Option Ptr) (s' : St (Val ℤ M)) : Prop :=
  (r = none ∧ s'.heap = h0 ∧ ∃ k, n0 ≤ k ∧ k < s'.next ∧ orc k = false) ∨
  (∃ w p G b, r = some w ∧ AllOk orc n0 s'.next ∧ WS t h0 s' w n p G b ∧
    (∀ q, G (slot false false q) = (wl q).dec_lo) ∧ (∀ q, G (slot false true q) = (wl q).dec_hi) ∧
    (∀ q, G (slot true false q) = (wl q).rec_lo) ∧ (∀ q, G (slot true true q) = (wl q).rec_hi))

theorem run_fillWavelet (s : St (Val ℤ M)) (hu : Unused t s.heap s.next) {f1 f2 : FillFrom}
    {w1 w2 : Wavelet ℤ} (hF : f1.F = f2.F) (hF0 : 0 < f2.F) (hF2 : f2.F % 2 = 0)
    (h1 : fillBank f1.b f1.c f1.n f1.F = .ok w1) (h2 : fillBank f2.b f2.c f2.n f2.F = .ok w2) :
    ∃ r s', run t orc (fillWavelet f1 f2) s = .ok (r, s') ∧ s.next ≤ s'.next ∧
      MadeWS t orc s.heap s.next f2.F (fun q => match q with | .float => w1 | .double => w2) r s' := by
  have hbl : blankLength f2.F = f2.F := by unfold blankLength; rw [if_neg (by omega)]
  obtain ⟨r, s1, e0, n0, ⟨rfl, z1, z2⟩ | ⟨w, p, rfl, z1, a⟩⟩ := run_blankWavelet (orc := orc) s hu hF0
  · refine ⟨none, s1, ?_, n0, Or.inl ⟨rfl, z1, z2⟩⟩
    unfold fillWavelet
    rw [run_bind_ok e0]
    rfl
  · rw [hbl] at a
    obtain ⟨s2, t2, m2, a2⟩ := a.setBase (orc := orc) (.num 1)
    have g1 : (fun _ => List.replicate f2.F 0 : ℕ → List ℤ) =
        withFilters (fun _ => List.replicate f2.F 0) .float
          ⟨List.replicate f2.F 0, List.replicate f2.F 0, List.replicate f2.F 0, List.replicate f2.F 0⟩ := by
      exact (withFilters_self (fun _ => List.replicate f2.F 0) .float).symm
    rw [g1] at a2
    unfold fillBank at h1 h2
    rw [hF] at h1
    obtain ⟨s3, t3, m3, a3⟩ := a2.fillRows (orc := orc) h1
    have g2 : withFilters (fun _ => List.replicate f2.F 0) .float w1 =
        withFilters (withFilters (fun _ => List.replicate f2.F 0) .float w1) .double
          ⟨List.replicate f2.F 0, List.replicate f2.F 0, List.replicate f2.F 0, List.replicate f2.F 0⟩ := by
      exact (withFilters_self (withFilters (fun _ => List.replicate f2.F 0) .float w1) .double).symm
    rw [g2] at a3
    obtain ⟨s4, t4, m4, a4⟩ := a3.fillRows (orc := orc) h2
    refine ⟨some w, s4, ?_, by omega, Or.inr ⟨w, p, _, _, rfl, ?_, a4, ?_, ?_, ?_, ?_⟩⟩
    · unfold fillWavelet
      rw [run_bind_ok e0, if_neg (by simp), run_bind_ok t2, run_bind_ok a2.recLen, run_bind_ok t3,
        run_bind_ok a3.recLen, run_bind_ok t4]
      rfl
    · rw [show s4.next = s1.next by omega]; exact z1
    all_goals intro q; cases q <;> rfl

end

end Pywt.Heap
