import Verif.Proof.HeapAxis2

/-!
# `dwt_axis` on the heap
-/

set_option linter.unusedSectionVars false
set_option linter.unusedVariables false

namespace Pywt.Heap

open Spec

variable {R M : Type} [Ring R] [AddCommGroup M] [Module R M]
variable {t : ℕ} {orc : ℕ → Bool}

theorem run_forCode {body : ℕ → Prog (Val R M) ℤ} {n : ℕ} {s : St (Val R M)}
    (h : ∀ i < n, run t orc (body i) s = .ok (0, s)) : run t orc (forCode body n) s = .ok (0, s) := by
  induction n with
  | zero => rfl
  | succ n ih =>
    unfold forCode
    rw [run_bind_ok (ih fun i hi => h i (by omega)), if_neg (by omega)]
    exact h n (by omega)

/-- `mallocIf` either fails, or makes a block when asked to. -/
theorem run_mallocIf {s : St (Val R M)} (b : Bool) (n : ℕ) (hu : Unused t s.heap s.next) :
    ∃ tmp s1, run t orc (mallocIf b n) s = .ok (tmp, s1) ∧ s.next ≤ s1.next ∧
      Unused t s1.heap s1.next ∧
      ((b = true ∧ tmp = none ∧ s1.heap = s.heap ∧ ∃ k, s.next ≤ k ∧ k < s1.next ∧ orc k = false) ∨
       ((b = true ↔ tmp ≠ none) ∧ AllOk orc s.next s1.next ∧ TmpAt s1.heap tmp n ∧
        (∀ q, tmp ≠ some q → s1.heap q = s.heap q) ∧
        ∀ T, tmp = some T → T = (t, s.next) ∧ T.2 < s1.next)) := by
  cases b
  · exact ⟨none, s, rfl, le_rfl, hu, Or.inr ⟨by simp, AllOk.refl _, by rintro T ⟨⟩,
      fun _ _ => rfl, by rintro T ⟨⟩⟩⟩
  · have h := run_mallocIf_bind (t := t) (orc := orc) (s := s) true n
      (fun p => (Prog.ret p : Prog (Val R M) (Option Ptr)))
    have h' : run t orc (mallocIf true n >>= fun p => Prog.ret p) s =
        run t orc (mallocIf true n) s := by
      rw [show (mallocIf true n >>= fun p => Prog.ret p : Prog (Val R M) (Option Ptr)) =
        mallocIf true n from rfl]
    rw [h'] at h
    rw [if_pos rfl] at h
    by_cases ho : orc s.next = true
    · rw [if_pos ho] at h
      refine ⟨_, _, h, by simp, ?_, Or.inr ⟨by simp, (AllOk.refl _).succ ho, ?_, ?_, ?_⟩⟩
      · intro k hk
        simp only [setCells_next, bump_next] at hk
        rw [setCells_ne (by rintro ⟨⟩; omega)]
        exact hu k (by omega)
      · rintro T ⟨⟩
        exact ⟨_, setCells_self, by simp⟩
      · intro q hq
        rw [setCells_ne (by rintro rfl; exact hq rfl)]
        rfl
      · rintro T ⟨⟩
        simp
    · rw [if_neg ho] at h
      exact ⟨none, _, h, by simp, fun k hk => hu k (by simp only [bump_next] at hk; omega),
        Or.inl ⟨rfl, rfl, rfl, s.next, le_rfl, by simp, by simpa using ho⟩⟩

/-- The memory without a block, if there is one. -/
def St.eraseO {V : Type} (s : St V) : Option Ptr → St V
  | none => s
  | some p => s.erase p

@[simp] theorem eraseO_next {V : Type} (s : St V) (p : Option Ptr) : (s.eraseO p).next = s.next := by
  cases p <;> rfl

theorem eraseO_ne {V : Type} (s : St V) {p : Option Ptr} {q : Ptr} (h : p ≠ some q) :
    (s.eraseO p).heap q = s.heap q := by
  cases p with
  | none => rfl
  | some p => exact erase_ne s (by rintro rfl; exact h rfl)

theorem eraseO_self {V : Type} (s : St V) {p : Option Ptr} {q : Ptr} (h : p = some q) :
    (s.eraseO p).heap q = none := by
  subst h
  exact erase_self s q

/-- `free` of a temporary buffer or of NULL. -/
theorem run_freeTmp {s : St (Val R M)} {tmp : Option Ptr} {n : ℕ} (h : TmpAt s.heap tmp n) :
    run t orc (free tmp) s = .ok ((), s.eraseO tmp) := by
  cases tmp with
  | none => rfl
  | some T =>
    obtain ⟨c, hc, -⟩ := h T rfl
    conv_lhs => rw [← erase_setCells_same hc]
    exact run_free (erase_self s T) c

theorem TmpAt.eraseO {s : St (Val R M)} {tmp tmp' : Option Ptr} {n : ℕ} (h : TmpAt s.heap tmp n)
    (hne : ∀ T, tmp = some T → tmp' ≠ some T) : TmpAt (s.eraseO tmp').heap tmp n := by
  intro T hT
  rw [eraseO_ne _ (hne T hT)]
  exact h T hT

section
variable {s : St (Val R M)} {h0 : Ptr → Option (Blk (Val R M))} {q : Prec} {w p : Ptr}
  {approx : Bool} {tr : Transform} {axis : ℕ} {c : Mem M} {x : Loc} {g : List M → List M} {n : ℕ}
  {c0 : List (Option (Val R M))}

/-- What `downcoef_axis` does when its checks pass. -/
theorem run_downcoefAxis
    (hK : LineOp t orc h0 s.next (c.info.shape.getD axis 0) n g (kernel q tr approx (some w)))
    (hg : ∀ l : List M, l.length = c.info.shape.getD axis 0 → (g l).length = n) (hn : 0 < n)
    (hu : Unused t s.heap s.next) (hpm : p.1 = t → p.2 < s.next)
    (hext : ∀ r b, h0 r = some b → s.heap r = some b ∧ r ≠ p)
    (hx : MemAt s.heap x c) (hxp : x.blk ≠ some p) (hc : c.Ok) (ha : axis < c.info.shape.length)
    (hchk : ∀ i < c.info.shape.length, run t orc (downcoefCheck c.info
      ⟨c.info.shape.set axis n, cstrides (c.info.shape.set axis n)⟩ (some w) axis tr i) s =
        .ok (0, s))
    (hp : s.heap p = some ⟨false, c0⟩) (hcl : c0.length = (c.info.shape.set axis n).prod) :
    ∃ rc s', run t orc (downcoefAxis q x c.info ⟨some p, 0⟩
        ⟨c.info.shape.set axis n, cstrides (c.info.shape.set axis n)⟩ (some w) axis approx tr) s =
          .ok (rc, s') ∧ s.next ≤ s'.next ∧
      ((rc = 0 ∧ s'.heap = (s.setCells p (cellsM (c.along axis n g).data)).heap ∧
          AllOk orc s.next s'.next) ∨
        (rc = 6 ∧ s'.heap = s.heap ∧ ∃ k, s.next ≤ k ∧ k < s'.next ∧ orc k = false)) := by
  set oshape := c.info.shape.set axis n with hosh
  have hlen : oshape.length = c.info.shape.length := by simp [hosh]
  have hoa : axis < oshape.length := by omega
  have hoaxis : oshape.getD axis 0 = n := by rw [hosh, getD_set ha, if_pos rfl]
  have hos : ∀ k < oshape.length, k ≠ axis → c.info.shape.getD k 0 = oshape.getD k 0 := by
    intro k hk hka
    rw [hosh, getD_set ha, if_neg hka]
  unfold downcoefAxis
  simp only [Info.ndim]
  rw [if_neg (by rw [hlen]; exact fun h => h rfl), if_neg (by omega),
    run_bind_ok (run_forCode hchk), if_neg (by omega), hoaxis]
  -- the temporary buffers
  obtain ⟨ti, s1, e1, n1, u1, h1⟩ := run_mallocIf (t := t) (orc := orc)
    (decide (c.info.strides.getD axis 0 ≠ 1)) (c.info.shape.getD axis 0) hu
  rw [run_bind_ok e1]
  rcases h1 with ⟨b1, rfl, k1, f1⟩ | ⟨b1, a1, t1, r1, m1⟩
  · rw [if_pos ⟨b1, rfl⟩]
    exact ⟨6, s1, rfl, n1, Or.inr ⟨rfl, k1, f1⟩⟩
  rw [if_neg (by rintro ⟨h1, h2⟩; exact b1.mp h1 h2)]
  obtain ⟨tout, s2, e2, n2, u2, h2⟩ := run_mallocIf (t := t) (orc := orc)
    (decide ((cstrides oshape).getD axis 0 ≠ 1)) n u1
  rw [run_bind_ok e2]
  rcases h2 with ⟨b2, rfl, k2, kf, f1, f2, f3⟩ | ⟨b2, a2, t2, r2, m2⟩
  · rw [if_pos ⟨b2, rfl⟩, run_bind_ok (run_freeTmp (n := c.info.shape.getD axis 0)
      (by rw [k2]; exact t1))]
    refine ⟨6, s2.eraseO ti, rfl, by simp; omega, Or.inr ⟨rfl, ?_, kf, by omega, by simpa, f3⟩⟩
    funext Q
    by_cases hQ : ti = some Q
    · rw [eraseO_self _ hQ, (m1 Q hQ).1, hu _ le_rfl]
    · rw [eraseO_ne _ hQ, k2, r1 Q hQ]
  rw [if_neg (by rintro ⟨h1, h2⟩; exact b2.mp h1 h2)]
  -- what is known of them
  have hti : ∀ T, ti = some T → T ≠ p ∧ tout ≠ some T ∧ (T.1 = t → T.2 < s2.next) := by
    intro T hT
    obtain ⟨z1, z2⟩ := m1 T hT
    refine ⟨?_, ?_, fun _ => by omega⟩
    · rintro rfl
      have := hpm (by rw [z1])
      rw [z1] at this; simp at this
    · intro h
      have := (m2 T h).1
      rw [this] at z2; simp at z2
  have hto : ∀ T, tout = some T → T ≠ p ∧ (T.1 = t → T.2 < s2.next) := by
    intro T hT
    obtain ⟨z1, z2⟩ := m2 T hT
    refine ⟨?_, fun _ => z2⟩
    rintro rfl
    have := hpm (by rw [z1])
    rw [z1] at this; simp only at this; omega
  have hnone : ∀ T, (ti = some T ∨ tout = some T) → s.heap T = none := by
    rintro T (h | h)
    · rw [(m1 T h).1]; exact hu _ le_rfl
    · rw [(m2 T h).1]; exact hu _ n1
  have hkeep : ∀ Q, ti ≠ some Q → tout ≠ some Q → s2.heap Q = s.heap Q := fun Q h1 h2 => by
    rw [r2 Q h2, r1 Q h1]
  have hkeep' : ∀ Q b, s.heap Q = some b → ti ≠ some Q ∧ tout ≠ some Q := by
    intro Q b hQ
    refine ⟨fun h => ?_, fun h => ?_⟩
    · rw [hnone Q (Or.inl h)] at hQ; cases hQ
    · rw [hnone Q (Or.inr h)] at hQ; cases hQ
  have hx2 : MemAt s2.heap x c ∧ (∀ T, x.blk = some T → ti ≠ some T ∧ tout ≠ some T) ∧
      x.blk ≠ none := by
    obtain ⟨b, rfl, k, hb⟩ := hx
    obtain ⟨z1, z2⟩ := hkeep' b _ hb
    exact ⟨⟨b, rfl, k, by rw [hkeep b z1 z2, hb]⟩, by rintro T ⟨⟩; exact ⟨z1, z2⟩, by simp⟩
  obtain ⟨xb, hxb⟩ := Option.ne_none_iff_exists'.mp hx2.2.2
  obtain ⟨zp1, zp2⟩ := hkeep' p _ hp
  -- the loop
  obtain ⟨s3, e3, P3, h3⟩ := run_lines (t := t) (orc := orc) (axis := axis) (shape := oshape)
    (p := p) hoa (body := downcoefRow q x c.info ⟨some p, 0⟩ ⟨oshape, cstrides oshape⟩ (some w)
      axis approx tr ti tout)
    (rows := fun i => g (c.line axis (digit oshape axis oshape.length i)))
    (During t orc s2 p [(ti, c.info.shape.getD axis 0), (tout, n)]) (by
      intro i hi s' cells hP hp' hcl'
      refine run_downcoefRow (c := c) (h0 := h0) (nin := c.info.shape.getD axis 0) (nout := n) ?_ hg
        u2 ?_ (fun h => by have := hpm h; omega) hti hto hx2.1 hxp
        (Or.inl (by rw [hxb]; exact fun h => (hx2.2.1 _ hxb).1 h.symm))
        (Or.inl (by rw [hxb]; exact fun h => (hx2.2.1 _ hxb).2 h.symm)) hc hoa hlen.symm hos rfl
        hoaxis hn (fun h => b1.mp (by simpa using h)) ⟨fun h => b2.mp (by simpa using h),
          fun h => by simpa using b2.mpr h⟩ hi hP hp' hcl'
      · intro s0 Q cQ o x' xl hN
        exact hK s0 Q cQ o x' xl (by omega)
      · intro r b hr
        obtain ⟨z1, z2⟩ := hext r b hr
        obtain ⟨z3, z4⟩ := hkeep' r b z1
        exact ⟨by rw [hkeep r z3 z4, z1], z2, z3, z4⟩)
    (s := s2) (c := c0) ⟨le_rfl, AllOk.refl _, fun _ _ _ => rfl, by
      simp only [List.mem_cons, List.not_mem_nil, or_false, forall_eq_or_imp, forall_eq]
      refine ⟨?_, t2⟩
      intro T hT
      rw [r2 T (hti T hT).2.1]
      exact t1 T hT⟩ (by rw [hkeep p zp1 zp2, hp]) hcl
    (f := fun idx => (g (c.line axis idx)).getD (idx axis) 0)
    (Local_memline c axis g hlen hoa) (by
      intro idx hidx
      rw [c.line_congr (g := idx)]
      intro k hk hka
      exact digit_rank (fun k hk _ => hidx k hk) k (by rw [hlen]; exact hk) hka)
  obtain ⟨P3n, P3a, P3r, P3t⟩ := P3
  rw [run_bind_ok e3, run_bind_ok (run_freeTmp (P3t (ti, c.info.shape.getD axis 0) (by simp))),
    run_bind_ok (run_freeTmp (n := n) (TmpAt.eraseO (P3t (tout, n) (by simp)) (by
      intro T hT h
      exact (hti T h).2.1 hT)))]
  refine ⟨0, (s3.eraseO ti).eraseO tout, rfl, by simp; omega, Or.inl ⟨rfl, ?_, ?_⟩⟩
  · funext Q
    by_cases hQp : Q = p
    · subst hQp
      rw [eraseO_ne _ zp2, eraseO_ne _ zp1, h3, setCells_self]
      rfl
    · rw [setCells_ne hQp]
      by_cases hQo : tout = some Q
      · rw [eraseO_self _ hQo, hnone Q (Or.inr hQo)]
      · rw [eraseO_ne _ hQo]
        by_cases hQi : ti = some Q
        · rw [eraseO_self _ hQi, hnone Q (Or.inl hQi)]
        · rw [eraseO_ne _ hQi, P3r Q hQp (by simp [hQi, hQo]), hkeep Q hQi hQo]
  · simp only [eraseO_next]
    exact a1.trans (a2.trans P3a)

end

theorem Held.of_heap {V : Type} {h0 : Ptr → Option (Blk V)} {s s' : St V} {ps : List Ptr}
    (h : Held t h0 s ps) (e : s'.heap = s.heap) (hn : s.next ≤ s'.next) : Held t h0 s' ps := by
  have := h.next hn
  rw [← e] at this
  exact this

theorem Held.keeps {V : Type} {h0 : Ptr → Option (Blk V)} {s : St V} {ps : List Ptr}
    (h : Held t h0 s ps) {p : Ptr} (hp : p ∈ ps) :
    ∀ r b, h0 r = some b → s.heap r = some b ∧ r ≠ p := by
  intro r b hr
  have hq : r ∉ ps := fun hq => by rw [h.fresh r hq] at hr; cases hr
  exact ⟨by rw [h.rest r hq, hr], by rintro rfl; exact hq hp⟩

theorem MemAt.held {h0 : Ptr → Option (Blk (Val R M))} {s : St (Val R M)} {ps : List Ptr} {x : Loc}
    {c : Mem M} (h : Held t h0 s ps) (hx : MemAt h0 x c) :
    MemAt s.heap x c ∧ ∀ p ∈ ps, x.blk ≠ some p := by
  obtain ⟨b, rfl, k, hb⟩ := hx
  have hq : b ∉ ps := fun hq => by rw [h.fresh b hq] at hb; cases hb
  refine ⟨⟨b, rfl, k, by rw [h.rest b hq, hb]⟩, ?_⟩
  rintro p hp ⟨⟩
  exact hq hp

section Dwt
variable [Nontrivial M] {s : St (Val R M)} {h0 : Ptr → Option (Blk (Val R M))} {q : Prec}
  {w : Ptr} {wl : Wavelet R} {axis : ℕ} {c : Mem M} {x : Loc}

theorem lineOp_dwt (hw : WaveletAt h0 q w wl) (ok : wl.Ok) {mode : Mode} {N m : ℕ}
    (hx1 : 1 ≤ m) (hx2 : tooShort m mode = false) (approx : Bool) :
    LineOp t orc h0 N m (coeffLen mode m wl.dec_len) (analysis mode (filt wl false (!approx)))
      (kernel q (.dwt mode) approx (some w)) := by
  intro s0 p c0 o x xl hN he hp hfr hpe hx hxl hl
  subst hxl
  have hs : SignalOk mode xl := by
    rw [signalOk_iff]
    refine ⟨?_, hx2⟩
    rintro rfl; simp at hx1
  exact ⟨0, s0.next, le_rfl, AllOk.refl _,
    run_dec (t := t) (orc := orc) (c0 := c0) hp (hw.ext he) ok (!approx) hx hs rfl hl⟩

/-- The checks of `downcoef_axis` pass. -/
theorem run_downcoefCheck {tr : Transform} {n : ℕ} (hw : WaveletAt s.heap q w wl)
    (hn : tr.outLen wl.dec_len (c.info.shape.getD axis 0) = n) (ha : axis < c.info.shape.length)
    (ostr : List ℤ) (i : ℕ) :
    run t orc (downcoefCheck c.info ⟨c.info.shape.set axis n, ostr⟩ (some w) axis tr i) s =
      .ok (0, s) := by
  unfold downcoefCheck
  simp only [getD_set ha]
  by_cases hi : i = axis
  · subst hi
    simp only [if_true]
    cases tr with
    | dwt mode =>
      simp only
      rw [run_bind_ok (run_decLen hw), if_neg (by rw [← hn]; exact fun h => h rfl)]
      rfl
    | swt l =>
      simp only
      rw [if_neg (by rw [← hn]; exact fun h => h rfl)]
      rfl
  · simp only [if_neg hi]
    rw [if_neg (fun h => h rfl)]
    rfl

/-- `dwt_axis`. -/
theorem runs_dwtAxis (hu : Unused t s.heap s.next) (hw : WaveletAt s.heap q w wl) (ok : wl.Ok)
    (hx : MemAt s.heap x c) (hc : c.Ok) (ha : axis < c.info.ndim) (mode : Mode) :
    Runs t orc s.heap s.next ((dwtAxisMem wl mode axis c).map fun r => [r.1.data, r.2.data])
      (dwtAxisPy q (some w) mode axis x c.info) s := by
  have hF : 2 ≤ wl.dec_len := ok.1
  have hh := Held.nil (t := t) s
  unfold dwtAxisPy
  rw [if_neg (by omega)]
  by_cases h1 : tooShort (c.info.shape.getD axis 0) mode = true
  · rw [if_pos h1, dwtAxisMem_err ha (Or.inr h1)]
    exact Runs.raise hh le_rfl (AllOk.refl _)
  rw [if_neg h1]
  refine Runs.step (run_decLen hw) ?_
  by_cases h2 : c.info.shape.getD axis 0 = 0
  · rw [dwtAxisMem_err ha (Or.inl h2)]
    unfold dwtCoeffLen
    rw [if_pos (by omega)]
    exact Runs.raise hh le_rfl (AllOk.refl _)
  have hx1 : 1 ≤ c.info.shape.getD axis 0 := by omega
  have hx2 : tooShort (c.info.shape.getD axis 0) mode = false := by simpa using h1
  have e : dwtCoeffLen (c.info.shape.getD axis 0) wl.dec_len mode =
      .ok (coeffLen mode (c.info.shape.getD axis 0) wl.dec_len) := by
    unfold dwtCoeffLen
    rw [if_neg (by omega), if_neg (by omega), dwtBufferLength_eq hx1 (by omega)]
  rw [dwtAxisMem_ok ok hc ha hx1 hx2, e]
  have hpos := coeffLen_pos hx1 hF mode
  set n := coeffLen mode (c.info.shape.getD axis 0) wl.dec_len with hn
  simp only
  refine Runs.npEmpty hh le_rfl (AllOk.refl _) fun ho => ?_
  have h1 := hh.alloc (hu _ le_rfl) (List.replicate (c.info.shape.set axis n).prod none)
  refine Runs.npEmpty h1 (by simp) (by simpa using (AllOk.refl _).succ ho) fun ho2 => ?_
  have h2 := h1.alloc (hu _ (by simp)) (List.replicate (c.info.shape.set axis n).prod none)
  simp only [setCells_next, bump_next] at ho2 h2 ⊢
  set cA : Ptr := (t, s.next) with hcA
  set cD : Ptr := (t, s.next + 1) with hcD
  have hne : cA ≠ cD := by simp [hcA, hcD]
  set s2 := ((s.bump.setCells cA (List.replicate (c.info.shape.set axis n).prod none)).bump.setCells
      cD (List.replicate (c.info.shape.set axis n).prod none)) with hs2
  have hn2 : s2.next = s.next + 2 := rfl
  have a2 : AllOk orc s.next s2.next := by
    rw [hn2]; exact ((AllOk.refl _).succ ho).succ ho2
  have hout : ∀ mode, (Transform.dwt mode).outLen wl.dec_len (c.info.shape.getD axis 0) =
      coeffLen mode (c.info.shape.getD axis 0) wl.dec_len := by
    intro mode
    simp only [Transform.outLen]; rw [dwtBufferLength_eq hx1 (by omega)]
  have hglen : ∀ hi (l : List M), l.length = c.info.shape.getD axis 0 →
      (analysis mode (filt wl false hi) l).length = n := by
    intro hi l hl
    rw [analysis_length, filt_length ok, hl, hn]
  -- the first call
  obtain ⟨rc, s3, e3, n3, h3⟩ := run_downcoefAxis (t := t) (orc := orc) (s := s2) (p := cA)
    (approx := true) (tr := .dwt mode) (n := n) (lineOp_dwt hw ok hx1 hx2 true) (hglen _) hpos
    (h2.unused (by omega) hu) (fun _ => (h2.mine cA (by simp)).2) (h2.keeps (by simp))
    (hx.held h2).1 ((hx.held h2).2 cA (by simp)) hc ha
    (fun i _ => run_downcoefCheck (hw.ext fun r b hr => (h2.keeps (p := cA) (by simp) r b hr).1)
      (hout mode) ha _ i) (c0 := List.replicate (c.info.shape.set axis n).prod none)
    (by rw [hs2, setCells_ne hne]; exact setCells_self) (by simp)
  refine Runs.step e3 ?_
  rcases h3 with ⟨rfl, k3, a3⟩ | ⟨rfl, k3, kf, f1, f2, f3⟩
  swap
  · rw [if_pos (by decide)]
    exact Runs.failed (ps := [cA, cD]) ((h2.perm (List.Perm.swap _ _ _)).of_heap k3 n3)
      (by omega) (Or.inr rfl) ⟨kf, by omega, f2, f3⟩
  rw [if_neg (by omega)]
  have h3 := (h2.setCells (p := cA) (by simp) (cellsM (c.along axis n
    (analysis mode (filt wl false (!true)))).data)).of_heap k3 n3
  -- the second call
  obtain ⟨rc, s4, e4, n4, h4⟩ := run_downcoefAxis (t := t) (orc := orc) (s := s3) (p := cD)
    (approx := false) (tr := .dwt mode) (n := n) (lineOp_dwt hw ok hx1 hx2 false) (hglen _) hpos
    (h3.unused (by omega) hu) (fun _ => (h3.mine cD (by simp)).2) (h3.keeps (by simp))
    (hx.held h3).1 ((hx.held h3).2 cD (by simp)) hc ha
    (fun i _ => run_downcoefCheck (hw.ext fun r b hr => (h3.keeps (p := cD) (by simp) r b hr).1)
      (hout mode) ha _ i) (c0 := List.replicate (c.info.shape.set axis n).prod none)
    (by rw [k3, setCells_ne hne.symm, hs2]; exact setCells_self) (by simp)
  refine Runs.step e4 ?_
  rcases h4 with ⟨rfl, k4, a4⟩ | ⟨rfl, k4, kf, f1, f2, f3⟩
  swap
  · rw [if_pos (by decide)]
    exact Runs.failed (ps := [cA, cD]) ((h3.perm (List.Perm.swap _ _ _)).of_heap k4 n4)
      (by omega) (Or.inr rfl) ⟨kf, by omega, f2, f3⟩
  rw [if_neg (by omega)]
  have h4 := (h3.setCells (p := cD) (by simp) (cellsM (c.along axis n
    (analysis mode (filt wl false (!false)))).data)).of_heap k4 n4
  refine Runs.ret (h4.perm (List.Perm.swap _ _ _)) (by omega) (a2.trans (a3.trans a4)) ?_
  refine List.Forall₂.cons ?_ (List.Forall₂.cons ?_ List.Forall₂.nil)
  · rw [k4, setCells_ne hne, k3, setCells_self]
    rfl
  · rw [k4, setCells_self]
    rfl

end Dwt

end Pywt.Heap
