import Verif.Proof.HeapAxis3

/-!
# `idwt_axis` on the heap
-/

set_option linter.unusedSectionVars false
set_option linter.unusedVariables false

namespace Pywt.Heap

open Spec

variable {R M : Type} [Ring R] [AddCommGroup M] [Module R M]
variable {t : ℕ} {orc : ℕ → Bool}

theorem run_memset {s : St (Val R M)} {p : Ptr} {c : List (Option (Val R M))} {o n : ℕ}
    (hp : s.heap p = some ⟨false, c⟩) (h : o + n ≤ c.length) :
    run t orc (forN (fun j => put ⟨some p, o⟩ j (.samp 0)) n) s =
      .ok ((), s.setCells p (over c o (cellsM (zeros n)))) := by
  obtain ⟨s', h1, h2⟩ := forN_spec (t := t) (orc := orc)
    (I := fun i s' => s' = s.setCells p (over c o (cellsM (zeros (min i n))))) (s := s)
    (body := fun j => put (⟨some p, o⟩ : Loc) j (.samp (0 : M))) (n := n)
    (by simp [over, cellsM, zeros, setCells_same hp]) (by
      rintro i hi s' rfl
      have hlen : (over c o (cellsM (R := R) (zeros (M := M) (min i n)))).length = c.length :=
        over_length (by simp; omega)
      refine ⟨_, ?_, rfl⟩
      rw [run_putCell setCells_self (by omega) (by rw [hlen]; omega), setCells_setCells]
      congr 4
      rw [show min i n = i by omega, show min (i + 1) n = i + 1 by omega]
      rw [show min i n = i by omega] at hlen
      apply List.ext_getElem?
      intro k
      rw [show ((o : ℤ) + (i : ℤ)).toNat = o + i by omega]
      by_cases hk : k = o + i
      · subst hk
        rw [List.getElem?_set_self (by rw [hlen]; omega), over_getElem? (by simp; omega) (by simp)]
        simp [cellsM, zeros]
      · rw [List.getElem?_set_ne (by omega)]
        by_cases hk2 : o ≤ k ∧ k < o + i
        · obtain ⟨j, rfl⟩ := Nat.exists_eq_add_of_le hk2.1
          rw [over_getElem? (by simp; omega) (by simp; omega),
            over_getElem? (by simp; omega) (by simp; omega)]
          have : j < i := by omega
          simp [cellsM, zeros, List.getElem?_replicate, this, Nat.lt_succ_of_lt this]
        · rw [over_getElem?_out (by simp; omega) (by simp; omega),
            over_getElem?_out (by simp; omega) (by simp; omega)])
  rw [h1, h2, min_self]

section
variable {s : St (Val R M)} {N axis : ℕ} {x : Loc} {mc : Option (Mem M)} {oshape : List ℕ}

/-- What is known of the coefficients. -/
structure CoefOk (h : Ptr → Option (Blk (Val R M))) (x : Loc) (mc : Option (Mem M))
    (oshape : List ℕ) (axis N : ℕ) : Prop where
  at' : ∀ m, mc = some m → MemAt h x m
  ok : ∀ m, mc = some m → m.Ok
  dim : ∀ m, mc = some m → m.info.shape.length = oshape.length
  same : ∀ m, mc = some m → ∀ k < oshape.length, k ≠ axis →
    m.info.shape.getD k 0 = oshape.getD k 0
  len : ∀ m, mc = some m → m.info.shape.getD axis 0 = N

/-- Where a line is read from. -/
def coefRow (x : Loc) (m : Mem M) (oshape : List ℕ) (axis : ℕ) (tmp : Option Ptr) (i : ℕ) : Loc :=
  if m.info.strides.getD axis 0 ≠ 1 then ⟨tmp, 0⟩
  else ⟨x.blk, x.off + rowOffset oshape m.info.strides axis oshape.length i 0⟩

theorem run_coefLoad (hc : CoefOk s.heap x mc oshape axis N) (ha : axis < oshape.length)
    {tmp : Option Ptr} (ht : TmpAt s.heap tmp N)
    (htmp : (coefArg x mc).temp axis = true → tmp ≠ none) (hne : x.blk ≠ tmp ∨ tmp = none) {i : ℕ}
    (hi : i < numTo oshape axis oshape.length) (ostr : List ℤ) :
    ∃ s', run t orc ((coefArg x mc).load ⟨oshape, ostr⟩ axis tmp i) s = .ok ((), s') ∧
      s'.next = s.next ∧ (∀ q, tmp ≠ some q → s'.heap q = s.heap q) ∧ TmpAt s'.heap tmp N ∧
      ∀ m, mc = some m → HoldsM s'.heap (coefRow x m oshape axis tmp i)
        (m.line axis (digit oshape axis oshape.length i)) := by
  cases mc with
  | none => exact ⟨s, rfl, rfl, fun _ _ => rfl, ht, by rintro m ⟨⟩⟩
  | some m =>
    have hl := hc.len m rfl
    obtain ⟨s', h1, h2, h3, h4, h5⟩ := run_copyInIf (t := t) (orc := orc) (n := N)
      (l := m.line axis (digit oshape axis oshape.length i))
      (src := ⟨x.blk, x.off + rowOffset oshape m.info.strides axis oshape.length i 0⟩)
      (stride := m.info.strides.getD axis 0) ht (fun h => htmp (by
        simp only [coefArg, Option.map_some, CoefArg.temp]; exact decide_eq_true h))
      (by rw [Mem.line_length, hl]) hne (by
        intro j hj
        exact (hc.at' m rfl).load (hc.ok m rfl) ha (hc.dim m rfl) (hc.same m rfl) hi j (by omega))
    refine ⟨s', ?_, h2, fun q hq => h3 q (fun e => hq e.symm), h4, ?_⟩
    · simp only [coefArg, Option.map_some, CoefArg.load, hl]
      exact h1
    · rintro m' ⟨⟩
      exact h5

variable [Nontrivial M] {q : Prec} {w p : Ptr} {wl : Wavelet R} {c0 : List (Option (Val R M))}
  {o : ℕ}

theorem run_coefConv (hp : s.heap p = none) (hw : WaveletAt s.heap q w wl) (ok : wl.Ok) (hi : Bool)
    {tmp : Option Ptr} {i : ℕ} {idx : ℕ → ℕ}
    (hx : ∀ m, mc = some m → HoldsM s.heap (coefRow x m oshape axis tmp i) (m.line axis idx))
    (hlen : ∀ m, mc = some m → m.info.shape.getD axis 0 = N) (hN : 1 ≤ N)
    {mode : Mode} {out : List M} (h1 : 1 ≤ synthLen mode N wl.dec_len)
    (hout : out.length = synthLen mode N wl.dec_len) (hl : o + out.length ≤ c0.length)
    (ostr : List ℤ) :
    run t orc ((coefArg x mc).conv q hi (some w) ⟨oshape, ostr⟩ axis tmp ⟨some p, o⟩ mode i)
      (s.setCells p (over c0 o (cellsM out))) =
      .ok ((), s.setCells p (over c0 o (cellsM (List.zipWith (· + ·) out
        (upPart mode (filt wl true hi) (lineOf mc N axis idx) out.length))))) := by
  cases mc with
  | none =>
    rw [lineOf, upPart_zeros, zipWith_zeros_right _ _ rfl]
    rfl
  | some m =>
    have e := Ext.setCells hp (over c0 o (cellsM out))
    have hF := filt_length ok true hi
    have hr : wl.rec_len = wl.dec_len := ok.2.2.2.1
    have hm := hlen m rfl
    have hml : (m.line axis idx).length = N := by rw [Mem.line_length, hm]
    simp only [coefArg, Option.map_some, CoefArg.conv, hm]
    obtain ⟨f, f1, f2⟩ := run_filter (t := t) (orc := orc) hw true hi
    rw [run_bind_ok (f2 _ e), run_bind_ok (run_recLen (hw.ext e)), hr]
    have := run_usConv (t := t) (orc := orc) (c0 := c0) (o := o) (out := out) hp f1.holds
      (hx m rfl) (by rw [hF]; exact ok.1) (by rw [hF]; exact ok.2.1) (by omega) (mode := mode)
      (by rw [hF, hml]; exact h1) (by rw [hF, hml]; exact hout) hl
    rw [hF, hml] at this
    exact run_bind_ok this

end

section Row
variable [Nontrivial M] {s1 s : St (Val R M)} {h0 : Ptr → Option (Blk (Val R M))} {q : Prec}
  {w p : Ptr} {wl : Wavelet R} {axis N : ℕ} {xa xd : Loc} {ca cd : Option (Mem M)}
  {oshape : List ℕ} {ta td tout : Option Ptr} {mode : Mode}

/-- One line of `idwt_axis`. -/
theorem run_idwtRow (hw : WaveletAt h0 q w wl) (ok : wl.Ok)
    (hext : ∀ r b, h0 r = some b → s1.heap r = some b ∧ r ≠ p ∧ ta ≠ some r ∧ td ≠ some r ∧
      tout ≠ some r)
    (hta : ∀ T, ta = some T → T ≠ p ∧ td ≠ some T ∧ tout ≠ some T)
    (htd : ∀ T, td = some T → T ≠ p ∧ tout ≠ some T)
    (hto : ∀ T, tout = some T → T ≠ p)
    (hca : CoefOk s1.heap xa ca oshape axis N) (hcd : CoefOk s1.heap xd cd oshape axis N)
    (hxa : ca ≠ none → ∀ T, xa.blk = some T → T ≠ p ∧ ta ≠ some T ∧ td ≠ some T ∧ tout ≠ some T)
    (hxd : cd ≠ none → ∀ T, xd.blk = some T → T ≠ p ∧ ta ≠ some T ∧ td ≠ some T ∧ tout ≠ some T)
    (ha : axis < oshape.length) {n : ℕ} (hnout : oshape.getD axis 0 = n) (hN : 1 ≤ N)
    (h0n : 1 ≤ n) (hn : n = synthLen mode N wl.dec_len)
    (hma : (coefArg xa ca).temp axis = true → ta ≠ none)
    (hmd : (coefArg xd cd).temp axis = true → td ≠ none)
    (hmo : (cstrides oshape).getD axis 0 ≠ 1 ↔ tout ≠ none) {i : ℕ}
    (hi : i < numTo oshape axis oshape.length)
    {cells : List (Option (Val R M))}
    (hP : During t orc s1 p [(ta, N), (td, N), (tout, n)] s)
    (hp : s.heap p = some ⟨false, cells⟩) (hcl : cells.length = oshape.prod) :
    ∃ s' cells', run t orc (idwtRow q (coefArg xa ca) (coefArg xd cd) ⟨some p, 0⟩
        ⟨oshape, cstrides oshape⟩ (some w) axis mode ta td tout i) s = .ok ((), s') ∧
      During t orc s1 p [(ta, N), (td, N), (tout, n)] s' ∧ s'.heap p = some ⟨false, cells'⟩ ∧
      WroteLine cells cells' (rowOffset oshape (cstrides oshape) axis oshape.length i 0)
        ((cstrides oshape).getD axis 0) (oshape.getD axis 0)
        (synthesis mode wl.rec_lo wl.rec_hi
          (lineOf ca N axis (digit oshape axis oshape.length i))
          (lineOf cd N axis (digit oshape axis oshape.length i))) := by
  obtain ⟨P1, P2, P3, P4⟩ := hP
  simp only [List.mem_cons, List.not_mem_nil, or_false, forall_eq_or_imp, forall_eq] at P3 P4
  obtain ⟨P4a, P4d, P4o⟩ := P4
  set idx := digit oshape axis oshape.length i with hidx
  have hb := lineBound ha hi
  have hinj := lineInj ha hi
  rw [hnout] at hb hinj ⊢
  have move : ∀ (s' : St (Val R M)) (x : Loc) (c : Option (Mem M)),
      CoefOk s1.heap x c oshape axis N → (c ≠ none → ∀ T, x.blk = some T → s'.heap T = s1.heap T) →
      CoefOk s'.heap x c oshape axis N := by
    intro s' x c h hk
    refine ⟨?_, h.ok, h.dim, h.same, h.len⟩
    rintro m rfl
    obtain ⟨b, rfl, k, e⟩ := h.at' m rfl
    exact ⟨b, rfl, k, by rw [hk (by simp) b rfl, e]⟩
  have hne : ∀ {x : Loc} {c : Option (Mem M)} {tmp : Option Ptr},
      CoefOk s1.heap x c oshape axis N → (c ≠ none → ∀ T, x.blk = some T → tmp ≠ some T) →
      c ≠ none → x.blk ≠ tmp ∨ tmp = none := by
    intro x c tmp h h' hc
    obtain ⟨m, rfl⟩ := Option.ne_none_iff_exists'.mp hc
    obtain ⟨b, rfl, -⟩ := h.at' m rfl
    exact Or.inl fun e => h' (by simp) b rfl e.symm
  unfold idwtRow
  simp only [Info.ndim, Loc.add, zero_add]
  -- the lines are read
  have load : ∀ (s' : St (Val R M)) (x : Loc) (c : Option (Mem M)) (tmp : Option Ptr),
      CoefOk s'.heap x c oshape axis N → TmpAt s'.heap tmp N →
      ((coefArg x c).temp axis = true → tmp ≠ none) → (c ≠ none → x.blk ≠ tmp ∨ tmp = none) →
      ∃ s'', run t orc ((coefArg x c).load ⟨oshape, cstrides oshape⟩ axis tmp i) s' = .ok ((), s'') ∧
      s''.next = s'.next ∧ (∀ q, tmp ≠ some q → s''.heap q = s'.heap q) ∧ TmpAt s''.heap tmp N ∧
      ∀ m, c = some m → HoldsM s''.heap (coefRow x m oshape axis tmp i) (m.line axis idx) := by
    intro s' x c tmp h1 h2 h3 h4
    cases c with
    | none => exact ⟨s', rfl, rfl, fun _ _ => rfl, h2, by rintro m ⟨⟩⟩
    | some m => exact run_coefLoad h1 ha h2 h3 (h4 (by simp)) hi _
  obtain ⟨s2, e2, n2, r2, t2, l2⟩ := load s xa ca ta (move s xa ca hca fun hc T hT => by
      obtain ⟨z1, z2, z3, z4⟩ := hxa hc T hT
      exact P3 T z1 ⟨z2, z3, z4⟩) P4a hma
    (hne hca fun hc T hT => (hxa hc T hT).2.1)
  rw [run_bind_ok e2]
  obtain ⟨s3, e3, n3, r3, t3, l3⟩ := load s2 xd cd td (move s2 xd cd hcd fun hc T hT => by
      obtain ⟨z1, z2, z3, z4⟩ := hxd hc T hT
      rw [r2 T z2]
      exact P3 T z1 ⟨z2, z3, z4⟩) (by
        intro T hT
        rw [r2 T (fun e => (hta T e).2.1 hT)]
        exact P4d T hT) hmd
    (hne hcd fun hc T hT => (hxd hc T hT).2.2.1)
  rw [run_bind_ok e3]
  have hkeep : ∀ Q, ta ≠ some Q → td ≠ some Q → s3.heap Q = s.heap Q := fun Q h1 h2 => by
    rw [r3 Q h2, r2 Q h1]
  -- where the lines are
  have hrow : ∀ (x : Loc) (m : Mem M) (tmp : Option Ptr) (Q : Ptr),
      x.blk ≠ some Q → tmp ≠ some Q → (coefRow x m oshape axis tmp i).blk ≠ some Q := by
    intro x m tmp Q h1 h2
    unfold coefRow
    split
    · exact h2
    · exact h1
  have hQne : ∀ Q, (Q = p ∨ tout = some Q) → ta ≠ some Q ∧ td ≠ some Q ∧
      (ca ≠ none → xa.blk ≠ some Q) ∧ (cd ≠ none → xd.blk ≠ some Q) := by
    rintro Q (rfl | hQ)
    · exact ⟨fun e => (hta _ e).1 rfl, fun e => (htd _ e).1 rfl, fun hc e => (hxa hc _ e).1 rfl,
        fun hc e => (hxd hc _ e).1 rfl⟩
    · exact ⟨fun e => (hta _ e).2.2 hQ, fun e => (htd _ e).2 hQ,
        fun hc e => (hxa hc _ e).2.2.2 hQ, fun hc e => (hxd hc _ e).2.2.2 hQ⟩
  have l2' : ∀ m, ca = some m → HoldsM s3.heap (coefRow xa m oshape axis ta i) (m.line axis idx) := by
    rintro m rfl
    intro j hj
    have hz : ∀ T, (coefRow xa m oshape axis ta i).blk = some T → s3.heap T = s2.heap T := by
      intro T hT
      apply r3
      intro e
      exact hrow xa m ta T (fun e' => (hxa (by simp) T e').2.2.1 e) (fun e' => (hta T e').2.1 e) hT
    have := l2 m rfl j hj
    cases hb : (coefRow xa m oshape axis ta i).blk with
    | none => rw [hb] at this; simp [Heap.load] at this
    | some T =>
      rw [hb] at this
      simp only [Heap.load, hz T hb]
      simpa only [Heap.load] using this
  -- the transform
  have hsyn : ∀ (Q : Ptr) (cQ : List (Option (Val R M))) (o : ℕ), (Q = p ∨ tout = some Q) →
      s3.heap Q = some ⟨false, cQ⟩ → o + n ≤ cQ.length → ∀ k : Prog (Val R M) Unit,
      run t orc (do
        forN (fun j => put (⟨some Q, (o : ℤ)⟩ : Loc) j (.samp 0)) n
        (coefArg xa ca).conv q false (some w) ⟨oshape, cstrides oshape⟩ axis ta ⟨some Q, o⟩ mode i
        (coefArg xd cd).conv q true (some w) ⟨oshape, cstrides oshape⟩ axis td ⟨some Q, o⟩ mode i
        k) s3 = run t orc k (s3.setCells Q (over cQ o (cellsM
          (synthesis mode wl.rec_lo wl.rec_hi (lineOf ca N axis idx) (lineOf cd N axis idx))))) := by
    intro Q cQ o hQ hQc ho k
    obtain ⟨z1, z2, z3, z4⟩ := hQne Q hQ
    have hwe : WaveletAt (s3.erase Q).heap q w wl := by
      refine hw.ext ?_
      intro r b hr
      obtain ⟨y1, y2, y3, y4, y5⟩ := hext r b hr
      rw [erase_ne _ (by rintro rfl; rcases hQ with h | h; exacts [y2 h, y5 h]), hkeep r y3 y4,
        P3 r y2 ⟨y3, y4, y5⟩, y1]
    have here : ∀ (x : Loc) (m : Mem M) (tmp : Option Ptr), x.blk ≠ some Q → tmp ≠ some Q →
        HoldsM s3.heap (coefRow x m oshape axis tmp i) (m.line axis idx) →
        HoldsM (s3.erase Q).heap (coefRow x m oshape axis tmp i) (m.line axis idx) := by
      intro x m tmp h1 h2 h j hj
      have := h j hj
      rw [← erase_setCells_same hQc, load_setCells_ne (hrow x m tmp Q h1 h2)] at this
      exact this
    have hlen : (synthesis mode wl.rec_lo wl.rec_hi (lineOf ca N axis idx)
        (lineOf cd N axis idx)) = List.zipWith (· + ·)
          (upPart mode (filt wl true false) (lineOf ca N axis idx) n)
          (upPart mode (filt wl true true) (lineOf cd N axis idx) n) := by
      rw [synthesis_eq_upPart (by rw [ok.2.2.2.2, ← ok.2.2.2.1])]
      have : (lineOf ca N axis idx).length = N := by
        cases ca with
        | none => simp [lineOf]
        | some m => rw [lineOf, Mem.line_length, hca.len m rfl]
      rw [this, show wl.rec_lo.length = wl.dec_len from ok.2.2.2.1, ← hn]
      rfl
    rw [run_bind_ok (run_memset hQc ho), ← erase_setCells]
    have c1 := run_coefConv (t := t) (orc := orc) (s := s3.erase Q) (p := Q) (c0 := cQ) (o := o)
      (mc := ca) (x := xa) (oshape := oshape) (axis := axis) (tmp := ta) (i := i) (idx := idx)
      (erase_self _ _) hwe ok false (by
        rintro m rfl
        exact here xa m ta (z3 (by simp)) z1 (l2' m rfl)) hca.len hN (mode := mode)
      (out := zeros n) (by rw [← hn]; exact h0n) (by simpa using hn) (by simpa using ho)
      (cstrides oshape)
    rw [run_bind_ok c1, zeros_length, zipWith_zeros _ _ (by simp)]
    have c2 := run_coefConv (t := t) (orc := orc) (s := s3.erase Q) (p := Q) (c0 := cQ) (o := o)
      (mc := cd) (x := xd) (oshape := oshape) (axis := axis) (tmp := td) (i := i) (idx := idx)
      (erase_self _ _) hwe ok true (by
        rintro m rfl
        exact here xd m td (z4 (by simp)) z2 (l3 m rfl)) hcd.len hN (mode := mode)
      (out := upPart mode (filt wl true false) (lineOf ca N axis idx) n) (by rw [← hn]; exact h0n)
      (by simpa using hn) (by simpa using ho)
      (cstrides oshape)
    rw [run_bind_ok c2, upPart_length, ← hlen, erase_setCells]
  set row := synthesis mode wl.rec_lo wl.rec_hi (lineOf ca N axis idx) (lineOf cd N axis idx)
    with hrowdef
  have hglen : row.length = n := by
    rw [hrowdef, synthesis_length]
    have : (lineOf ca N axis idx).length = N := by
      cases ca with
      | none => simp [lineOf]
      | some m => rw [lineOf, Mem.line_length, hca.len m rfl]
    rw [this, hn]
    congr 1
    exact ok.2.2.2.1
  have hp3 : s3.heap p = some ⟨false, cells⟩ := by
    obtain ⟨z1, z2, -⟩ := hQne p (Or.inl rfl)
    rw [hkeep p z1 z2, hp]
  have hd : ∀ s4 : St (Val R M), s4.next = s3.next →
      (∀ Q, Q ≠ p → tout ≠ some Q → s4.heap Q = s3.heap Q) → TmpAt s4.heap tout n →
      During t orc s1 p [(ta, N), (td, N), (tout, n)] s4 := by
    intro s4 hn4 hk4 ht4
    refine ⟨by omega, by rw [hn4, n3, n2]; exact P2, ?_, ?_⟩
    · intro Q hQ hQT
      simp only [List.mem_cons, List.not_mem_nil, or_false, forall_eq_or_imp, forall_eq] at hQT
      rw [hk4 Q hQ hQT.2.2, hkeep Q hQT.1 hQT.2.1, P3 Q hQ hQT]
    · simp only [List.mem_cons, List.not_mem_nil, or_false, forall_eq_or_imp, forall_eq]
      refine ⟨?_, ?_, ht4⟩
      · intro T hT
        rw [hk4 T (hta T hT).1 (hta T hT).2.2, r3 T (hta T hT).2.1]
        exact t2 T hT
      · intro T hT
        rw [hk4 T (htd T hT).1 (htd T hT).2]
        exact t3 T hT
  by_cases hst : (cstrides oshape).getD axis 0 = 1
  · -- written in place
    have hton : tout = none := by
      by_contra h
      exact hmo.mpr h hst
    have hoff : 0 ≤ rowOffset oshape (cstrides oshape) axis oshape.length i 0 := by
      simpa using (hb 0 h0n).1
    obtain ⟨o, ho⟩ := Int.eq_ofNat_of_zero_le hoff
    rw [hst, ho] at hb
    have hok : o + n ≤ cells.length := by
      rw [hcl]
      have := (hb (n - 1) (by omega)).2
      omega
    rw [ho, hst, hnout, show decide ((1 : ℤ) ≠ 1) = false by simp]
    simp only [Bool.false_eq_true, if_false]
    rw [hsyn p cells o (Or.inl rfl) hp3 hok]
    refine ⟨_, _, rfl, hd _ rfl (fun Q hQ _ => setCells_ne hQ) (by rw [hton]; rintro T ⟨⟩),
      setCells_self, wroteLine_over hglen hok⟩
  · -- written through a temporary buffer
    obtain ⟨T, hT⟩ := Option.ne_none_iff_exists'.mp (hmo.mp hst)
    obtain ⟨cT, hcT, hcTl⟩ := P4o T hT
    obtain ⟨z1, z2, -⟩ := hQne T (Or.inr hT)
    have hcT3 : s3.heap T = some ⟨false, cT⟩ := by rw [hkeep T z1 z2, hcT]
    have hTp := hto T hT
    rw [hnout, if_pos (show decide ((cstrides oshape).getD axis 0 ≠ 1) = true from
      decide_eq_true hst), hT, show (⟨some T, 0⟩ : Loc) = ⟨some T, ((0 : ℕ) : ℤ)⟩ from rfl,
      hsyn T cT 0 (Or.inr hT) hcT3 (by omega), over_full (by rw [cellsM_length, hglen, hcTl])]
    obtain ⟨c', h5, h6⟩ := run_copyOutIf (t := t) (orc := orc) (n := n) (l := row)
      (off := rowOffset oshape (cstrides oshape) axis oshape.length i 0)
      (s := s3.setCells T (cellsM row))
      (by rw [setCells_ne hTp.symm]; exact hp3) hst rfl setCells_self hTp hglen
      (by rw [hcl]; exact hb) hinj
    refine ⟨_, c', h5, ?_, setCells_self, h6⟩
    rw [← hT]
    refine hd _ rfl ?_ ?_
    · intro Q hQ hQT
      rw [setCells_ne hQ, setCells_ne (by rintro rfl; exact hQT hT)]
    · intro T' hT'
      obtain rfl : T = T' := by rw [hT] at hT'; exact Option.some.inj hT'
      rw [setCells_ne hTp]
      exact ⟨_, setCells_self, by simpa using hglen⟩

end Row

end Pywt.Heap
