import Verif.Proof.HeapAxis4
import Verif.Proof.SwtNFwd

/-!
# `idwt_axis` and `swt_axis` on the heap
-/

set_option linter.unusedSectionVars false
set_option linter.unusedVariables false

namespace Pywt.Heap

open Spec

variable {R M : Type} [Ring R] [AddCommGroup M] [Module R M]
variable {t : ℕ} {orc : ℕ → Bool}

section Idwt
variable [Nontrivial M] {s : St (Val R M)} {h0 : Ptr → Option (Blk (Val R M))} {q : Prec}
  {w p : Ptr} {wl : Wavelet R} {axis : ℕ} {xa xd : Loc} {ca cd : Option (Mem M)}
  {shape : List ℕ} {mode : Mode} {c0 : List (Option (Val R M))} {n : ℕ}

/-- The checks of `idwt_axis` pass. -/
theorem run_idwtCheck (hw : WaveletAt s.heap q w wl) (ok : wl.Ok) (hsome : ca.isSome ∨ cd.isSome)
    (hca : ∀ m, ca = some m → m.info.shape = shape) (hcd : ∀ m, cd = some m → m.info.shape = shape)
    (ha : axis < shape.length) (h1 : 1 ≤ n) (hn : n = synthLen mode (shape.getD axis 0) wl.dec_len)
    (ostr : List ℤ) (i : ℕ) :
    run t orc (idwtCheck (coefArg xa ca) (coefArg xd cd) ⟨shape.set axis n, ostr⟩ (some w) axis mode i)
      s = .ok (0, s) := by
  have hr : wl.rec_len = wl.dec_len := ok.2.2.2.1
  have hb : idwtBufferLength (shape.getD axis 0) wl.dec_len mode = some n := by
    rw [hn]; exact idwtBufferLength_eq (by omega)
  unfold idwtCheck
  simp only [getD_set ha]
  by_cases hi : i = axis
  · subst hi
    simp only [if_true]
    have hl : (if (coefArg xa ca).isSome then (coefArg xa ca).len i else (coefArg xd cd).len i) =
        shape.getD i 0 := by
      cases ca with
      | none =>
        cases cd with
        | none => simp at hsome
        | some d => simp [coefArg, CoefArg.len, hcd d rfl]
      | some a => simp [coefArg, CoefArg.len, hca a rfl]
    have hd : ¬ ((coefArg xa ca).isSome = true ∧ (coefArg xd cd).isSome = true ∧
        (coefArg xa ca).len i ≠ (coefArg xd cd).len i) := by
      cases ca with
      | none => simp [coefArg]
      | some a =>
        cases cd with
        | none => simp [coefArg]
        | some d => simp [coefArg, CoefArg.len, hcd d rfl, hca a rfl]
    rw [if_neg hd, run_bind_ok (run_recLen hw), hl, hr, hb, if_neg (fun h => h rfl)]
    rfl
  · simp only [if_neg hi]
    rw [if_neg]
    · rfl
    · cases ca with
      | none =>
        cases cd with
        | none => simp at hsome
        | some d => simp [coefArg, CoefArg.bad, hcd d rfl]
      | some a =>
        cases cd with
        | none => simp [coefArg, CoefArg.bad, hca a rfl]
        | some d => simp [coefArg, CoefArg.bad, hca a rfl, hcd d rfl]

/-- What `idwt_axis` does when its checks pass. -/
theorem run_idwtAxis (hw : WaveletAt h0 q w wl) (ok : wl.Ok) (hsome : ca.isSome ∨ cd.isSome)
    (hu : Unused t s.heap s.next) (hpm : p.1 = t → p.2 < s.next)
    (hext : ∀ r b, h0 r = some b → s.heap r = some b ∧ r ≠ p)
    (hca : ∀ m, ca = some m → MemAt h0 xa m ∧ m.Ok ∧ m.info.shape = shape)
    (hcd : ∀ m, cd = some m → MemAt h0 xd m ∧ m.Ok ∧ m.info.shape = shape)
    (ha : axis < shape.length) (h1 : 1 ≤ n)
    (hn : n = synthLen mode (shape.getD axis 0) wl.dec_len)
    (hp : s.heap p = some ⟨false, c0⟩) (hcl : c0.length = (shape.set axis n).prod) :
    ∃ rc s', run t orc (idwtAxis q (coefArg xa ca) (coefArg xd cd) ⟨some p, 0⟩
        ⟨shape.set axis n, cstrides (shape.set axis n)⟩ (some w) axis mode) s =
          .ok (rc, s') ∧ s.next ≤ s'.next ∧
      ((rc = 0 ∧ s'.heap = (s.setCells p (cellsM (Arr.ofFn (shape.set axis n) fun idx =>
          (synthesis mode wl.rec_lo wl.rec_hi (lineOf ca (shape.getD axis 0) axis idx)
            (lineOf cd (shape.getD axis 0) axis idx)).getD (idx axis) 0).data)).heap ∧
          AllOk orc s.next s'.next) ∨
        (rc = 2 ∧ s'.heap = s.heap ∧ ∃ k, s.next ≤ k ∧ k < s'.next ∧ orc k = false)) := by
  have hr : wl.rec_len = wl.dec_len := ok.2.2.2.1
  set N := shape.getD axis 0 with hN
  have hN1 : 1 ≤ N := by
    have hF : 2 ≤ wl.dec_len := ok.1
    by_contra h
    have h0 : N = 0 := by omega
    rw [h0] at hn
    cases mode <;> simp only [synthLen, if_true, reduceCtorEq, if_false] at hn <;> omega
  set oshape := shape.set axis n with hosh
  have hlen : oshape.length = shape.length := by simp [hosh]
  have hoa : axis < oshape.length := by omega
  have hoaxis : oshape.getD axis 0 = n := by rw [hosh, getD_set ha, if_pos rfl]
  have hwe : WaveletAt s.heap q w wl := hw.ext fun r b hr => (hext r b hr).1
  have hco : ∀ (x : Loc) (c : Option (Mem M)),
      (∀ m, c = some m → MemAt h0 x m ∧ m.Ok ∧ m.info.shape = shape) →
      ∀ h, Ext h0 h → CoefOk h x c oshape axis N := by
    intro x c hc h he
    refine ⟨fun m hm => (hc m hm).1.ext he, fun m hm => (hc m hm).2.1,
      fun m hm => by rw [(hc m hm).2.2, hlen], ?_, fun m hm => by rw [(hc m hm).2.2]⟩
    intro m hm k hk hka
    rw [(hc m hm).2.2, hosh, getD_set ha, if_neg hka]
  have hlenOf : ∀ (x : Loc) (c : Option (Mem M)), (coefArg x c).temp axis = true →
      (∀ m, c = some m → MemAt h0 x m ∧ m.Ok ∧ m.info.shape = shape) →
      (coefArg x c).len axis = N := by
    intro x c ht hc
    cases c with
    | none => simp [coefArg, CoefArg.temp] at ht
    | some m => simp only [coefArg, Option.map_some, CoefArg.len, (hc m rfl).2.2, hN]
  unfold idwtAxis
  simp only [Info.ndim]
  rw [if_neg (by
      cases ca <;> cases cd <;> simp [coefArg] at hsome ⊢), if_neg (by
      cases ca with
      | none =>
        cases cd with
        | none => simp at hsome
        | some d => simp [coefArg, CoefArg.bad, (hcd d rfl).2.2, hlen]
      | some a =>
        cases cd with
        | none => simp [coefArg, CoefArg.bad, (hca a rfl).2.2, hlen]
        | some d => simp [coefArg, CoefArg.bad, (hca a rfl).2.2, (hcd d rfl).2.2, hlen]),
    if_neg (by omega),
    run_bind_ok (run_forCode fun i _ => run_idwtCheck hwe ok hsome (fun m hm => (hca m hm).2.2)
      (fun m hm => (hcd m hm).2.2) ha h1 hn _ i), if_neg (by omega), hoaxis]
  -- the temporary buffers
  obtain ⟨ta, s1, e1, n1, u1, g1⟩ := run_mallocIf (t := t) (orc := orc)
    ((coefArg xa ca).temp axis) ((coefArg xa ca).len axis) hu
  rw [run_bind_ok e1]
  rcases g1 with ⟨b1, rfl, k1, f1⟩ | ⟨b1, a1, t1, r1, m1⟩
  · rw [if_pos ⟨b1, rfl⟩]
    exact ⟨2, s1, rfl, n1, Or.inr ⟨rfl, k1, f1⟩⟩
  rw [if_neg (by rintro ⟨h1, h2⟩; exact b1.mp h1 h2)]
  obtain ⟨td, s2, e2, n2, u2, g2⟩ := run_mallocIf (t := t) (orc := orc)
    ((coefArg xd cd).temp axis) ((coefArg xd cd).len axis) u1
  rw [run_bind_ok e2]
  rcases g2 with ⟨b2, rfl, k2, kf, f1, f2, f3⟩ | ⟨b2, a2, t2, r2, m2⟩
  · rw [if_pos ⟨b2, rfl⟩, run_bind_ok (run_freeTmp (n := (coefArg xa ca).len axis)
      (by rw [k2]; exact t1))]
    refine ⟨2, s2.eraseO ta, rfl, by simp; omega, Or.inr ⟨rfl, ?_, kf, by omega, by simpa, f3⟩⟩
    funext Q
    by_cases hQ : ta = some Q
    · rw [eraseO_self _ hQ, (m1 Q hQ).1, hu _ le_rfl]
    · rw [eraseO_ne _ hQ, k2, r1 Q hQ]
  rw [if_neg (by rintro ⟨h1, h2⟩; exact b2.mp h1 h2)]
  have hna : ∀ T, ta = some T → s.heap T = none ∧ T ≠ p ∧ td ≠ some T := by
    intro T hT
    obtain ⟨z1, z2⟩ := m1 T hT
    refine ⟨by rw [z1]; exact hu _ le_rfl, ?_, ?_⟩
    · rintro rfl
      have := hpm (by rw [z1])
      rw [z1] at this; simp at this
    · intro h
      have := (m2 T h).1
      rw [this] at z2; simp at z2
  have hnd : ∀ T, td = some T → s.heap T = none ∧ T ≠ p := by
    intro T hT
    obtain ⟨z1, z2⟩ := m2 T hT
    refine ⟨by rw [z1]; exact hu _ n1, ?_⟩
    rintro rfl
    have := hpm (by rw [z1])
    rw [z1] at this; simp only at this; omega
  have t1' : TmpAt s2.heap ta ((coefArg xa ca).len axis) := by
    intro T hT
    rw [r2 T (hna T hT).2.2]
    exact t1 T hT
  obtain ⟨tout, s3, e3, n3, u3, g3⟩ := run_mallocIf (t := t) (orc := orc)
    (decide ((cstrides oshape).getD axis 0 ≠ 1)) n u2
  rw [run_bind_ok e3]
  rcases g3 with ⟨b3, rfl, k3, kf, f1, f2, f3⟩ | ⟨b3, a3, t3, r3, m3⟩
  · rw [if_pos ⟨b3, rfl⟩, run_bind_ok (run_freeTmp (n := (coefArg xa ca).len axis)
      (by rw [k3]; exact t1')), run_bind_ok (run_freeTmp (n := (coefArg xd cd).len axis)
      (TmpAt.eraseO (by rw [k3]; exact t2) fun T hT h => (hna T h).2.2 hT))]
    refine ⟨2, (s3.eraseO ta).eraseO td, rfl, by simp; omega,
      Or.inr ⟨rfl, ?_, kf, by omega, by simpa, f3⟩⟩
    funext Q
    by_cases hQd : td = some Q
    · rw [eraseO_self _ hQd, (hnd Q hQd).1]
    · rw [eraseO_ne _ hQd]
      by_cases hQ : ta = some Q
      · rw [eraseO_self _ hQ, (hna Q hQ).1]
      · rw [eraseO_ne _ hQ, k3, r2 Q hQd, r1 Q hQ]
  rw [if_neg (by rintro ⟨h1, h2⟩; exact b3.mp h1 h2)]
  -- what is known of them
  have hno : ∀ T, tout = some T → s.heap T = none ∧ T ≠ p ∧ ta ≠ some T ∧ td ≠ some T := by
    intro T hT
    obtain ⟨z1, z2⟩ := m3 T hT
    refine ⟨by rw [z1]; exact hu _ (by omega), ?_, ?_, ?_⟩
    · rintro rfl
      have := hpm (by rw [z1])
      rw [z1] at this; simp only at this; omega
    · intro h
      have := (m1 T h).2
      rw [z1] at this; simp only at this; omega
    · intro h
      have := (m2 T h).2
      rw [z1] at this; simp only at this; omega
  have hkeep : ∀ Q, ta ≠ some Q → td ≠ some Q → tout ≠ some Q → s3.heap Q = s.heap Q :=
    fun Q h1 h2 h3 => by rw [r3 Q h3, r2 Q h2, r1 Q h1]
  have hkeep' : ∀ Q b, s.heap Q = some b → ta ≠ some Q ∧ td ≠ some Q ∧ tout ≠ some Q := by
    intro Q b hQ
    refine ⟨fun h => ?_, fun h => ?_, fun h => ?_⟩
    · rw [(hna Q h).1] at hQ; cases hQ
    · rw [(hnd Q h).1] at hQ; cases hQ
    · rw [(hno Q h).1] at hQ; cases hQ
  have hext3 : ∀ r b, h0 r = some b → s3.heap r = some b ∧ r ≠ p ∧ ta ≠ some r ∧ td ≠ some r ∧
      tout ≠ some r := by
    intro r b hr
    obtain ⟨z1, z2⟩ := hext r b hr
    obtain ⟨z3, z4, z5⟩ := hkeep' r b z1
    exact ⟨by rw [hkeep r z3 z4 z5, z1], z2, z3, z4, z5⟩
  have hE : Ext h0 s3.heap := fun r b hr => (hext3 r b hr).1
  have hxs : ∀ (x : Loc) (c : Option (Mem M)),
      (∀ m, c = some m → MemAt h0 x m ∧ m.Ok ∧ m.info.shape = shape) →
      c ≠ none → ∀ T, x.blk = some T → T ≠ p ∧ ta ≠ some T ∧ td ≠ some T ∧ tout ≠ some T := by
    intro x c hc hcn T hT
    obtain ⟨m, rfl⟩ := Option.ne_none_iff_exists'.mp hcn
    obtain ⟨⟨b, rfl, k, hb⟩, -⟩ := hc m rfl
    obtain rfl : b = T := Option.some.inj hT
    exact (hext3 b _ hb).2
  obtain ⟨zp1, zp2, zp3⟩ := hkeep' p _ hp
  have tA : TmpAt s3.heap ta N := by
    intro T hT
    rw [r3 T (fun h => (hno T h).2.2.1 hT), r2 T (hna T hT).2.2,
      ← hlenOf xa ca (b1.mpr (by rw [hT]; simp)) hca]
    exact t1 T hT
  have tD : TmpAt s3.heap td N := by
    intro T hT
    rw [r3 T (fun h => (hno T h).2.2.2 hT), ← hlenOf xd cd (b2.mpr (by rw [hT]; simp)) hcd]
    exact t2 T hT
  -- the loop
  obtain ⟨s4, e4, P4, h4⟩ := run_lines (t := t) (orc := orc) (axis := axis) (shape := oshape)
    (p := p) hoa (body := idwtRow q (coefArg xa ca) (coefArg xd cd) ⟨some p, 0⟩
      ⟨oshape, cstrides oshape⟩ (some w) axis mode ta td tout)
    (rows := fun i => synthesis mode wl.rec_lo wl.rec_hi
      (lineOf ca N axis (digit oshape axis oshape.length i))
      (lineOf cd N axis (digit oshape axis oshape.length i)))
    (During t orc s3 p [(ta, N), (td, N), (tout, n)]) (by
      intro i hi s' cells hP hp' hcl'
      exact run_idwtRow hw ok hext3 (fun T h => ⟨(hna T h).2.1, (hna T h).2.2,
          fun h' => (hno T h').2.2.1 h⟩) (fun T h => ⟨(hnd T h).2, fun h' => (hno T h').2.2.2 h⟩)
        (fun T h => (hno T h).2.1) (hco xa ca hca _ hE) (hco xd cd hcd _ hE) (hxs xa ca hca)
        (hxs xd cd hcd) hoa hoaxis hN1 h1 hn (fun h => b1.mp h) (fun h => b2.mp h)
        ⟨fun h => b3.mp (by simpa using h), fun h => by simpa using b3.mpr h⟩ hi hP hp' hcl')
    (s := s3) (c := c0) ⟨le_rfl, AllOk.refl _, fun _ _ _ => rfl, by
      simp only [List.mem_cons, List.not_mem_nil, or_false, forall_eq_or_imp, forall_eq]
      exact ⟨tA, tD, t3⟩⟩ (by rw [hkeep p zp1 zp2 zp3, hp]) hcl
    (f := fun idx => (synthesis mode wl.rec_lo wl.rec_hi (lineOf ca N axis idx)
      (lineOf cd N axis idx)).getD (idx axis) 0)
    (by
      intro f g hfg
      simp only
      have hl : ∀ c : Option (Mem M), (∀ m, c = some m → m.info.shape = shape) →
          lineOf c N axis f = lineOf c N axis g := by
        intro c hc
        cases c with
        | none => rfl
        | some c =>
          exact c.line_congr fun k hk _ => hfg k (by
            rw [Info.ndim, hc c rfl] at hk; omega)
      rw [hl ca fun m hm => (hca m hm).2.2, hl cd fun m hm => (hcd m hm).2.2, hfg axis hoa]) (by
      intro idx hidx
      have hl : ∀ c : Option (Mem M), (∀ m, c = some m → m.info.shape = shape) →
          lineOf c N axis (digit oshape axis oshape.length (rank oshape axis idx oshape.length)) =
            lineOf c N axis idx := by
        intro c hc
        cases c with
        | none => rfl
        | some c =>
          exact c.line_congr fun k hk hka => digit_rank (fun k hk _ => hidx k hk) k (by
            rw [Info.ndim, hc c rfl] at hk; omega) hka
      rw [hl ca fun m hm => (hca m hm).2.2, hl cd fun m hm => (hcd m hm).2.2])
  obtain ⟨P4n, P4a, P4r, P4t⟩ := P4
  simp only [List.mem_cons, List.not_mem_nil, or_false, forall_eq_or_imp, forall_eq] at P4t
  rw [run_bind_ok e4, run_bind_ok (run_freeTmp P4t.1),
    run_bind_ok (run_freeTmp (TmpAt.eraseO P4t.2.1 fun T hT h => (hna T h).2.2 hT)),
    run_bind_ok (run_freeTmp (TmpAt.eraseO (TmpAt.eraseO P4t.2.2
      fun T hT h => (hno T hT).2.2.1 h) fun T hT h => (hno T hT).2.2.2 h))]
  refine ⟨0, ((s4.eraseO ta).eraseO td).eraseO tout, rfl, by simp; omega, Or.inl ⟨rfl, ?_, ?_⟩⟩
  · funext Q
    by_cases hQp : Q = p
    · subst hQp
      rw [eraseO_ne _ zp3, eraseO_ne _ zp2, eraseO_ne _ zp1, h4, setCells_self]
    · rw [setCells_ne hQp]
      by_cases hQo : tout = some Q
      · rw [eraseO_self _ hQo, (hno Q hQo).1]
      · rw [eraseO_ne _ hQo]
        by_cases hQd : td = some Q
        · rw [eraseO_self _ hQd, (hnd Q hQd).1]
        · rw [eraseO_ne _ hQd]
          by_cases hQa : ta = some Q
          · rw [eraseO_self _ hQa, (hna Q hQa).1]
          · rw [eraseO_ne _ hQa, P4r Q hQp (by simp [hQa, hQd, hQo]), hkeep Q hQa hQd hQo]
  · simp only [eraseO_next]
    exact a1.trans (a2.trans (a3.trans P4a))

/-- `idwt_axis` for coefficients of equal shapes whose reconstruction is not empty. -/
theorem runs_idwtAxis (hu : Unused t s.heap s.next) (hw : WaveletAt s.heap q w wl) (ok : wl.Ok)
    (hca : ∀ m, ca = some m → MemAt s.heap xa m ∧ m.Ok ∧ m.info.shape = shape)
    (hcd : ∀ m, cd = some m → MemAt s.heap xd m ∧ m.Ok ∧ m.info.shape = shape)
    (ha : axis < shape.length)
    (hne : idwtBufferLength (shape.getD axis 0) wl.rec_len mode ≠ some 0) :
    Runs t orc s.heap s.next ((idwtAxisMem wl mode axis ca cd).map fun r => (r.map (·.data)).toList)
      (idwtAxisPy q (some w) mode axis (coefArg xa ca) (coefArg xd cd)) s := by
  have hr : wl.rec_len = wl.dec_len := ok.2.2.2.1
  have hh := Held.nil (t := t) s
  by_cases hsome : ca.isSome ∨ cd.isSome
  swap
  · have h1 : ca = none := by
      cases ca with
      | none => rfl
      | some _ => simp at hsome
    have h2 : cd = none := by
      cases cd with
      | none => rfl
      | some _ => simp at hsome
    subst h1 h2
    exact Runs.ret (ps := []) hh le_rfl (AllOk.refl _) List.Forall₂.nil
  obtain ⟨x, m, hm, hm', hms⟩ : ∃ (x : Loc) (m : Mem M),
      (coefArg xa ca <|> coefArg xd cd) = some (x, m.info) ∧ (ca <|> cd) = some m ∧
        m.info.shape = shape := by
    cases ca with
    | none =>
      cases cd with
      | none => simp at hsome
      | some d => exact ⟨xd, d, rfl, rfl, (hcd d rfl).2.2⟩
    | some a => exact ⟨xa, a, rfl, rfl, (hca a rfl).2.2⟩
  unfold idwtAxisPy
  rw [hm]
  simp only [Info.ndim, hms]
  rw [if_neg (by omega)]
  refine Runs.step (run_recLen hw) ?_
  by_cases hpos : 1 ≤ synthLen mode (shape.getD axis 0) wl.rec_len
  · rw [idwtBufferLength_eq hpos, idwtAxisMem_ok ok hsome (fun m hm => (hca m hm).2)
      (fun m hm => (hcd m hm).2) ha hpos]
    rw [hr] at hpos ⊢
    set n := synthLen mode (shape.getD axis 0) wl.dec_len with hn
    simp only
    refine Runs.npEmpty hh le_rfl (AllOk.refl _) fun ho => ?_
    have h1 := hh.alloc (hu _ le_rfl) (List.replicate (shape.set axis n).prod none)
    set r : Ptr := (t, s.next) with hrdef
    set s2 := s.bump.setCells r (List.replicate (shape.set axis n).prod none) with hs2
    have hn2 : s2.next = s.next + 1 := rfl
    obtain ⟨rc, s3, e3, n3, h3⟩ := run_idwtAxis (t := t) (orc := orc) (s := s2) (p := r) (n := n)
      (mode := mode) hw ok hsome (h1.unused (by omega) hu) (fun _ => (h1.mine r (by simp)).2)
      (h1.keeps (by simp)) hca hcd ha hpos hn
      (c0 := List.replicate (shape.set axis n).prod none) setCells_self (by simp)
    refine Runs.step e3 ?_
    rcases h3 with ⟨rfl, k3, a3⟩ | ⟨rfl, k3, kf, f1, f2, f3⟩
    swap
    · rw [if_pos (by decide)]
      exact Runs.failed (ps := [r]) (h1.of_heap k3 n3) (by omega) (Or.inr rfl)
        ⟨kf, by omega, f2, f3⟩
    rw [if_neg (by omega)]
    refine Runs.ret (ps := [r]) ((h1.setCells (p := r) (by simp) _).of_heap k3 n3) (by omega)
      (AllOk.trans (by rw [hn2]; exact (AllOk.refl _).succ ho) a3) ?_
    refine List.Forall₂.cons ?_ List.Forall₂.nil
    rw [k3, setCells_self]
  · have hb : idwtBufferLength (shape.getD axis 0) wl.rec_len mode = none := by
      rcases hz : idwtBufferLength (shape.getD axis 0) wl.rec_len mode with _ | k
      · rfl
      · exfalso
        rw [hz] at hne
        revert hz hpos
        cases mode <;> simp only [synthLen, idwtBufferLength, if_true, reduceCtorEq, if_false] <;>
          intro hpos hz <;> (try split at hz) <;> first
            | (cases hz; done)
            | exact hne (congrArg some (by have := Option.some.inj hz; omega))
    rw [hb]
    have : idwtAxisMem wl mode axis ca cd = .error .alloc := by
      unfold idwtAxisMem
      rw [hm']
      simp only [Info.ndim, hms]
      rw [if_neg (by omega), hb]
      rfl
    rw [this]
    exact Runs.raise hh le_rfl (AllOk.refl _)

end Idwt

/-! ### `swt_axis` -/

section Swt
variable [Nontrivial M] {s : St (Val R M)} {h0 : Ptr → Option (Blk (Val R M))} {q : Prec}
  {w : Ptr} {wl : Wavelet R} {axis : ℕ} {c : Mem M} {x : Loc} {n0 : ℕ}

/-- One line of `swt_axis`, if no allocation of the up-sampled filter fails. -/
theorem lineOp_swt (hw : WaveletAt h0 q w wl) (ok : wl.Ok) {N m i : ℕ} (hm : 1 ≤ m) (hi : 1 ≤ i)
    (hd : 2 ^ i ∣ m) (ho : i = 1 ∨ ∀ k, N ≤ k → orc k = true) (approx : Bool) :
    LineOp t orc h0 N m m (atrous (filt wl false (!approx)) (2 ^ (i - 1)))
      (kernel q (.swt i) approx (some w)) := by
  intro s0 p c0 o x xl hN he hp hfr hpe hx hxl hl
  subst hxl
  have h := run_swtDec (t := t) (orc := orc) (c0 := c0) (o := o) hp hpe hfr (hw.ext he) ok (!approx)
    hx hm hi hd hl
  by_cases h1 : i = 1
  · rw [if_pos h1] at h
    subst h1
    exact ⟨0, s0.next, le_rfl, AllOk.refl _, h⟩
  · have ho' := (ho.resolve_left h1) s0.next hN
    rw [if_neg h1, if_pos ho'] at h
    exact ⟨0, s0.next + 1, by omega, (AllOk.refl _).succ ho', h⟩

/-- The arrays of the result, the newest first. -/
def flatArrs (r : List (Arr M × Arr M)) : List (List M) :=
  r.reverse.flatMap fun r => [r.1.data, r.2.data]

theorem flatArrs_snoc (r : List (Arr M × Arr M)) (A D : Arr M) :
    flatArrs (r ++ [(A, D)]) = A.data :: D.data :: flatArrs r := by
  simp [flatArrs]

theorem runs_swtAxisLoop (hu0 : Unused t h0 n0) (hw : WaveletAt h0 q w wl) (ok : wl.Ok)
    (n : ℕ) :
    ∀ (i : ℕ) (x : Loc) (c : Mem M) (s : St (Val R M)) (ps : List Ptr)
      (ret : List (Arr M × Arr M)),
      1 ≤ i → 1 ≤ c.info.shape.getD axis 0 → 2 ^ (i + n - 1) ∣ c.info.shape.getD axis 0 →
      (i + n ≤ 2 ∨ ∀ k, n0 ≤ k → orc k = true) →
      axis < c.info.shape.length → c.Ok → Held t h0 s ps → n0 ≤ s.next →
      AllOk orc n0 s.next → MemAt s.heap x c →
      List.Forall₂ (fun p (l : List M) => s.heap p = some ⟨false, cellsM l⟩) ps (flatArrs ret) →
      Runs t orc h0 n0 ((Pywt.swtAxisLoop wl axis n i c ret).map flatArrs)
        (swtAxisLoop q (some w) axis c.info.shape n i x c.info ps) s := by
  induction n with
  | zero =>
    intro i x c s ps ret hi hX hd hor hax hc hh hn ha hx hcs
    exact Runs.ret hh hn ha hcs
  | succ n ih =>
    intro i x c s ps ret hi hX hd hor hax hc hh hn ha hx hcs
    set m := c.info.shape.getD axis 0 with hm
    have hset : c.info.shape.set axis m = c.info.shape := list_set_getD _ _
    have hd1 : 2 ^ i ∣ m := (pow_dvd_pow 2 (by omega)).trans hd
    have hor1 : i = 1 ∨ ∀ k, n0 ≤ k → orc k = true := by
      rcases hor with h | h
      · left; omega
      · exact Or.inr h
    set A := c.along axis m (atrous (filt wl false false) (2 ^ (i - 1))) with hA
    set D := c.along axis m (atrous (filt wl false true) (2 ^ (i - 1))) with hD
    have hAsh : A.shape = c.info.shape := hset
    have hcall : ∀ approx, downcoefAxisCall wl axis approx (.swt i) c c.info.shape =
        .ok (c.along axis m (atrous (filt wl false (!approx)) (2 ^ (i - 1)))) := by
      intro approx
      have h := downcoefAxisCall_eq (w := wl) (approx := approx) (t := .swt i) hc hax
        (n := m) (g := atrous (filt wl false (!approx)) (2 ^ (i - 1))) rfl (by
          intro row orow hr ho
          have hF := filt_length ok false (!approx)
          have := swtStep_eq (f := filt wl false (!approx)) (x := row) (out := orow) (level := i)
            (by rw [hF]; exact ok.1) (by rw [hF]; exact ok.2.1) (by omega) hi
            (by rw [hr]; exact hd1) (by omega)
          have := Pywt.callC_ok this
          cases approx <;> exact this) (by
          intro row hr
          rw [atrous_length, hr])
      rw [hset] at h
      exact h
    have hstep : Pywt.swtAxisLoop wl axis (n + 1) i c ret =
        Pywt.swtAxisLoop wl axis n (i + 1) A.toMem (ret ++ [(A, D)]) := by
      rw [Pywt.swtAxisLoop, hcall, hcall]
      rfl
    have hok : ∃ r, Pywt.swtAxisLoop wl axis n (i + 1) A.toMem (ret ++ [(A, D)]) = .ok r := by
      obtain ⟨j, rfl⟩ := Nat.exists_eq_add_of_le' hi
      have := swtAxisLoop_arr ok (j + 1) (x := A) (axis := axis) (by rw [hAsh]; exact hax)
        (by rw [hAsh]; exact hX) n 0 (ret ++ [(A, D)]) A.toMem A.toMem_ok (by
          rw [Arr.copy_toMem]
          have hax' : axis < A.shape.length := by rw [hAsh]; exact hax
          apply Arr.ext_get
          · rw [Arr.shape_along, list_set_getD]
          · intro idx hidx
            rw [Arr.along_get hax' (by rw [list_set_getD]; exact hidx)]
            simp only [swtApprox]
            rw [List.getD_eq_getElem (hn := by rw [Arr.line_length]; exact hidx _ hax'),
              Arr.line_getElem, Function.update_eq_self]) (by
          rw [hAsh, show j + 1 + 0 + n = j + 1 + (n + 1) - 1 by omega]; exact hd)
      exact ⟨_, this⟩
    obtain ⟨r, hr⟩ := hok
    rw [hstep, hr]
    simp only [Except.map]
    show Runs t orc h0 n0 _ (Heap.npEmpty _ _ _) s
    refine Runs.npEmpty hh hn ha fun ho => ?_
    have h1 := hh.alloc (hu0 _ hn) (List.replicate c.info.shape.prod none)
    refine Runs.npEmpty h1 (by simp; omega) (by simpa using ha.succ ho) fun ho2 => ?_
    have h2 := h1.alloc (hu0 _ (by simp; omega)) (List.replicate c.info.shape.prod none)
    simp only [setCells_next, bump_next] at ho2 h2 ⊢
    set cA : Ptr := (t, s.next) with hcA
    set cD : Ptr := (t, s.next + 1) with hcD
    have hne : cA ≠ cD := by simp [hcA, hcD]
    set s2 := ((s.bump.setCells cA (List.replicate c.info.shape.prod none)).bump.setCells
      cD (List.replicate c.info.shape.prod none)) with hs2
    have hn2 : s2.next = s.next + 2 := rfl
    have a2 : AllOk orc n0 s2.next := by
      rw [hn2]; exact (ha.succ ho).succ ho2
    have hu := hh.unused hn hu0
    have hs2k : ∀ Q, Q ≠ cA → Q ≠ cD → s2.heap Q = s.heap Q := by
      intro Q hQ1 hQ2
      rw [hs2, setCells_ne hQ2]
      show (s.bump.setCells cA _).heap Q = _
      rw [setCells_ne hQ1]
      rfl
    have hxb : x.blk ≠ some cA ∧ x.blk ≠ some cD := by
      obtain ⟨b, rfl, k, hb⟩ := hx
      refine ⟨?_, ?_⟩ <;> rintro ⟨⟩
      · rw [hu _ le_rfl] at hb; cases hb
      · rw [hu _ (by omega)] at hb; cases hb
    have hxk : ∀ s' : St (Val R M), (∀ Q, Q ≠ cA → Q ≠ cD → s'.heap Q = s.heap Q) →
        MemAt s'.heap x c := by
      intro s' hk
      obtain ⟨b, rfl, k, hb⟩ := hx
      exact ⟨b, rfl, k, by rw [hk b (by simpa using hxb.1) (by simpa using hxb.2), hb]⟩
    have lop : ∀ approx N', n0 ≤ N' → LineOp t orc h0 N' m m
        (atrous (filt wl false (!approx)) (2 ^ (i - 1))) (kernel q (.swt i) approx (some w)) := by
      intro approx N' hN'
      exact lineOp_swt hw ok hX hi hd1 (hor1.imp id fun h k hk => h k (by omega)) approx
    have hglen : ∀ hi' (l : List M), l.length = m →
        (atrous (filt wl false hi') (2 ^ (i - 1)) l).length = m := by
      intro hi' l hl
      rw [atrous_length, hl]
    -- the first call
    obtain ⟨rc, s3, e3, n3, h3⟩ := run_downcoefAxis (t := t) (orc := orc) (s := s2) (p := cA)
      (approx := true) (tr := .swt i) (n := m) (lop true _ (by omega)) (hglen _) hX
      (h2.unused (by omega) hu0) (fun _ => (h2.mine cA (by simp)).2) (h2.keeps (by simp))
      (hxk s2 hs2k) hxb.1 hc hax
      (fun j _ => run_downcoefCheck (hw.ext fun r b hr => (h2.keeps (p := cA) (by simp) r b hr).1)
        (tr := .swt i) (n := m) rfl hax _ j) (c0 := List.replicate c.info.shape.prod none)
      (by rw [hs2, setCells_ne hne]; exact setCells_self) (by rw [hset]; simp)
    rw [hset] at e3
    refine Runs.step e3 ?_
    rcases h3 with ⟨rfl, k3, a3⟩ | ⟨rfl, k3, kf, f1, f2, f3⟩
    swap
    · rw [if_pos (by decide)]
      exact Runs.failed (ps := cA :: cD :: ps) ((h2.perm (List.Perm.swap _ _ _)).of_heap k3 n3)
        (by omega) (Or.inr rfl) ⟨kf, by omega, f2, f3⟩
    rw [if_neg (by omega)]
    have h3 := (h2.setCells (p := cA) (by simp) (cellsM (c.along axis m
      (atrous (filt wl false (!true)) (2 ^ (i - 1)))).data)).of_heap k3 n3
    -- the second call
    obtain ⟨rc, s4, e4, n4, h4⟩ := run_downcoefAxis (t := t) (orc := orc) (s := s3) (p := cD)
      (approx := false) (tr := .swt i) (n := m) (lop false _ (by omega)) (hglen _) hX
      (h3.unused (by omega) hu0) (fun _ => (h3.mine cD (by simp)).2) (h3.keeps (by simp))
      (hxk s3 fun Q h1 h2 => by rw [k3, setCells_ne h1, hs2k Q h1 h2]) hxb.2 hc hax
      (fun j _ => run_downcoefCheck (hw.ext fun r b hr => (h3.keeps (p := cD) (by simp) r b hr).1)
        (tr := .swt i) (n := m) rfl hax _ j) (c0 := List.replicate c.info.shape.prod none)
      (by rw [k3, setCells_ne hne.symm, hs2]; exact setCells_self) (by rw [hset]; simp)
    rw [hset] at e4
    refine Runs.step e4 ?_
    rcases h4 with ⟨rfl, k4, a4⟩ | ⟨rfl, k4, kf, f1, f2, f3⟩
    swap
    · rw [if_pos (by decide)]
      exact Runs.failed (ps := cA :: cD :: ps) ((h3.perm (List.Perm.swap _ _ _)).of_heap k4 n4)
        (by omega) (Or.inr rfl) ⟨kf, by omega, f2, f3⟩
    rw [if_neg (by omega)]
    have h4 := ((h3.setCells (p := cD) (by simp) (cellsM (c.along axis m
      (atrous (filt wl false (!false)) (2 ^ (i - 1)))).data)).of_heap k4 n4).perm
        (List.Perm.swap _ _ _)
    have hAc : s4.heap cA = some ⟨false, cellsM A.data⟩ := by
      rw [k4, setCells_ne hne, k3, setCells_self]; rfl
    have hDc : s4.heap cD = some ⟨false, cellsM D.data⟩ := by
      rw [k4, setCells_self]; rfl
    have := ih (i + 1) ⟨some cA, 0⟩ A.toMem s4 (cA :: cD :: ps) (ret ++ [(A, D)]) (by omega)
      (by show 1 ≤ A.shape.getD axis 0; rw [hAsh]; exact hX)
      (by
        show _ ∣ A.shape.getD axis 0
        rw [hAsh, show i + 1 + n - 1 = i + (n + 1) - 1 by omega]; exact hd)
      (hor.imp (fun h => by omega) id) (by show axis < A.shape.length; rw [hAsh]; exact hax)
      A.toMem_ok h4 (by omega) (a2.trans (a3.trans a4)) ⟨cA, rfl, false, hAc⟩ (by
        rw [flatArrs_snoc]
        refine List.Forall₂.cons hAc (List.Forall₂.cons hDc ?_)
        rw [List.forall₂_iff_get] at hcs ⊢
        refine ⟨hcs.1, fun k hk1 hk2 => ?_⟩
        have hmem := hh.mine _ (List.get_mem ps ⟨k, hk1⟩)
        have z1 : ps.get ⟨k, hk1⟩ ≠ cA := by
          intro e; rw [e] at hmem; simp [hcA] at hmem
        have z2 : ps.get ⟨k, hk1⟩ ≠ cD := by
          intro e; rw [e] at hmem; simp [hcD] at hmem
        rw [k4, setCells_ne z2, k3, setCells_ne z1, hs2k _ z1 z2]
        exact hcs.2 k hk1 hk2)
    rw [hr] at this
    rw [show A.toMem.info = ⟨c.info.shape, cstrides c.info.shape⟩ by
      show (⟨A.shape, cstrides A.shape⟩ : Info) = _; rw [hAsh]] at this
    exact this

/-- `swt_axis`, if no allocation fails or there is only the first level. -/
theorem runs_swtAxis (hu : Unused t s.heap s.next) (hw : WaveletAt s.heap q w wl) (ok : wl.Ok)
    (hx : MemAt s.heap x c) (hc : c.Ok) (ha : axis < c.info.ndim) (level start_level : ℕ)
    (ho : start_level + level ≤ 1 ∨ ∀ k, s.next ≤ k → orc k = true) :
    Runs t orc s.heap s.next
      ((Pywt.swtAxisMem wl level start_level axis false c).map fun r => (swtArrays r).map (·.data))
      (swtAxisPy q (some w) level start_level axis x c.info) s := by
  have hh := Held.nil (t := t) s
  have err : ∀ {e : PyErr}, Runs t orc s.heap s.next (.error e) (raise e []) s := fun {e} =>
    Runs.raise (ps := []) hh le_rfl (AllOk.refl _)
  unfold swtAxisPy swtAxisMem
  rw [if_neg (show ¬ axis ≥ c.info.ndim by omega)]
  by_cases h1 : c.info.shape.getD axis 0 % 2 ≠ 0
  · rw [if_pos h1, if_pos h1]; exact err
  rw [if_neg h1, if_neg h1]
  by_cases h2 : c.info.shape.getD axis 0 < 1
  · rw [if_pos h2, if_pos h2]; exact err
  rw [if_neg h2, if_neg h2]
  by_cases h3 : level < 1
  · rw [if_pos h3, if_pos h3]; exact err
  rw [if_neg h3, if_neg h3]
  by_cases h4 : start_level ≥ swtMaxLevelC (c.info.shape.getD axis 0)
  · rw [if_pos h4, if_pos h4]; exact err
  rw [if_neg h4, if_neg h4]
  by_cases h5 : start_level + level > swtMaxLevelC (c.info.shape.getD axis 0)
  · rw [if_pos h5, if_pos h5]; exact err
  rw [if_neg h5, if_neg h5]
  have hd : 2 ^ (start_level + level) ∣ c.info.shape.getD axis 0 :=
    (le_swtMaxLevelC (by omega)).mp (by omega)
  have key := runs_swtAxisLoop (t := t) (orc := orc) (axis := axis) hu hw ok level (start_level + 1)
    x c s [] [] (by omega) (by omega) (by
      rw [show start_level + 1 + level - 1 = start_level + level by omega]; exact hd)
    (ho.imp (fun h => by omega) id) ha hc hh le_rfl (AllOk.refl _) hx List.Forall₂.nil
  cases hl : Pywt.swtAxisLoop wl axis level (start_level + 1) c [] with
  | error e => rw [hl] at key; exact key
  | ok r =>
    rw [hl] at key
    simp only [Py_bind_ok, Bool.false_eq_true, if_false]
    have e : flatArrs r = (swtArrays (.pairs r.reverse)).map (·.data) := by
      simp only [flatArrs, swtArrays, List.map_flatMap, List.map_cons, List.map_nil]
    simp only [Except.map] at key
    rw [e] at key
    exact key

end Swt

end Pywt.Heap
