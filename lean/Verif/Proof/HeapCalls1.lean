import Verif.Proof.HeapCalls

/-!
# `dwt`, `idwt` and `swt` of 1-D data on the heap
-/

set_option linter.unusedSectionVars false
set_option linter.unusedVariables false

namespace Pywt.Heap

open Spec

variable {R M : Type} [Ring R] [AddCommGroup M] [Module R M]
variable {t : ℕ} {orc : ℕ → Bool}

theorem over_full {V : Type} {c l : List V} (h : c.length = l.length) : over c 0 l = l := by
  simp [over, ← h]

section
variable [Nontrivial M] {s : St (Val R M)} {p w : Ptr} {n : ℕ} {c0 : List (Option (Val R M))}
  {q : Prec} {wl : Wavelet R} {x : Loc} {xl : List M} {h0 : Ptr → Option (Blk (Val R M))}
  {ps : List Ptr} {n0 : ℕ}

/-- `dec_a`, `dec_d` into a whole array. -/
theorem run_decAll (hp : s.heap p = some ⟨false, c0⟩) (hw : WaveletAt (s.erase p).heap q w wl)
    (ok : wl.Ok) (hi : Bool) (hx : HoldsM (s.erase p).heap x xl) {mode : Mode}
    (sig : SignalOk mode xl) (hn : n = coeffLen mode xl.length wl.dec_len) (hl : c0.length = n) :
    run t orc (dec q hi (some w) ⟨x, xl.length⟩ ⟨⟨some p, 0⟩, n⟩ mode) s =
      .ok (0, s.setCells p (cellsM (analysis mode (filt wl false hi) xl))) := by
  have := run_dec (t := t) (orc := orc) (c0 := c0) (o := 0) (erase_self s p) hw ok hi hx sig hn
    (by omega)
  rw [erase_setCells_same hp, over_full (by
    rw [cellsM_length, analysis_length, filt_length ok, hl, hn]), erase_setCells] at this
  exact this

/-- `swt_a`, `swt_d` into a whole array. -/
theorem run_swtDecAll (hp : s.heap p = some ⟨false, c0⟩) (hpe : p ≠ (t, s.next))
    (hu : s.heap (t, s.next) = none)
    (hw : WaveletAt (s.erase p).heap q w wl)
    (ok : wl.Ok) (hi : Bool) (hx : HoldsM (s.erase p).heap x xl) (hX : 1 ≤ xl.length) {level : ℕ}
    (hlv : 1 ≤ level) (hd : 2 ^ level ∣ xl.length) (hl : c0.length = xl.length) :
    run t orc (swtDec q hi (some w) ⟨x, xl.length⟩ ⟨⟨some p, 0⟩, xl.length⟩ level) s =
      if level = 1 then
        .ok (0, s.setCells p (cellsM (atrous (filt wl false hi) (2 ^ (level - 1)) xl)))
      else if orc s.next then
        .ok (0, s.bump.setCells p (cellsM (atrous (filt wl false hi) (2 ^ (level - 1)) xl)))
      else .ok (-3, s.bump) := by
  have hne : (t, s.next) ≠ p := fun h => hpe h.symm
  have := run_swtDec (t := t) (orc := orc) (c0 := c0) (o := 0) (erase_self s p)
    (by simpa using hpe) (by simpa [erase_ne s hne] using hu) hw ok hi hx hX hlv hd (by omega)
  have hb : (s.erase p).bump = s.bump.erase p := rfl
  rw [erase_setCells_same hp, erase_next, hb,
    erase_setCells_same (show s.bump.heap p = some ⟨false, c0⟩ from hp),
    over_full (by rw [cellsM_length, atrous_length, hl]),
    over_full (by rw [cellsM_length, atrous_length, hl]), erase_setCells, erase_setCells] at this
  refine Eq.trans this ?_
  split_ifs with h1
  · subst h1; rfl
  · rfl
  · rfl

theorem HoldsM.held (h : HoldsM h0 x xl) (hh : Held t h0 s ps) (hp : p ∈ ps) :
    HoldsM (s.erase p).heap x xl := h.ext (hh.ext hp)

/-- `dwt_single`. -/
theorem runs_dwtSingle (hu : Unused t s.heap s.next) (hw : WaveletAt s.heap q w wl) (ok : wl.Ok)
    (hx : HoldsM s.heap x xl) (mode : Mode) :
    Runs t orc s.heap s.next ((Pywt.dwt wl mode xl).map fun r => [r.1, r.2])
      (dwtSingle q (some w) mode ⟨x, xl.length⟩) s := by
  have hF : 2 ≤ wl.dec_len := ok.1
  have hh := Held.nil (t := t) s
  unfold dwtSingle
  refine Runs.step (run_decLen hw) ?_
  by_cases hs : SignalOk mode xl
  · have hx1 := hs.1
    have hs' := (signalOk_iff.mp hs).2
    have hpos := coeffLen_pos hx1 hF mode
    have e : dwtCoeffLen xl.length wl.dec_len mode = .ok (coeffLen mode xl.length wl.dec_len) := by
      unfold dwtCoeffLen
      rw [if_neg (by omega), if_neg (by omega), dwtBufferLength_eq hx1 (by omega)]
    rw [dwt_ok ok hs, e]
    simp only [hs', Bool.false_eq_true, if_false]
    rw [if_neg (by omega)]
    refine Runs.npZeros hh le_rfl (AllOk.refl _) fun ho => ?_
    have h1 := hh.alloc (hu _ le_rfl)
      (cellsM (zeros (M := M) (coeffLen mode xl.length wl.dec_len)))
    refine Runs.npZeros h1 (by simp) (by simpa using (AllOk.refl _).succ ho) fun ho2 => ?_
    have h2 := h1.alloc (hu _ (by simp))
      (cellsM (zeros (M := M) (coeffLen mode xl.length wl.dec_len)))
    simp only [setCells_next, bump_next] at ho2 h2 ⊢
    set cA : Ptr := (t, s.next) with hcA
    set cD : Ptr := (t, s.next + 1) with hcD
    have hne : cA ≠ cD := by simp [hcA, hcD]
    set s2 := ((s.bump.setCells cA (cellsM (zeros (coeffLen mode xl.length wl.dec_len)))).bump.setCells
      cD (cellsM (zeros (coeffLen mode xl.length wl.dec_len)))) with hs2
    refine Runs.step (run_decAll (c0 := cellsM (zeros (coeffLen mode xl.length wl.dec_len)))
      (by rw [hs2, setCells_ne hne]; exact setCells_self) (hw.ext (h2.ext (by simp))) ok false
      (hx.ext (h2.ext (by simp))) hs rfl (by simp)) ?_
    have h3 := h2.setCells (p := cA) (by simp) (cellsM (analysis mode (filt wl false false) xl))
    refine Runs.step (run_decAll (c0 := cellsM (zeros (coeffLen mode xl.length wl.dec_len)))
      (by rw [setCells_ne hne.symm, hs2]; exact setCells_self) (hw.ext (h3.ext (by simp))) ok true
      (hx.ext (h3.ext (by simp))) hs rfl (by simp)) ?_
    have h4 := h3.setCells (p := cD) (by simp) (cellsM (analysis mode (filt wl false true) xl))
    rw [if_neg (by omega)]
    refine Runs.ret (h4.perm (List.Perm.swap _ _ _)) (by simp [hs2]; omega) ?_ ?_
    · simp only [hs2, setCells_next, bump_next]
      exact ((AllOk.refl _).succ ho).succ ho2
    · refine List.Forall₂.cons ?_ (List.Forall₂.cons setCells_self List.Forall₂.nil)
      rw [setCells_ne hne]
      exact setCells_self
  · rw [dwt_err ok hs]
    have key : ∀ m, dwtCoeffLen xl.length wl.dec_len mode = .ok m → ¬ m < 1 →
        tooShort xl.length mode = true := by
      intro m hm _
      unfold dwtCoeffLen at hm
      by_cases h0 : xl.length < 1
      · rw [if_pos h0] at hm; cases hm
      · by_contra h
        rw [Bool.not_eq_true] at h
        exact hs (signalOk_iff.mpr ⟨by rw [← List.length_pos_iff]; omega, h⟩)
    have key2 : ∀ m, dwtCoeffLen xl.length wl.dec_len mode = .ok m → ¬ m < 1 := by
      intro m hm
      unfold dwtCoeffLen at hm
      by_cases h0 : xl.length < 1
      · rw [if_pos h0] at hm; cases hm
      · rw [if_neg h0, if_neg (by omega)] at hm
        have hpos := coeffLen_pos (show 1 ≤ xl.length by omega) hF mode
        rw [dwtBufferLength_eq (by omega) (by omega)] at hm
        cases hm; omega
    cases hm : dwtCoeffLen xl.length wl.dec_len mode with
    | error e =>
      have : e = .value := by
        unfold dwtCoeffLen at hm
        by_cases h0 : xl.length < 1
        · rw [if_pos h0] at hm; cases hm; rfl
        · rw [if_neg h0, if_neg (by omega)] at hm; cases hm
      subst this
      exact Runs.raise (ps := []) hh le_rfl (AllOk.refl _)
    | ok m =>
      simp only [key m hm (key2 m hm), if_true]
      rw [if_neg (key2 m hm)]
      exact Runs.raise (ps := []) hh le_rfl (AllOk.refl _)

/-- `idwt_single`. -/
theorem runs_idwtSingle (hu : Unused t s.heap s.next) (hw : WaveletAt s.heap q w wl) (ok : wl.Ok)
    {a d : Loc} {al dl : List M} (ha : HoldsM s.heap a al) (hd : HoldsM s.heap d dl)
    (mode : Mode) :
    Runs t orc s.heap s.next ((Pywt.idwt wl mode (some al) (some dl)).map fun r => [r])
      (idwtSingle q (some w) mode ⟨a, al.length⟩ ⟨d, dl.length⟩) s := by
  have hF : 2 ≤ wl.dec_len := ok.1
  have hr : wl.rec_len = wl.dec_len := ok.2.2.2.1
  have hh := Held.nil (t := t) s
  unfold idwtSingle Pywt.idwt Pywt.idwtSingle
  by_cases hl : al.length = dl.length
  · simp only [ne_eq, hl, not_true, if_false, Py_throw]
    refine Runs.step (run_recLen hw) ?_
    cases hm : idwtBufferLength dl.length wl.rec_len mode with
    | none => exact Runs.raise (ps := []) hh le_rfl (AllOk.refl _)
    | some m =>
      by_cases hm1 : m < 1
      · simp only [hm1, if_true]
        exact Runs.raise (ps := []) hh le_rfl (AllOk.refl _)
      · simp only [hm1, if_false]
        have hlen : 1 ≤ synthLen mode al.length wl.rec_len ∧
            m = synthLen mode al.length wl.rec_len ∧ 1 ≤ al.length := by
          rw [hl]
          unfold idwtBufferLength at hm
          unfold synthLen
          cases mode <;> simp only [if_true, reduceCtorEq, if_false] at hm ⊢ <;>
            (try split_ifs at hm) <;> simp only [Option.some.injEq] at hm <;> omega
        obtain ⟨hlen, hmn, hA⟩ := hlen
        have hC := idwtC_eq ok hl hlen hmn
        rw [hC]
        refine Runs.npZeros hh le_rfl (AllOk.refl _) fun ho => ?_
        have h1 := hh.alloc (hu _ le_rfl) (cellsM (zeros (M := M) m))
        have hz : (cellsM (zeros m) : List (Option (Val R M))).length = m := by simp
        have := run_idwt (t := t) (orc := orc) (p := (t, s.next)) (s0 := s.bump)
          (c0 := cellsM (zeros m)) (o := 0) (n := m) (hu _ le_rfl) hw ok ha hd hA hl hlen hmn
          (by simp)
        rw [over_full rfl, over_full (by
          rw [cellsM_length, cellsM_length, zeros_length, synthesis_length]; exact hmn), hl] at this
        refine Runs.step this ?_
        rw [if_neg (by omega)]
        refine Runs.ret (ps := [(t, s.next)]) ?_ (by simp) ?_ ?_
        · have := h1.setCells (p := (t, s.next)) (by simp)
            (cellsM (synthesis mode wl.rec_lo wl.rec_hi al dl))
          rwa [setCells_setCells] at this
        · simpa using (AllOk.refl _).succ ho
        · exact List.Forall₂.cons setCells_self List.Forall₂.nil
  · simp only [ne_eq, hl, not_false_eq_true, if_true, Py_throw, Py_bind_error]
    exact Runs.raise (ps := []) hh le_rfl (AllOk.refl _)

/-- The arrays of `swt`'s result, in the order of the result. -/
def flatPairs (l : List (List M × List M)) : List (List M) := l.reverse.flatMap fun r => [r.1, r.2]

theorem flatPairs_snoc (l : List (List M × List M)) (a d : List M) :
    flatPairs (l ++ [(a, d)]) = a :: d :: flatPairs l := by
  simp [flatPairs]

theorem runs_swtLoop (hu0 : Unused t h0 n0) (hw : WaveletAt h0 q w wl) (ok : wl.Ok) (n : ℕ) :
    ∀ (i : ℕ) (x : Loc) (xl : List M) (s : St (Val R M)) (ps : List Ptr)
      (ret : List (List M × List M)),
      1 ≤ i → 1 ≤ xl.length → 2 ^ (i + n - 1) ∣ xl.length → Held t h0 s ps → n0 ≤ s.next →
      AllOk orc n0 s.next → HoldsM s.heap x xl →
      List.Forall₂ (fun p (l : List M) => s.heap p = some ⟨false, cellsM l⟩) ps (flatPairs ret) →
      Runs t orc h0 n0 ((Pywt.swtLoop wl n i xl ret).map flatPairs)
        (swtLoop q (some w) xl.length n i ⟨x, xl.length⟩ ps) s := by
  induction n with
  | zero =>
    intro i x xl s ps ret hi hX hd hh hn ha hx hc
    exact Runs.ret hh hn ha hc
  | succ n ih =>
    intro i x xl s ps ret hi hX hd hh hn ha hx hc
    have hd1 : 2 ^ i ∣ xl.length := (pow_dvd_pow 2 (by omega)).trans hd
    have hk : ∀ hi' : Bool, callC (Pywt.swtStep (filt wl false hi') xl (zeros xl.length) i) =
        .ok (atrous (filt wl false hi') (2 ^ (i - 1)) xl) := fun hi' =>
      swtStep_eq (by rw [filt_length ok]; exact ok.1) (by rw [filt_length ok]; exact ok.2.1) hX hi
        hd1 (by simp)
    set A := atrous (filt wl false false) (2 ^ (i - 1)) xl with hA
    set D := atrous (filt wl false true) (2 ^ (i - 1)) xl with hD
    have hstep : Pywt.swtLoop wl (n + 1) i xl ret = Pywt.swtLoop wl n (i + 1) A (ret ++ [(A, D)]) := by
      rw [Pywt.swtLoop]
      unfold swt_d swt_a swtBufferLength
      have h1 := hk true
      have h2 := hk false
      simp only [filt] at h1 h2
      rw [h1, h2]
      rfl
    have hAl : A.length = xl.length := by rw [hA, atrous_length]
    have hok : ∃ r, Pywt.swtLoop wl n (i + 1) A (ret ++ [(A, D)]) = .ok r := by
      have := swtLoop_eq ok i n 0 A (ret ++ [(A, D)]) (by omega) (by
        rw [hAl]; rw [show i + (n + 1) - 1 = i + 0 + n by omega] at hd; exact hd)
      exact ⟨_, this⟩
    obtain ⟨r, hr⟩ := hok
    rw [hstep]
    have ih' := ih (i + 1)
    rw [hr]
    simp only [Except.map]
    show Runs t orc h0 n0 _ (Heap.npZeros _ _ _) s
    -- the detail coefficients
    refine Runs.npZeros hh hn ha fun ho => ?_
    have hxn : ∀ (c : List (Option (Val R M))), HoldsM (s.bump.setCells (t, s.next) c).heap x xl := by
      intro c
      refine hx.ext (Ext.setCells (s := s.bump) ?_ c)
      exact hh.unused hn hu0 _ le_rfl
    have hxe : ∀ (c : List (Option (Val R M))),
        HoldsM ((s.bump.setCells (t, s.next) c).erase (t, s.next)).heap x xl := by
      intro c
      refine hx.ext fun p b hb => ?_
      have : p ≠ (t, s.next) := by
        rintro rfl; rw [hh.unused hn hu0 _ le_rfl] at hb; cases hb
      rw [erase_ne _ this, setCells_ne this]; exact hb
    set cD : Ptr := (t, s.next) with hcD
    have h1 := hh.alloc (hu0 _ hn) (cellsM (zeros (M := M) xl.length))
    set s1 := s.bump.setCells cD (cellsM (zeros (M := M) xl.length)) with hs1
    have hs1n : s1.next = s.next + 1 := rfl
    have ha1 : AllOk orc n0 s1.next := ha.succ ho
    have hu1 := h1.unused (by omega) hu0
    have hrun := run_swtDecAll (t := t) (orc := orc) (s := s1) (p := cD) setCells_self
      (by simp [hcD, hs1n]) (hu1 _ le_rfl) (hw.ext (h1.ext List.mem_cons_self)) ok true (hxe _) hX hi hd1
      (by simp)
    -- the state after the detail coefficients
    have hdet : ∀ s2 : St (Val R M), (s2 = s1.setCells cD (cellsM D) ∨
        s2 = s1.bump.setCells cD (cellsM D)) → AllOk orc n0 s2.next →
        Runs t orc h0 n0 (.ok (flatPairs r)) (Heap.npZeros xl.length (some cD :: ps.map some)
          fun cA => do
            let rc ← swtDec q false (some w) ⟨x, xl.length⟩ ⟨⟨some cA, 0⟩, xl.length⟩ i
            if rc < 0 then raise .runtime (some cA :: some cD :: ps.map some)
            else swtLoop q (some w) xl.length n (i + 1) ⟨⟨some cA, 0⟩, xl.length⟩ (cA :: cD :: ps))
          s2 := by
      intro s2 hs2 ha2
      have h2 : Held t h0 s2 (cD :: ps) := by
        rcases hs2 with rfl | rfl
        · exact h1.setCells List.mem_cons_self _
        · exact h1.bump.setCells List.mem_cons_self _
      have hn2 : n0 ≤ s2.next := by rcases hs2 with rfl | rfl <;> simp [hs1n] <;> omega
      have hDc : s2.heap cD = some ⟨false, cellsM D⟩ := by
        rcases hs2 with rfl | rfl <;> exact setCells_self
      have hrest : ∀ p, p ≠ cD → s2.heap p = s.heap p := by
        intro p hp
        rcases hs2 with rfl | rfl
        · rw [setCells_ne hp, hs1, setCells_ne hp]; rfl
        · rw [setCells_ne hp]; show s1.heap p = _; rw [hs1, setCells_ne hp]; rfl
      have hnin : cD ∉ ps := (List.nodup_cons.mp h2.nodup).1
      have hc2 : List.Forall₂ (fun p (l : List M) => s2.heap p = some ⟨false, cellsM l⟩) (cD :: ps)
          (D :: flatPairs ret) := by
        refine List.Forall₂.cons hDc ?_
        rw [List.forall₂_iff_get] at hc ⊢
        refine ⟨hc.1, fun k hk1 hk2 => ?_⟩
        rw [hrest _ (by intro he; exact hnin (he ▸ List.get_mem _ _))]
        exact hc.2 k hk1 hk2
      have hu2 := h2.unused hn2 hu0
      refine Runs.npZeros (ps := cD :: ps) h2 hn2 ha2 fun ho2 => ?_
      have h3 := h2.alloc (hu0 _ hn2) (cellsM (zeros (M := M) xl.length))
      set cA : Ptr := (t, s2.next) with hcA
      set s3 := s2.bump.setCells cA (cellsM (zeros (M := M) xl.length)) with hs3
      have hs3n : s3.next = s2.next + 1 := rfl
      have ha3 : AllOk orc n0 s3.next := ha2.succ ho2
      have hu3 := h3.unused (by omega) hu0
      have hxe2 : HoldsM (s3.erase cA).heap x xl := by
        refine hx.ext fun p b hb => ?_
        have hpA : p ≠ cA := by
          rintro rfl
          have := hrest cA (by
            have : s2.next ≠ s.next := by
              rcases hs2 with rfl | rfl <;> simp only [setCells_next, bump_next, hs1n] <;> omega
            rw [hcA, hcD]; intro he; exact this (congrArg Prod.snd he))
          rw [hb, hu2 _ le_rfl] at this; cases this
        have hpD : p ≠ cD := by
          rintro rfl; rw [hh.unused hn hu0 _ le_rfl] at hb; cases hb
        rw [erase_ne _ hpA, hs3, setCells_ne hpA]
        exact (hrest p hpD).trans hb
      have hrun2 := run_swtDecAll (t := t) (orc := orc) (s := s3) (p := cA) setCells_self
        (by simp [hcA, hs3n]) (hu3 _ le_rfl) (hw.ext (h3.ext List.mem_cons_self)) ok false hxe2 hX hi hd1
        (by simp)
      have hfin : ∀ s4 : St (Val R M), (s4 = s3.setCells cA (cellsM A) ∨
          s4 = s3.bump.setCells cA (cellsM A)) → AllOk orc n0 s4.next →
          Runs t orc h0 n0 (.ok (flatPairs r)) (swtLoop q (some w) xl.length n (i + 1)
            ⟨⟨some cA, 0⟩, xl.length⟩ (cA :: cD :: ps)) s4 := by
        intro s4 hs4 ha4
        have h4 : Held t h0 s4 (cA :: cD :: ps) := by
          rcases hs4 with rfl | rfl
          · exact h3.setCells List.mem_cons_self _
          · exact h3.bump.setCells List.mem_cons_self _
        have hAc : s4.heap cA = some ⟨false, cellsM A⟩ := by
          rcases hs4 with rfl | rfl <;> exact setCells_self
        have hrest4 : ∀ p, p ≠ cA → s4.heap p = s2.heap p := by
          intro p hp
          rcases hs4 with rfl | rfl
          · rw [setCells_ne hp, hs3, setCells_ne hp]; rfl
          · rw [setCells_ne hp]; show s3.heap p = _; rw [hs3, setCells_ne hp]; rfl
        have hnin4 : cA ∉ cD :: ps := (List.nodup_cons.mp h4.nodup).1
        have := ih' ⟨some cA, 0⟩ A s4 (cA :: cD :: ps) (ret ++ [(A, D)]) (by omega) (by omega)
          (by rw [hAl]; rw [show i + 1 + n - 1 = i + (n + 1) - 1 by omega]; exact hd) h4
          (by rcases hs4 with rfl | rfl <;> simp [hs3n] <;> omega) ha4
          (SamplesAt.holds ⟨false, hAc⟩) (by
            rw [flatPairs_snoc]
            refine List.Forall₂.cons hAc ?_
            rw [List.forall₂_iff_get] at hc2 ⊢
            refine ⟨hc2.1, fun k hk1 hk2 => ?_⟩
            rw [hrest4 _ (by intro he; exact hnin4 (he ▸ List.get_mem _ _))]
            exact hc2.2 k hk1 hk2)
        rw [hr, hAl] at this
        exact this
      by_cases h1' : i = 1
      · rw [if_pos h1'] at hrun2
        refine Runs.step hrun2 ?_
        rw [if_neg (by omega)]
        exact hfin _ (Or.inl rfl) ha3
      · rw [if_neg h1'] at hrun2
        by_cases ho3 : orc s3.next = true
        · rw [if_pos ho3] at hrun2
          refine Runs.step hrun2 ?_
          rw [if_neg (by omega)]
          exact hfin _ (Or.inr rfl) (ha3.succ ho3)
        · rw [if_neg ho3] at hrun2
          refine Runs.step hrun2 ?_
          rw [if_pos (by omega)]
          exact Runs.failed (ps := cA :: cD :: ps) h3.bump (by simp [hs3n]; omega) (Or.inr rfl)
            ⟨s3.next, by omega, by simp, by simpa using ho3⟩
    by_cases h1' : i = 1
    · rw [if_pos h1'] at hrun
      refine Runs.step hrun ?_
      rw [if_neg (by omega)]
      exact hdet _ (Or.inl rfl) ha1
    · rw [if_neg h1'] at hrun
      by_cases ho2 : orc s1.next = true
      · rw [if_pos ho2] at hrun
        refine Runs.step hrun ?_
        rw [if_neg (by omega)]
        exact hdet _ (Or.inr rfl) (ha1.succ ho2)
      · rw [if_neg ho2] at hrun
        refine Runs.step hrun ?_
        rw [if_pos (by omega)]
        exact Runs.failed (ps := cD :: ps) h1.bump (by simp [hs1n]; omega) (Or.inr rfl)
          ⟨s1.next, by omega, by simp, by simpa using ho2⟩

/-- `swt` of 1-D data. -/
theorem runs_swt (hu : Unused t s.heap s.next) (hw : WaveletAt s.heap q w wl) (ok : wl.Ok)
    (hx : HoldsM s.heap x xl) (level start_level : ℕ) :
    Runs t orc s.heap s.next ((Pywt.swtC wl xl level start_level false).map swtArrays)
      (swt q (some w) level start_level ⟨x, xl.length⟩) s := by
  have hh := Held.nil (t := t) s
  have err : ∀ {e : PyErr}, Runs t orc s.heap s.next (.error e) (raise e []) s := fun {e} =>
    Runs.raise (ps := []) hh le_rfl (AllOk.refl _)
  unfold swt swtC
  by_cases h1 : xl.length % 2 ≠ 0
  · rw [if_pos h1, if_pos h1]; exact err
  rw [if_neg h1, if_neg h1]
  by_cases h2 : xl.length < 1
  · rw [if_pos h2, if_pos h2]; exact err
  rw [if_neg h2, if_neg h2]
  by_cases h3 : level < 1
  · rw [if_pos h3, if_pos h3]; exact err
  rw [if_neg h3, if_neg h3]
  by_cases h4 : start_level ≥ swtMaxLevelC xl.length
  · rw [if_pos h4, if_pos h4]; exact err
  rw [if_neg h4, if_neg h4]
  by_cases h5 : start_level + level > swtMaxLevelC xl.length
  · rw [if_pos h5, if_pos h5]; exact err
  rw [if_neg h5, if_neg h5]
  have h6 : ¬ swtBufferLength xl.length < 1 := h2
  rw [if_neg h6, if_neg h6]
  have hd : 2 ^ (start_level + level) ∣ xl.length := (le_swtMaxLevelC (by omega)).mp (by omega)
  have key := runs_swtLoop (t := t) (orc := orc) hu hw ok level (start_level + 1) x xl s [] []
    (by omega) (by omega) (by
      rw [show start_level + 1 + level - 1 = start_level + level by omega]; exact hd) hh le_rfl
    (AllOk.refl _) hx List.Forall₂.nil
  cases hl : Pywt.swtLoop wl level (start_level + 1) xl [] with
  | error e => rw [hl] at key; exact key
  | ok r => rw [hl] at key; simp only [Py_bind_ok, Bool.false_eq_true, if_false]; exact key

end

end Pywt.Heap
