import Verif.Proof.SimPy
import Verif.Model.MultilevelN

/-!
# Lock-step simulation of the transforms along an axis
-/

set_option linter.unusedSectionVars false
set_option autoImplicit false

namespace Pywt.Sim

open Finset

variable {R R' M M' : Type} [Zero R] [Zero M] [Add M] [Neg M] [Sub M] [SMul ℕ M] [SMul R M]
  [Zero R'] [Zero M'] [Add M'] [Neg M'] [Sub M'] [SMul ℕ M'] [SMul R' M']

theorem Rel.throw {α β : Type} {Q : α → β → Prop} {p : C α} {e : CErr} : Rel Q p (.error e : C β) := by
  intro b hb
  cases hb

theorem Rel.foldlM {σ σ' ι : Type} {I : σ → σ' → Prop} {f : σ → ι → C σ} {f' : σ' → ι → C σ'}
    (hf : ∀ i s s', I s s' → Rel I (f s i) (f' s' i)) :
    ∀ (l : List ι) (s : σ) (s' : σ'), I s s' → Rel I (l.foldlM f s) (l.foldlM f' s')
  | [], _, _, h => Rel.pure h
  | i :: l, s, s', h => by
    rw [List.foldlM_cons, List.foldlM_cons]
    exact Rel.bind (hf i s s' h) fun a b hab => Rel.foldlM hf l a b hab

theorem Rel.mapM {α β ι : Type} {Q : α → β → Prop} {f : ι → C α} {f' : ι → C β}
    (hf : ∀ i, Rel Q (f i) (f' i)) :
    ∀ l : List ι, Rel (List.Forall₂ Q) (l.mapM f) (l.mapM f')
  | [] => by rw [List.mapM_nil, List.mapM_nil]; exact Rel.pure .nil
  | i :: l => by
    rw [List.mapM_cons, List.mapM_cons]
    exact Rel.bind (hf i) fun a b hab => Rel.bind (Rel.mapM hf l) fun as bs h => Rel.pure (.cons hab h)

section
variable {P : M → M' → Prop}

theorem rdZ_rel {x : List M} {x' : List M'} (hx : List.Forall₂ P x x') (p : Int) :
    Rel P (rdZ x p) (rdZ x' p) := by
  unfold rdZ
  exact Rel.ite (fun _ => Rel.rd hx _) fun _ => Rel.throw

theorem wrZ_rel {x : List M} {x' : List M'} (hx : List.Forall₂ P x x') (p : Int) {v : M} {v' : M'} (h : P v v') :
    Rel (List.Forall₂ P) (wrZ x p v) (wrZ x' p v') := by
  unfold wrZ
  exact Rel.ite (fun _ => Rel.wr hx _ h) fun _ => Rel.throw

theorem readRow_rel {x : List M} {x' : List M'} (hx : List.Forall₂ P x x') (off stride : Int) (n : ℕ) :
    Rel (List.Forall₂ P) (readRow x off stride n) (readRow x' off stride n) :=
  Rel.mapM (fun _ => rdZ_rel hx _) _

theorem writeRow_rel {x : List M} {x' : List M'} (hx : List.Forall₂ P x x') (off stride : Int) (n : ℕ) {r : List M}
    {r' : List M'} (hr : List.Forall₂ P r r') :
    Rel (List.Forall₂ P) (writeRow x off stride n r) (writeRow x' off stride n r') :=
  Rel.foldlM (fun j _ _ h => Rel.bind (Rel.rd hr j) fun _ _ hv => wrZ_rel h (off + j * stride) hv) _ _ _ hx

theorem rowLoop_rel {oi : Info} {axis : ℕ} {body : ℕ → List M → C (List M)} {body' : ℕ → List M' → C (List M')}
    (hb : ∀ i r r', List.Forall₂ P r r' → Rel (List.Forall₂ P) (body i r) (body' i r')) {out : List M}
    {out' : List M'} (ho : List.Forall₂ P out out') :
    Rel (List.Forall₂ P) (rowLoop oi axis body out) (rowLoop oi axis body' out') := by
  unfold rowLoop
  refine Rel.foldlM (fun i s s' h => ?_) _ _ _ ho
  exact Rel.bind (readRow_rel h _ _ _) fun r r' hr => Rel.bind (hb i r r' hr) fun q q' hq =>
    writeRow_rel h _ _ _ hq

/-- Arrays of the same layout with related contents. -/
structure MemRel (P : M → M' → Prop) (c : Mem M) (c' : Mem M') : Prop where
  data : List.Forall₂ P c.data c'.data
  base : c.base = c'.base
  info : c.info = c'.info

/-- Arrays of the same shape with related contents. -/
structure ArrRel (P : M → M' → Prop) (a : Arr M) (a' : Arr M') : Prop where
  shape : a.shape = a'.shape
  data : List.Forall₂ P a.data a'.data

theorem ArrRel.mono {Q : M → M' → Prop} (h : ∀ a b, P a b → Q a b) {a : Arr M} {a' : Arr M'} (ha : ArrRel P a a') :
    ArrRel Q a a' := ⟨ha.shape, ha.data.imp h⟩

theorem ArrRel.ndim {a : Arr M} {a' : Arr M'} (ha : ArrRel P a a') : a.ndim = a'.ndim := by
  unfold Arr.ndim; rw [ha.shape]

theorem ArrRel.toMem {a : Arr M} {a' : Arr M'} (ha : ArrRel P a a') : MemRel P a.toMem a'.toMem :=
  ⟨ha.data, rfl, by unfold Arr.toMem; rw [ha.shape]⟩

theorem toArr_rel {shape : List ℕ} {d : List M} {d' : List M'} (h : List.Forall₂ P d d') :
    PRel (ArrRel P) (toArr shape d) (toArr shape d') := by
  intro b hb
  unfold toArr at hb ⊢
  split at hb
  · next hl =>
    cases hb
    have hl' : d.length = shape.prod := by rw [h.length_eq]; exact hl
    exact ⟨_, dif_pos hl', rfl, h⟩
  · cases hb

end

/-- One decomposition filter in every line of an array. -/
theorem downcoefAxisCall_rel {L : Link M M'} {w : Wavelet R} {w' : Wavelet R'} (hlen : w.dec_len = w'.dec_len)
    {approx : Bool} {mode : Mode} (n : ℕ) (h0 : L.S 0 (range n) 0 0)
    (hk : ∀ (x : List M) (x' : List M') (out : List M) (out' : List M'), List.Forall₂ L.X x x' →
      List.Forall₂ (L.S 0 (range n)) out out' →
      Rel (Option.Rel (List.Forall₂ (L.S 0 (range n)))) (Transform.kernel (.dwt mode) w approx x out)
        (Transform.kernel (.dwt mode) w' approx x' out')) {axis : ℕ} {c : Mem M} {c' : Mem M'} (hc : MemRel L.X c c')
    {shape : List ℕ} :
    PRel (ArrRel (L.S 0 (range n))) (downcoefAxisCall w axis approx (.dwt mode) c shape)
      (downcoefAxisCall w' axis approx (.dwt mode) c' shape) := by
  unfold downcoefAxisCall
  rw [hc.base, hc.info]
  refine PRel.bind (PRel.callC ?_) fun a b hab => toArr_rel hab
  unfold downcoefAxis
  rw [hlen]
  refine Rel.ite (fun _ => Rel.pure .none) fun _ => ?_
  refine Rel.ite (fun _ => Rel.pure .none) fun _ => ?_
  refine Rel.ite (fun _ => Rel.pure .none) fun _ => ?_
  refine Rel.bind (rowLoop_rel (P := L.S 0 (range n)) (fun i r r' hr => ?_) (forall₂_zeros h0 _)) fun a b hab =>
    Rel.pure (.some hab)
  unfold downcoefRow
  refine Rel.bind (readRow_rel hc.data _ _ _) fun q q' hq => Rel.bind (hk q q' r r' hq hr) fun o o' ho => ?_
  cases ho with
  | none => exact Rel.pure hr
  | some ho => exact Rel.pure ho

/-- `dwt_axis` in two arithmetics. -/
theorem dwtAxis_rel {La Ld : Link M M'} {w : Wavelet R} {w' : Wavelet R'}
    (ha : Taps La 0 w.dec_lo w'.dec_lo) (hd : Taps Ld 0 w.dec_hi w'.dec_hi) {x : Arr M} {x' : Arr M'}
    (hxa : ArrRel La.X x x') (hxd : ArrRel Ld.X x x') {mode : Mode} {axis : ℕ}
    (hea : mode = .smooth ∨ mode = .antireflect → Nonempty (Edge La w'.dec_lo.length))
    (hed : mode = .smooth ∨ mode = .antireflect → Nonempty (Edge Ld w'.dec_hi.length)) :
    PRel (fun r r' => ArrRel (La.S 0 (range w'.dec_lo.length)) r.1 r'.1 ∧
        ArrRel (Ld.S 0 (range w'.dec_hi.length)) r.2 r'.2)
      (dwtAxis w mode axis x) (dwtAxis w' mode axis x') := by
  have hlen : w.dec_len = w'.dec_len := ha.len
  unfold dwtAxis dwtAxisMem
  rw [hxa.toMem.info, hlen]
  by_cases h1 : axis ≥ x'.toMem.info.ndim
  · rw [if_pos h1, if_pos h1]; exact PRel.throw
  rw [if_neg h1, if_neg h1]
  by_cases h2 : tooShort (x'.toMem.info.shape.getD axis 0) mode = true
  · rw [if_pos h2, if_pos h2]; exact PRel.throw
  rw [if_neg h2, if_neg h2]
  refine PRel.bind (Q := fun a b => a = b) (fun b hb => ⟨b, hb, rfl⟩) ?_
  rintro n _ rfl
  refine PRel.bind (downcoefAxisCall_rel hlen _ (zero_full La ha) (fun q q' o o' hq ho => ?_) hxa.toMem) fun a b hab => ?_
  · simp only [Transform.kernel, dec_a, hlen, hq.length_eq]
    exact decStep_rel ha hq hea ho _
  refine PRel.bind (downcoefAxisCall_rel hlen _ (zero_full Ld hd) (fun q q' o o' hq ho => ?_) hxd.toMem) fun c d hcd => ?_
  · simp only [Transform.kernel, dec_d, hlen, hq.length_eq]
    exact decStep_rel hd hq hed ho _
  exact PRel.ok ⟨hab, hcd⟩

/-- One of the two calls of `upsampling_convolution_valid_sf` for a line of the output. -/
theorem idwtAxisPart_rel {L : Link M M'} {off k : ℕ} {base : Finset ℕ} {f : List R} {f' : List R'}
    (hf : Pass L off base f f') (hk : k + 1 ≤ L.kmax) {axis : ℕ} {oi : Info} {mode : Mode} {c : Option (Mem M)}
    {c' : Option (Mem M')} (hc : Option.Rel (MemRel L.X) c c') {i : ℕ} {r : List M} {r' : List M'}
    (hr : List.Forall₂ (L.S k base) r r') :
    Rel (List.Forall₂ (L.S (k + 1) (fullTaps off f'.length base))) (idwtAxisPart f axis oi mode c i r)
      (idwtAxisPart f' axis oi mode c' i r') := by
  have hr' : List.Forall₂ (L.S (k + 1) (fullTaps off f'.length base)) r r' :=
    hr.imp fun _ _ h => L.mono Finset.subset_union_left (full_all hf) (Nat.le_succ _) hk h
  cases hc with
  | none => exact Rel.pure hr'
  | some hc =>
    simp only [idwtAxisPart]
    rw [hc.base, hc.info]
    refine Rel.bind (readRow_rel hc.data _ _ _) fun q q' hq => ?_
    rw [hq.length_eq, hf.taps.len]
    refine Rel.bind (Rel.usConv hf hq hk hr) fun o o' ho => ?_
    cases ho with
    | none => exact Rel.pure hr'
    | some ho => exact Rel.pure ho

theorem zero_both {L : Link M M'} {w : Wavelet R} {w' : Wavelet R'} (h : RecTaps L w w') :
    L.S 2 (bothTaps w'.rec_lo.length w'.rec_hi.length) 0 0 :=
  L.mono (empty_subset _) (full_all h.passHi) (Nat.zero_le _) h.kmax L.zero

theorem idwtRow_rel {L : Link M M'} {w : Wavelet R} {w' : Wavelet R'} (h : RecTaps L w w') {axis : ℕ} {oi : Info}
    {mode : Mode} {a d : Option (Mem M)} {a' d' : Option (Mem M')} (ha : Option.Rel (MemRel L.X) a a')
    (hd : Option.Rel (MemRel L.X) d d') (i : ℕ) (r : List M) (r' : List M') (hr : r.length = r'.length) :
    Rel (List.Forall₂ (L.S 2 (bothTaps w'.rec_lo.length w'.rec_hi.length))) (idwtRow w axis oi mode a d i r)
      (idwtRow w' axis oi mode a' d' i r') := by
  unfold idwtRow
  rw [hr]
  refine Rel.bind (idwtAxisPart_rel h.passLo (by have := h.kmax; omega) ha (forall₂_zeros L.zero _))
    fun o o' ho => ?_
  exact idwtAxisPart_rel h.passHi h.kmax hd ho

theorem haveOk_rel {P : M → M' → Prop} {c : Option (Mem M)} {c' : Option (Mem M')} (h : Option.Rel (MemRel P) c c')
    (p : Info → Bool) : haveOk c p = haveOk c' p := by
  cases h with
  | none => rfl
  | some h => simp only [haveOk, h.info]

/-- C `idwt_axis` in two arithmetics. -/
theorem idwtAxisC_rel {L : Link M M'} {w : Wavelet R} {w' : Wavelet R'} (h : RecTaps L w w') {axis : ℕ} {oi : Info}
    {mode : Mode} {a d : Option (Mem M)} {a' d' : Option (Mem M')} (ha : Option.Rel (MemRel L.X) a a')
    (hd : Option.Rel (MemRel L.X) d d') (n : ℕ) :
    Rel (Option.Rel (List.Forall₂ (L.S 2 (bothTaps w'.rec_lo.length w'.rec_hi.length))))
      (idwtAxisC w axis mode a d (zeros n) oi) (idwtAxisC w' axis mode a' d' (zeros n) oi) := by
  unfold idwtAxisC
  have hl : w.rec_len = w'.rec_len := h.lo.len
  have hloop := rowLoop_rel (oi := oi) (axis := axis) (fun i r r' hr => idwtRow_rel h (axis := axis) (oi := oi)
    (mode := mode) ha hd i r r' hr.length_eq) (forall₂_zeros (zero_both h) n)
  simp only [haveOk_rel ha, haveOk_rel hd, hl]
  have hrest : ∀ (m : ℕ) (q : ℕ → Bool),
      Rel (Option.Rel (List.Forall₂ (L.S 2 (bothTaps w'.rec_lo.length w'.rec_hi.length))))
        (if idwtBufferLength m w'.rec_len mode ≠ some (oi.shape.getD axis 0) then pure none
            else if (List.range oi.ndim).any q then pure none
            else do
              let r ← rowLoop oi axis (idwtRow w axis oi mode a d) (zeros n)
              pure (some r))
        (if idwtBufferLength m w'.rec_len mode ≠ some (oi.shape.getD axis 0) then pure none
            else if (List.range oi.ndim).any q then pure none
            else do
              let r ← rowLoop oi axis (idwtRow w' axis oi mode a' d') (zeros n)
              pure (some r)) := by
    intro m q
    refine Rel.ite (fun _ => Rel.pure .none) fun _ => ?_
    refine Rel.ite (fun _ => Rel.pure .none) fun _ => ?_
    exact Rel.bind hloop fun a b hab => Rel.pure (.some hab)
  refine Rel.ite (fun _ => Rel.pure .none) fun _ => ?_
  refine Rel.ite (fun _ => Rel.pure .none) fun _ => ?_
  cases ha with
  | none => cases hd with
    | none => exact Rel.pure .none
    | some hd => simp only [hd.info]; exact hrest _ _
  | @some a a' ha => cases hd with
    | none => simp only [ha.info]; exact hrest _ _
    | @some d d' hd =>
      simp only [ha.info, hd.info]
      by_cases hs : a'.info.shape.getD axis 0 = d'.info.shape.getD axis 0
      · simp only [hs, ne_eq, not_true_eq_false, if_false]; exact hrest _ _
      · simp only [hs, ne_eq, not_false_eq_true, if_true]; exact Rel.pure .none

theorem or_rel {α β : Type} {P : α → β → Prop} {a b : Option α} {a' b' : Option β} (ha : Option.Rel P a a')
    (hb : Option.Rel P b b') : Option.Rel P (a <|> b) (a' <|> b') := by
  cases ha with
  | none => simpa using hb
  | some h => simpa using Option.Rel.some h

theorem map_toMem_rel {P : M → M' → Prop} {a : Option (Arr M)} {a' : Option (Arr M')} (h : Option.Rel (ArrRel P) a a') :
    Option.Rel (MemRel P) (a.map Arr.toMem) (a'.map Arr.toMem) := by
  cases h with
  | none => exact .none
  | some h => exact .some h.toMem

/-- `idwt_axis` in two arithmetics; `none` is `None`. -/
theorem idwtAxis_rel {L : Link M M'} {w : Wavelet R} {w' : Wavelet R'} (h : RecTaps L w w') {axis : ℕ}
    {mode : Mode} {a d : Option (Arr M)} {a' d' : Option (Arr M')} (ha : Option.Rel (ArrRel L.X) a a')
    (hd : Option.Rel (ArrRel L.X) d d') :
    PRel (Option.Rel (ArrRel (L.S 2 (bothTaps w'.rec_lo.length w'.rec_hi.length))))
      (idwtAxis w mode axis a d) (idwtAxis w' mode axis a' d') := by
  unfold idwtAxis idwtAxisMem
  have hl : w.rec_len = w'.rec_len := h.lo.len
  have hma := map_toMem_rel ha
  have hmd := map_toMem_rel hd
  have hor := or_rel hma hmd
  generalize a.map Arr.toMem = A at *
  generalize a'.map Arr.toMem = A' at *
  generalize d.map Arr.toMem = D at *
  generalize d'.map Arr.toMem = D' at *
  generalize (A <|> D) = E at *
  generalize (A' <|> D') = E' at *
  cases hor with
  | none => exact PRel.ok .none
  | @some c c' hc =>
    simp only [hc.info, hl]
    refine PRel.ite (fun _ => PRel.throw) fun _ => ?_
    split
    · exact PRel.throw
    · refine PRel.bind (PRel.callC (idwtAxisC_rel h hma hmd _)) fun r r' hr => ?_
      exact PRel.bind (toArr_rel hr) fun s s' hs => PRel.ok (.some hs)

end Pywt.Sim
