import Verif.Proof.SimUp
import Verif.Model.Multilevel
import Verif.Proof.Dwt

/-!
# Lock-step simulation of the transforms in two arithmetics
-/

set_option linter.unusedSectionVars false
set_option autoImplicit false

namespace Pywt.Sim

open Finset

variable {R R' M M' : Type} [Zero R] [Zero M] [Add M] [Neg M] [Sub M] [SMul ℕ M] [SMul R M]
  [Zero R'] [Zero M'] [Add M'] [Neg M'] [Sub M'] [SMul ℕ M'] [SMul R' M']

/-- If the second run succeeds, so does the first one, with a result related by `Q`. -/
def PRel {α β : Type} (Q : α → β → Prop) (p : Py α) (p' : Py β) : Prop :=
  ∀ b, p' = .ok b → ∃ a, p = .ok a ∧ Q a b

theorem PRel.ok {α β : Type} {Q : α → β → Prop} {a : α} {b : β} (h : Q a b) :
    PRel Q (.ok a) (.ok b) := by
  intro b' hb
  cases hb
  exact ⟨a, rfl, h⟩

theorem PRel.throw {α β : Type} {Q : α → β → Prop} {p : Py α} {e : PyErr} :
    PRel Q p (.error e : Py β) := by
  intro b hb
  cases hb

theorem PRel.bind {α β γ δ : Type} {Q : α → β → Prop} {P : γ → δ → Prop} {p : Py α} {p' : Py β}
    {k : α → Py γ} {k' : β → Py δ} (h : PRel Q p p') (hk : ∀ a b, Q a b → PRel P (k a) (k' b)) :
    PRel P (p >>= k) (p' >>= k') := by
  intro d hd
  cases hp : p' with
  | error e => rw [hp] at hd; cases hd
  | ok b =>
    obtain ⟨a, ha, hq⟩ := h b hp
    rw [hp] at hd
    obtain ⟨c, hc, hpc⟩ := hk a b hq d hd
    exact ⟨c, by rw [ha]; exact hc, hpc⟩

theorem PRel.mono {α β : Type} {Q P : α → β → Prop} {p : Py α} {p' : Py β} (h : PRel Q p p')
    (hQ : ∀ a b, Q a b → P a b) : PRel P p p' := by
  intro b hb
  obtain ⟨a, ha, hq⟩ := h b hb
  exact ⟨a, ha, hQ _ _ hq⟩

theorem PRel.ite {α β : Type} {Q : α → β → Prop} {c : Prop} [Decidable c] {p q : Py α} {p' q' : Py β}
    (h1 : c → PRel Q p p') (h2 : ¬ c → PRel Q q q') :
    PRel Q (if c then p else q) (if c then p' else q') := by
  split
  · exact h1 ‹_›
  · exact h2 ‹_›

theorem PRel.callC {α β : Type} {Q : α → β → Prop} {c : C (Option α)} {c' : C (Option β)}
    (h : Rel (Option.Rel Q) c c') : PRel Q (Pywt.callC c) (Pywt.callC c') := by
  intro b hb
  unfold Pywt.callC at hb
  split at hb
  · cases hb
    obtain ⟨a, ha, hq⟩ := h _ rfl
    cases hq with
    | some hq => exact ⟨_, by rw [ha]; rfl, hq⟩
  · cases hb
  · cases hb

theorem forall₂_zeros {P : M → M' → Prop} (h : P 0 0) (n : ℕ) :
    List.Forall₂ P (zeros n) (zeros n) := by
  unfold zeros
  induction n with
  | zero => exact .nil
  | succ n ih => exact .cons h ih

/-- One decomposition filter. -/
theorem decStep_rel {L : Link M M'} {f : List R} {f' : List R'} (hf : Taps L 0 f f') {x : List M}
    {x' : List M'} (hx : List.Forall₂ L.X x x') {mode : Mode}
    (he : mode = .smooth ∨ mode = .antireflect → Nonempty (Edge L f'.length)) {out : List M}
    {out' : List M'} (ho : List.Forall₂ (L.S 0 (range f'.length)) out out') (n : ℕ) :
    Rel (Option.Rel (List.Forall₂ (L.S 0 (range f'.length)))) (decStep f n x out mode)
      (decStep f' n x' out' mode) := by
  unfold decStep
  rw [hx.length_eq, ho.length_eq, hf.len]
  refine Rel.ite (fun _ => Rel.pure .none) fun _ => ?_
  exact Rel.bind (Rel.dsConv hf hx he ho) fun a b hab => Rel.pure (.some hab)

theorem zero_full (L : Link M M') {f : List R} {f' : List R'} (hf : Taps L 0 f f') :
    L.S 0 (range f'.length) 0 0 :=
  L.mono (empty_subset _) (fun l hl => by simpa using hf.mem l (mem_range.mp hl)) le_rfl
    (Nat.zero_le _) L.zero

/-- `dwt` in two arithmetics. -/
theorem dwt_rel {La Ld : Link M M'} {w : Wavelet R} {w' : Wavelet R'}
    (ha : Taps La 0 w.dec_lo w'.dec_lo) (hd : Taps Ld 0 w.dec_hi w'.dec_hi) {x : List M} {x' : List M'}
    (hxa : List.Forall₂ La.X x x') (hxd : List.Forall₂ Ld.X x x') {mode : Mode}
    (hea : mode = .smooth ∨ mode = .antireflect → Nonempty (Edge La w'.dec_lo.length))
    (hed : mode = .smooth ∨ mode = .antireflect → Nonempty (Edge Ld w'.dec_hi.length)) :
    PRel (fun r r' => List.Forall₂ (La.S 0 (range w'.dec_lo.length)) r.1 r'.1 ∧
        List.Forall₂ (Ld.S 0 (range w'.dec_hi.length)) r.2 r'.2)
      (dwt w mode x) (dwt w' mode x') := by
  unfold dwt dwtSingle dwtCoeffLen dec_a dec_d Wavelet.dec_len
  rw [hxa.length_eq, ha.len]
  by_cases h1 : x'.length < 1
  · rw [if_pos h1]; exact PRel.throw
  by_cases h2 : w'.dec_lo.length < 1
  · rw [if_neg h1, if_pos h2]; exact PRel.throw
  rw [if_neg h1, if_neg h2]
  simp only [Py_bind_ok]
  by_cases h3 : dwtBufferLength x'.length w'.dec_lo.length mode < 1
  · rw [if_pos h3, if_pos h3]; exact PRel.throw
  rw [if_neg h3, if_neg h3]
  by_cases h4 : tooShort x'.length mode = true
  · rw [if_pos h4, if_pos h4]; exact PRel.throw
  rw [if_neg h4, if_neg h4]
  simp only [Py_pure]
  refine PRel.bind (PRel.callC (decStep_rel ha hxa hea (forall₂_zeros (zero_full La ha) _) _))
    fun a b hab => ?_
  refine PRel.bind (PRel.callC (decStep_rel hd hxd hed (forall₂_zeros (zero_full Ld hd) _) _))
    fun c d hcd => ?_
  exact PRel.ok ⟨hab, hcd⟩

/-- All taps of the two synthesis filters. -/
def bothTaps (F : ℕ) (G : ℕ) : Finset ℕ := fullTaps F G (fullTaps 0 F ∅)

/-- What `idwt` needs: the taps of `rec_hi` are numbered after those of `rec_lo`. -/
structure RecTaps (L : Link M M') (w : Wavelet R) (w' : Wavelet R') : Prop where
  lo : Taps L 0 w.rec_lo w'.rec_lo
  hi : Taps L w'.rec_lo.length w.rec_hi w'.rec_hi
  kmax : 2 ≤ L.kmax

theorem RecTaps.passLo {L : Link M M'} {w : Wavelet R} {w' : Wavelet R'} (h : RecTaps L w w') :
    Pass L 0 ∅ w.rec_lo w'.rec_lo := ⟨h.lo, empty_subset _, fun _ _ => by simp⟩

theorem RecTaps.passHi {L : Link M M'} {w : Wavelet R} {w' : Wavelet R'} (h : RecTaps L w w') :
    Pass L w'.rec_lo.length (fullTaps 0 w'.rec_lo.length ∅) w.rec_hi w'.rec_hi where
  taps := h.hi
  base_all := by
    intro l hl
    simp only [fullTaps, empty_union, mem_image, mem_range] at hl
    obtain ⟨a, ha, rfl⟩ := hl
    exact h.lo.mem a ha
  disj := by
    intro l hl hm
    simp only [fullTaps, empty_union, mem_image, mem_range] at hm
    omega

/-- C `idwt` in two arithmetics, both coefficient arrays given. -/
theorem idwtSingle_rel {L : Link M M'} {w : Wavelet R} {w' : Wavelet R'} (h : RecTaps L w w')
    {mode : Mode} {a d : List M} {a' d' : List M'} (ha : List.Forall₂ L.X a a')
    (hd : List.Forall₂ L.X d d') :
    PRel (List.Forall₂ (L.S 2 (bothTaps w'.rec_lo.length w'.rec_hi.length)))
      (idwtSingle w mode a d) (idwtSingle w' mode a' d') := by
  unfold idwtSingle idwtC Wavelet.rec_len
  rw [ha.length_eq, hd.length_eq, h.lo.len]
  by_cases h1 : a'.length ≠ d'.length
  · rw [if_pos h1, if_pos h1]; exact PRel.throw
  rw [if_neg h1, if_neg h1]
  cases hb : idwtBufferLength a'.length w'.rec_lo.length mode with
  | none => exact PRel.throw
  | some n =>
    by_cases h2 : n < 1
    · simp only [if_pos h2]; exact PRel.throw
    simp only [if_neg h2]
    refine PRel.callC ?_
    simp only [ha.length_eq, hd.length_eq, if_neg h1]
    have hz : (zeros n : List M).length = (zeros n : List M').length := by simp [zeros]
    rw [hz]
    refine Rel.ite (fun _ => Rel.pure .none) fun _ => ?_
    have h3 := Rel.usConv (mode := mode) (k := 0) (fuel := kfuel a'.length w'.rec_lo.length) h.passLo ha
      (by have := h.kmax; omega) (forall₂_zeros (n := n) L.zero)
    unfold idwtPart
    simp only [ha.length_eq, hd.length_eq, h.lo.len, h.hi.len]
    refine Rel.bind h3 fun o o' hoo => ?_
    cases hoo with
    | none => exact Rel.pure .none
    | some hoo => exact Rel.usConv h.passHi hd h.kmax hoo

/-- Lists related, or both `None`. -/
abbrev ORel (P : M → M' → Prop) : Option (List M) → Option (List M') → Prop :=
  Option.Rel (List.Forall₂ P)

/-- `idwt` in two arithmetics. -/
theorem idwt_rel {L : Link M M'} {w : Wavelet R} {w' : Wavelet R'} (h : RecTaps L w w')
    (h0 : L.X 0 0) {mode : Mode} {a d : Option (List M)} {a' d' : Option (List M')}
    (ha : ORel L.X a a') (hd : ORel L.X d d') :
    PRel (List.Forall₂ (L.S 2 (bothTaps w'.rec_lo.length w'.rec_hi.length)))
      (idwt w mode a d) (idwt w' mode a' d') := by
  cases ha with
  | none =>
    cases hd with
    | none => exact PRel.throw
    | some hd =>
      simp only [idwt]
      rw [hd.length_eq]
      exact idwtSingle_rel h (forall₂_zeros h0 _) hd
  | some ha =>
    cases hd with
    | none =>
      simp only [idwt]
      rw [ha.length_eq]
      exact idwtSingle_rel h ha (forall₂_zeros h0 _)
    | some hd => exact idwtSingle_rel h ha hd

theorem waverecTrim_rel {P : M → M' → Prop} {a d : Option (List M)} {a' d' : Option (List M')}
    (ha : ORel P a a') (hd : ORel P d d') :
    PRel (ORel P) (waverecTrim a d) (waverecTrim a' d') := by
  cases ha with
  | none => exact PRel.ok .none
  | some ha =>
    cases hd with
    | none => exact PRel.ok (.some ha)
    | some hd =>
      simp only [waverecTrim]
      rw [ha.length_eq, hd.length_eq]
      refine PRel.ite (fun _ => PRel.ok (.some (List.forall₂_take _ ha))) fun _ => ?_
      exact PRel.ite (fun _ => PRel.throw) fun _ => PRel.ok (.some ha)

/-- The loop of `wavedec`, one pair of relations per level. -/
theorem wavedecLoop_rel {w : Wavelet R} {w' : Wavelet R'} {mode : Mode} (X D : ℕ → M → M' → Prop)
    (n : ℕ) (hstep : ∀ j < n, ∀ x x', List.Forall₂ (X j) x x' →
      PRel (fun r r' => List.Forall₂ (X (j + 1)) r.1 r'.1 ∧ List.Forall₂ (D j) r.2 r'.2)
        (dwt w mode x) (dwt w' mode x'))
    (P : M → M' → Prop) (hX : ∀ a b, X n a b → P a b) (hD : ∀ j < n, ∀ a b, D j a b → P a b) :
    ∀ m j x x' acc acc', j + m = n → List.Forall₂ (X j) x x' →
      List.Forall₂ (List.Forall₂ P) acc acc' →
      PRel (List.Forall₂ (List.Forall₂ P)) (wavedecLoop w mode m x acc)
        (wavedecLoop w' mode m x' acc') := by
  intro m
  induction m with
  | zero =>
    intro j x x' acc acc' hj hx hacc
    obtain rfl : j = n := by omega
    unfold wavedecLoop
    refine PRel.ok ?_
    rw [List.reverse_append, List.reverse_append]
    exact .cons (hx.imp hX) (List.rel_reverse hacc)
  | succ m ih =>
    intro j x x' acc acc' hj hx hacc
    unfold wavedecLoop
    refine PRel.bind (hstep j (by omega) _ _ hx) fun a b hab => ?_
    refine ih (j + 1) _ _ _ _ (by omega) hab.1 ?_
    exact List.rel_append hacc (.cons (hab.2.imp (hD j (by omega))) .nil)

theorem wavedec_rel {w : Wavelet R} {w' : Wavelet R'} {mode : Mode} (X D : ℕ → M → M' → Prop)
    (hlen : w.dec_len = w'.dec_len) {level : Option Int} {x : List M} {x' : List M'}
    (hx : List.Forall₂ (X 0) x x') {n : ℕ} (hn : checkLevel [x'.length] [w'.dec_len] level = .ok n)
    (hstep : ∀ j < n, ∀ x x', List.Forall₂ (X j) x x' →
      PRel (fun r r' => List.Forall₂ (X (j + 1)) r.1 r'.1 ∧ List.Forall₂ (D j) r.2 r'.2)
        (dwt w mode x) (dwt w' mode x'))
    (P : M → M' → Prop) (hX : ∀ a b, X n a b → P a b) (hD : ∀ j < n, ∀ a b, D j a b → P a b) :
    PRel (List.Forall₂ (List.Forall₂ P)) (wavedec w mode level x) (wavedec w' mode level x') := by
  unfold wavedec
  rw [hx.length_eq, hlen, hn]
  simp only [Py_bind_ok]
  exact wavedecLoop_rel X D n hstep P hX hD n 0 x x' [] [] (by omega) hx .nil

/-- The loop of `waverec`. -/
theorem waverecLoop_rel {w : Wavelet R} {w' : Wavelet R'} {mode : Mode} (X : ℕ → M → M' → Prop)
    (P : M → M' → Prop) (n : ℕ) (hP : ∀ j < n, ∀ a b, P a b → X j a b)
    (hstep : ∀ j < n, ∀ a a' d d', ORel (X j) a a' → ORel (X j) d d' →
      PRel (List.Forall₂ (X (j + 1))) (idwt w mode a d) (idwt w' mode a' d')) :
    ∀ ds ds' j a a', j + ds.length = n → ORel (X j) a a' → List.Forall₂ (ORel P) ds ds' →
      PRel (ORel (X n)) (waverecLoop w mode a ds) (waverecLoop w' mode a' ds') := by
  intro ds
  induction ds with
  | nil =>
    intro ds' j a a' hj ha hds
    cases hds
    obtain rfl : j = n := by simpa using hj
    exact PRel.ok ha
  | cons d ds ih =>
    intro ds' j a a' hj ha hds
    cases hds with
    | @cons _ d' _ _ hd hds =>
      have hjn : j < n := by simp at hj; omega
      unfold waverecLoop
      have hd' : ORel (X j) d d' := by
        cases hd with
        | none => exact .none
        | some hd => exact .some (hd.imp (hP j hjn))
      refine PRel.bind (waverecTrim_rel ha hd') fun b b' hb => ?_
      refine PRel.bind (hstep j hjn _ _ _ _ hb hd') fun r r' hr => ?_
      exact ih _ (j + 1) _ _ (by simp at hj; omega) (.some hr) hds

theorem waverec_rel {w : Wavelet R} {w' : Wavelet R'} {mode : Mode} (X : ℕ → M → M' → Prop)
    {cs : List (Option (List M))} {cs' : List (Option (List M'))}
    (hcs : List.Forall₂ (ORel (X 0)) cs cs')
    (hP : ∀ j < cs'.length - 1, ∀ a b, X 0 a b → X j a b)
    (hstep : ∀ j < cs'.length - 1, ∀ a a' d d', ORel (X j) a a' → ORel (X j) d d' →
      PRel (List.Forall₂ (X (j + 1))) (idwt w mode a d) (idwt w' mode a' d')) :
    PRel (ORel (X (cs'.length - 1))) (waverec w mode cs) (waverec w' mode cs') := by
  cases hcs with
  | nil => exact PRel.throw
  | @cons a a' ds ds' ha hds =>
    cases hds with
    | nil => exact PRel.ok ha
    | @cons d d' ds ds' hd hds =>
      have hl := hds.length_eq
      refine waverecLoop_rel X (X 0) _ hP hstep (d :: ds) (d' :: ds') 0 a a' ?_ ha (.cons hd hds)
      simp [hl]

end Pywt.Sim
