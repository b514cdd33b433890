import Verif.Proof.SimAxis
import Verif.Model.AxisMulti

/-!
# Lock-step simulation of the n-D transforms
-/

set_option linter.unusedSectionVars false
set_option autoImplicit false

namespace Pywt.Sim

open Finset

variable {R R' M M' : Type} [Zero R] [Zero M] [Add M] [Neg M] [Sub M] [SMul ℕ M] [SMul R M]
  [Zero R'] [Zero M'] [Add M'] [Neg M'] [Sub M'] [SMul ℕ M'] [SMul R' M']

/-- Dicts with the same keys in the same order and related arrays. -/
abbrev DRel (P : M → M' → Prop) : List (Key × Arr M) → List (Key × Arr M') → Prop :=
  List.Forall₂ fun p p' => p.1 = p'.1 ∧ ArrRel P p.2 p'.2

/-- The same with `None`s. -/
abbrev CRel (P : M → M' → Prop) : CDict M → CDict M' → Prop :=
  List.Forall₂ fun p p' => p.1 = p'.1 ∧ Option.Rel (ArrRel P) p.2 p'.2

/-- A step of `dwtn` takes arrays related by `P` to arrays related by `Q`. -/
def DwtStep (P : M → M' → Prop) (s : Wavelet R × Mode) (s' : Wavelet R' × Mode) (Q : M → M' → Prop) : Prop :=
  ∀ ax x x', ArrRel P x x' → PRel (fun r r' => ArrRel Q r.1 r'.1 ∧ ArrRel Q r.2 r'.2) (dwtAxis s.1 s.2 ax x)
    (dwtAxis s'.1 s'.2 ax x')

/-- The same for `idwtn`. -/
def IdwtStep (P : M → M' → Prop) (s : Wavelet R × Mode) (s' : Wavelet R' × Mode) (Q : M → M' → Prop) : Prop :=
  ∀ ax a a' d d', Option.Rel (ArrRel P) a a' → Option.Rel (ArrRel P) d d' →
    PRel (Option.Rel (ArrRel Q)) (idwtAxis s.1 s.2 ax a d) (idwtAxis s'.1 s'.2 ax a' d')

/-- Steps one after the other. -/
inductive Steps (step : (M → M' → Prop) → Wavelet R × Mode → Wavelet R' × Mode → (M → M' → Prop) → Prop) :
    (M → M' → Prop) → List (Wavelet R × Mode) → List (Wavelet R' × Mode) → (M → M' → Prop) → Prop
  | nil {P} : Steps step P [] [] P
  | cons {P Q S s s' l l'} : step P s s' Q → Steps step Q l l' S → Steps step P (s :: l) (s' :: l') S

theorem Steps.length {step : (M → M' → Prop) → Wavelet R × Mode → Wavelet R' × Mode → (M → M' → Prop) → Prop}
    {P Q : M → M' → Prop} {l : List (Wavelet R × Mode)} {l' : List (Wavelet R' × Mode)} (h : Steps step P l l' Q) :
    l.length = l'.length := by
  induction h with
  | nil => rfl
  | cons _ _ ih => simp [ih]

theorem dwtnStep_rel {P Q : M → M' → Prop} {s : Wavelet R × Mode} {s' : Wavelet R' × Mode} (hs : DwtStep P s s' Q)
    (axis : Int) {c : List (Key × Arr M)} {c' : List (Key × Arr M')} (hc : DRel P c c') :
    PRel (DRel Q) (dwtnStep axis s.1 s.2 c) (dwtnStep axis s'.1 s'.2 c') := by
  induction hc with
  | nil => exact PRel.ok .nil
  | @cons p p' c c' hp hc ih =>
    obtain ⟨k, x⟩ := p
    obtain ⟨k', x'⟩ := p'
    obtain ⟨rfl, hx⟩ := hp
    simp only [dwtnStep]
    unfold dwtAxisU
    by_cases ha : axis < 0
    · rw [if_pos ha, if_pos ha]; exact PRel.throw
    rw [if_neg ha, if_neg ha]
    refine PRel.bind (hs _ _ _ hx) fun r r' hr => PRel.bind ih fun t t' ht => ?_
    exact PRel.ok (.cons ⟨rfl, hr.1⟩ (.cons ⟨rfl, hr.2⟩ ht))

theorem dwtnLoop_rel {P Q : M → M' → Prop} {l : List (Wavelet R × Mode)} {l' : List (Wavelet R' × Mode)}
    (hs : Steps DwtStep P l l' Q) : ∀ {axes : List Int} (_ : axes.length = l.length) {c : List (Key × Arr M)}
    {c' : List (Key × Arr M')}, DRel P c c' → PRel (DRel Q) (dwtnLoop (axes.zip l) c) (dwtnLoop (axes.zip l') c') := by
  induction hs with
  | nil =>
    intro axes _ c c' hc
    simp only [List.zip_nil_right, dwtnLoop]
    exact PRel.ok hc
  | @cons P Q S s s' l l' h1 h2 ih =>
    intro axes ha c c' hc
    cases axes with
    | nil => simp at ha
    | cons ax axes =>
      simp only [List.zip_cons_cons]
      obtain ⟨w, m⟩ := s
      obtain ⟨w', m'⟩ := s'
      simp only [dwtnLoop]
      exact PRel.bind (dwtnStep_rel h1 ax hc) fun r r' hr => ih (by simpa using ha) hr

/-- Expanding the arguments per axis. -/
structure ArgRel (wv : PerAxis (Wavelet R)) (wv' : PerAxis (Wavelet R')) (mode : PerAxis Mode) (n : ℕ)
    (l : List (Wavelet R × Mode)) (l' : List (Wavelet R' × Mode)) : Prop where
  ok : ∃ ws ws' ms, wv.expand n = .ok ws ∧ wv'.expand n = .ok ws' ∧ mode.expand n = .ok ms ∧ ws.length = n ∧
    ms.length = n ∧ ws.zip ms = l ∧ ws'.zip ms = l'

theorem ArgRel.length {wv : PerAxis (Wavelet R)} {wv' : PerAxis (Wavelet R')} {mode : PerAxis Mode} {n : ℕ}
    {l : List (Wavelet R × Mode)} {l' : List (Wavelet R' × Mode)} (h : ArgRel wv wv' mode n l l') : l.length = n := by
  obtain ⟨ws, ws', ms, -, -, -, h1, h2, rfl, -⟩ := h.ok
  simp [h1, h2]

section
variable {P Q : M → M' → Prop} {wv : PerAxis (Wavelet R)} {wv' : PerAxis (Wavelet R')} {mode : PerAxis Mode}
  {l : List (Wavelet R × Mode)} {l' : List (Wavelet R' × Mode)}

/-- `dwtn` in two arithmetics. -/
theorem dwtn_rel {x : Arr M} {x' : Arr M'} (hx : ArrRel P x x') {axes : Option (List Int)} {n : ℕ}
    (hn : (axes.getD (rangeAxes x'.ndim)).length = n) (ha : ArgRel wv wv' mode n l l') (hs : Steps DwtStep P l l' Q) :
    PRel (DRel Q) (dwtn x wv mode axes) (dwtn x' wv' mode axes) := by
  have hlen := ha.length
  obtain ⟨ws, ws', ms, e1, e2, e3, -, -, rfl, rfl⟩ := ha.ok
  unfold dwtn
  rw [hx.ndim]
  by_cases h1 : x'.ndim < 1
  · rw [if_pos h1, if_pos h1]; exact PRel.throw
  rw [if_neg h1, if_neg h1]
  have hn' : (normAxes x'.ndim (axes.getD (rangeAxes x'.ndim))).length = n := by simp [normAxes, hn]
  simp only [hn', e1, e2, e3, Py_bind_ok, zipStages]
  exact dwtnLoop_rel hs (by rw [hn', hlen]) (.cons ⟨rfl, hx⟩ .nil)

theorem lookup_rel {c : List (Key × Arr M)} {c' : List (Key × Arr M')} (hc : DRel P c c') (k : Key) :
    Option.Rel (ArrRel P) (c.lookup k) (c'.lookup k) := by
  induction hc with
  | nil => exact .none
  | @cons p p' c c' hp hc ih =>
    obtain ⟨k1, x⟩ := p
    obtain ⟨k2, x'⟩ := p'
    obtain ⟨h, hx⟩ := hp
    simp only at h hx
    subst h
    simp only [List.lookup]
    cases k == k1 with
    | true => exact .some hx
    | false => exact ih

theorem lookupKey_rel {c : List (Key × Arr M)} {c' : List (Key × Arr M')} (hc : DRel P c c') (k : Key) :
    PRel (ArrRel P) (lookupKey c k) (lookupKey c' k) := by
  have := lookup_rel hc k
  unfold lookupKey
  cases hl : c.lookup k with
  | none =>
    rw [hl] at this
    cases hl' : c'.lookup k with
    | none => exact PRel.throw
    | some v => rw [hl'] at this; cases this
  | some v =>
    rw [hl] at this
    cases hl' : c'.lookup k with
    | none => exact PRel.throw
    | some v' => rw [hl'] at this; cases this with | some h => exact PRel.ok h

theorem clookup_rel {c : CDict M} {c' : CDict M'} (hc : CRel P c c') (k : Key) :
    Option.Rel (Option.Rel (ArrRel P)) (c.lookup k) (c'.lookup k) := by
  induction hc with
  | nil => exact .none
  | @cons p p' c c' hp hc ih =>
    obtain ⟨k1, x⟩ := p
    obtain ⟨k2, x'⟩ := p'
    obtain ⟨h, hx⟩ := hp
    simp only at h hx
    subst h
    simp only [List.lookup]
    cases k == k1 with
    | true => exact .some hx
    | false => exact ih

theorem cget_rel {c : CDict M} {c' : CDict M'} (hc : CRel P c c') (k : Key) :
    Option.Rel (ArrRel P) (CDict.get c k) (CDict.get c' k) := by
  have := clookup_rel hc k
  unfold CDict.get
  generalize c.lookup k = o at *
  generalize c'.lookup k = o' at *
  cases this with
  | none => exact .none
  | some h => exact h

theorem clookupKey_rel {c : CDict M} {c' : CDict M'} (hc : CRel P c c') (k : Key) :
    PRel (Option.Rel (ArrRel P)) (lookupKey c k) (lookupKey c' k) := by
  have := clookup_rel hc k
  unfold lookupKey
  generalize c.lookup k = o at *
  generalize c'.lookup k = o' at *
  cases this with
  | none => exact PRel.throw
  | some h => exact PRel.ok h

theorem idwtnStep_rel {s : Wavelet R × Mode} {s' : Wavelet R' × Mode} (hs : IdwtStep P s s' Q)
    (axis : ℕ) {c : CDict M} {c' : CDict M'} (hc : CRel P c c') (keys : List Key) :
    PRel (CRel Q) (idwtnStep axis s.1 s.2 c keys) (idwtnStep axis s'.1 s'.2 c' keys) := by
  induction keys with
  | nil => exact PRel.ok .nil
  | cons k keys ih =>
    simp only [idwtnStep]
    refine PRel.bind (hs _ _ _ _ _ (cget_rel hc _) (cget_rel hc _)) fun r r' hr => PRel.bind ih fun t t' ht => ?_
    exact PRel.ok (.cons ⟨rfl, hr⟩ ht)

theorem idwtnLoop_rel (ndim : ℕ) {l : List (Wavelet R × Mode)} {l' : List (Wavelet R' × Mode)}
    (hs : Steps IdwtStep P l l' Q) : ∀ {axes : List Int} (_ : axes.length = l.length) {c : CDict M}
    {c' : CDict M'}, CRel P c c' → PRel (CRel Q) (idwtnLoop ndim (axes.zip l) c) (idwtnLoop ndim (axes.zip l') c') := by
  induction hs with
  | nil =>
    intro axes _ c c' hc
    simp only [List.zip_nil_right, idwtnLoop]
    exact PRel.ok hc
  | @cons P Q S s s' l l' h1 h2 ih =>
    intro axes ha c c' hc
    cases axes with
    | nil => simp at ha
    | cons ax axes =>
      simp only [List.zip_cons_cons]
      obtain ⟨w, m⟩ := s
      obtain ⟨w', m'⟩ := s'
      simp only [idwtnLoop, List.length_zip, h2.length]
      by_cases hax : ax < 0 ∨ ax ≥ ndim
      · rw [if_pos hax, if_pos hax]; exact PRel.throw
      rw [if_neg hax, if_neg hax]
      exact PRel.bind (idwtnStep_rel h1 _ hc _) fun r r' hr => ih (by simpa using ha) hr

theorem dropNone_rel {c : CDict M} {c' : CDict M'} (hc : CRel P c c') : DRel P (dropNone c) (dropNone c') := by
  induction hc with
  | nil => exact .nil
  | @cons p p' c c' hp hc ih =>
    obtain ⟨k1, x⟩ := p
    obtain ⟨k2, x'⟩ := p'
    obtain ⟨h, hx⟩ := hp
    simp only at h hx
    subst h
    unfold dropNone at ih ⊢
    cases hx with
    | none => simpa using ih
    | some hx => simpa using ⟨hx, ih⟩

theorem DRel.keys {c : List (Key × Arr M)} {c' : List (Key × Arr M')} (hc : DRel P c c') :
    c.map (·.1) = c'.map (·.1) := by
  induction hc with
  | nil => rfl
  | cons h _ ih => simp [h.1, ih]

theorem DRel.some {c : List (Key × Arr M)} {c' : List (Key × Arr M')} (hc : DRel P c c') :
    CRel P (c.map fun p => (p.1, some p.2)) (c'.map fun p => (p.1, some p.2)) := by
  induction hc with
  | nil => exact .nil
  | cons h _ ih => exact .cons ⟨h.1, .some h.2⟩ ih

theorem DRel.anyShape {c : List (Key × Arr M)} {c' : List (Key × Arr M')} (hc : DRel P c c') (S : List ℕ) :
    (c.any fun p => p.2.shape ≠ S) = c'.any fun p => p.2.shape ≠ S := by
  induction hc with
  | nil => rfl
  | cons h _ ih => simp only [List.any_cons, h.2.shape, ih]

/-- The number of axes `idwtn` transforms. -/
def idwtnAxes (c : CDict M) (axes : Option (List Int)) : ℕ :=
  match dropNone c with
  | [] => 0
  | (k0, _) :: _ => (axes.getD (rangeAxes k0.length)).length

/-- `idwtn` in two arithmetics. -/
theorem idwtn_rel {c : CDict M} {c' : CDict M'} (hc : CRel P c c') {axes : Option (List Int)}
    (ha : ArgRel wv wv' mode (idwtnAxes c' axes) l l') (hs : Steps IdwtStep P l.reverse l'.reverse Q) :
    PRel (Option.Rel (ArrRel Q)) (idwtn c wv mode axes) (idwtn c' wv' mode axes) := by
  have hlen := ha.length
  obtain ⟨ws, ws', ms, e1, e2, e3, hw, hm, rfl, rfl⟩ := ha.ok
  have hd := dropNone_rel hc
  simp only [idwtn]
  rw [hd.keys]
  by_cases h1 : (!keysOk ((dropNone c').map (·.1))) = true
  · rw [if_pos h1, if_pos h1]; exact PRel.throw
  rw [if_neg h1, if_neg h1]
  unfold idwtnAxes at e1 e2 e3 hlen hw hm
  generalize dropNone c = D at *
  generalize dropNone c' = D' at *
  cases hd with
  | nil => exact PRel.throw
  | @cons p p' D D' hp hD =>
    have hd : DRel P (p :: D) (p' :: D') := List.Forall₂.cons hp hD
    obtain ⟨k0, v0⟩ := p
    obtain ⟨k0', v0'⟩ := p'
    obtain ⟨h, hx⟩ := hp
    simp only at h hx
    subst h
    simp only [hx.shape]
    rw [DRel.anyShape hd]
    refine PRel.ite (fun _ => PRel.throw) fun _ => ?_
    simp only at e1 e2 e3 hlen hw hm
    have hna : ∀ d, (normAxes d (axes.getD (rangeAxes k0.length))).length = (axes.getD (rangeAxes k0.length)).length := by
      intro d; simp [normAxes]
    simp only [hna, e1, e2, e3, Py_bind_ok, zipStages]
    have hrev : ∀ {α : Type} (A : List Int) (L : List α), A.length = L.length → (A.zip L).reverse = A.reverse.zip L.reverse := by
      intro α A L h
      show (List.zipWith Prod.mk A L).reverse = List.zipWith Prod.mk A.reverse L.reverse
      exact List.reverse_zipWith h
    have hl2 := hs.length
    simp only [List.length_reverse] at hl2
    rw [hrev _ _ (by rw [hna, hlen]), hrev _ _ (by rw [hna, ← hl2, hlen])]
    exact PRel.bind (idwtnLoop_rel _ hs (by simp only [List.length_reverse]; rw [hna, hlen]) (DRel.some hd)) fun r r' hr =>
      clookupKey_rel hr _

theorem idwtnAxes_some (c : CDict M) (axes : List Int) (h : dropNone c ≠ []) :
    idwtnAxes c (some axes) = axes.length := by
  unfold idwtnAxes
  split
  · contradiction
  · rfl

/-- The same without knowing that there is an array in the dict. -/
theorem idwtn_rel' {c : CDict M} {c' : CDict M'} (hc : CRel P c c') {axes : List Int}
    (ha : ArgRel wv wv' mode axes.length l l') (hs : Steps IdwtStep P l.reverse l'.reverse Q) :
    PRel (Option.Rel (ArrRel Q)) (idwtn c wv mode (some axes)) (idwtn c' wv' mode (some axes)) := by
  by_cases h : dropNone c' = []
  · have hd := dropNone_rel hc
    rw [h] at hd
    intro r hr
    exfalso
    simp only [idwtn, h] at hr
    split at hr <;> cases hr
  · exact idwtn_rel hc (by rw [idwtnAxes_some _ _ h]; exact ha) hs

theorem dwt2_rel {x : Arr M} {x' : Arr M'} (hx : ArrRel P x x') {axes : List Int}
    (ha : ArgRel wv wv' mode axes.length l l') (hs : Steps DwtStep P l l' Q) :
    PRel (fun r r' => ArrRel Q r.1 r'.1 ∧ ArrRel Q r.2.1 r'.2.1 ∧ ArrRel Q r.2.2.1 r'.2.2.1 ∧
      ArrRel Q r.2.2.2 r'.2.2.2) (dwt2 x wv mode axes) (dwt2 x' wv' mode axes) := by
  unfold dwt2
  rw [hx.ndim]
  refine PRel.ite (fun _ => PRel.throw) fun _ => PRel.ite (fun _ => PRel.throw) fun _ => ?_
  refine PRel.bind (dwtn_rel hx (n := axes.length) rfl ha hs) fun c c' hc => ?_
  refine PRel.bind (lookupKey_rel hc _) fun a a' h1 => PRel.bind (lookupKey_rel hc _) fun b b' h2 =>
    PRel.bind (lookupKey_rel hc _) fun e e' h3 => PRel.bind (lookupKey_rel hc _) fun f f' h4 => ?_
  exact PRel.ok ⟨h1, h2, h3, h4⟩

theorem idwt2_rel {a h v d : Option (Arr M)} {a' h' v' d' : Option (Arr M')} (h1 : Option.Rel (ArrRel P) a a')
    (h2 : Option.Rel (ArrRel P) h h') (h3 : Option.Rel (ArrRel P) v v') (h4 : Option.Rel (ArrRel P) d d')
    {axes : List Int} (ha : ArgRel wv wv' mode axes.length l l') (hs : Steps IdwtStep P l.reverse l'.reverse Q) :
    PRel (Option.Rel (ArrRel Q)) (idwt2 (a, h, v, d) wv mode axes) (idwt2 (a', h', v', d') wv' mode axes) := by
  simp only [idwt2]
  refine PRel.ite (fun _ => PRel.throw) fun _ => ?_
  exact idwtn_rel' (P := P) (Q := Q) (.cons ⟨rfl, h1⟩ (.cons ⟨rfl, h2⟩ (.cons ⟨rfl, h3⟩ (.cons ⟨rfl, h4⟩ .nil)))) ha hs

theorem DRel.mono (hPQ : ∀ a b, P a b → Q a b) {c : List (Key × Arr M)} {c' : List (Key × Arr M')} (hc : DRel P c c') :
    DRel Q c c' := hc.imp fun _ _ h => ⟨h.1, h.2.mono hPQ⟩

theorem DRel.eraseKey {c : List (Key × Arr M)} {c' : List (Key × Arr M')} (hc : DRel P c c') (k : Key) :
    DRel P (eraseKey c k) (Pywt.eraseKey c' k) := by
  induction hc with
  | nil => exact .nil
  | @cons p p' c c' hp hc ih =>
    unfold Pywt.eraseKey at ih ⊢
    rw [List.filter_cons, List.filter_cons, hp.1]
    split
    · exact .cons hp ih
    · exact ih

/-- Entries of a coefficient list of the same form with related arrays. -/
def ItemRel (P : M → M' → Prop) : Item M → Item M' → Prop
  | .null, .null => True
  | .arr a, .arr a' => ArrRel P a a'
  | .dict c, .dict c' => CRel P c c'
  | .tup t, .tup t' => List.Forall₂ (Option.Rel (ArrRel P)) t t'
  | _, _ => False

theorem ItemRel.ofDict {c : List (Key × Arr M)} {c' : List (Key × Arr M')} (hc : DRel P c c') :
    ItemRel P (Item.ofDict c) (Item.ofDict c') := DRel.some hc

theorem forall₂_reverse {α β : Type} {S : α → β → Prop} {a : List α} {b : List β} (h : List.Forall₂ S a b) :
    List.Forall₂ S a.reverse b.reverse := List.rel_reverse h

theorem wavedecnLoop_rel {X : ℕ → M → M' → Prop} {axes : List Int} (ha : ArgRel wv wv' mode axes.length l l')
    {n : ℕ} (hs : ∀ k < n, Steps DwtStep (X k) l l' (X (k + 1))) (hm : ∀ k ≤ n, ∀ a b, X k a b → X n a b) :
    ∀ (j k : ℕ), k + j = n → ∀ {a a' ds ds'}, ArrRel (X k) a a' → List.Forall₂ (DRel (X n)) ds ds' →
    PRel (fun r r' => ArrRel (X n) r.1 r'.1 ∧ List.Forall₂ (DRel (X n)) r.2 r'.2)
      (wavedecnLoop wv mode axes j a ds) (wavedecnLoop wv' mode axes j a' ds') := by
  intro j
  induction j with
  | zero =>
    intro k hk a a' ds ds' h1 h2
    obtain rfl : k = n := by omega
    simp only [wavedecnLoop]
    exact PRel.ok ⟨h1, h2⟩
  | succ j ih =>
    intro k hk a a' ds ds' h1 h2
    simp only [wavedecnLoop]
    refine PRel.bind (dwtn_rel h1 (n := axes.length) rfl ha (hs k (by omega))) fun c c' hc => ?_
    refine PRel.bind (lookupKey_rel hc _) fun b b' hb => ?_
    refine ih (k + 1) (by omega) hb (List.rel_append h2 (.cons ?_ .nil))
    exact DRel.mono (hm _ (by omega)) (DRel.eraseKey hc _)

theorem wavedecn_rel {X : ℕ → M → M' → Prop} {x : Arr M} {x' : Arr M'} (hx : ArrRel (X 0) x x')
    {axes : Option (List Int)} (ha : ArgRel wv wv' mode (axes.getD (rangeAxes x'.ndim)).length l l')
    (hlen : ∀ m ws ws', wv.expand m = .ok ws → wv'.expand m = .ok ws' → ws.map (·.dec_len) = ws'.map (·.dec_len))
    {n : ℕ} (hs : ∀ k < n, Steps DwtStep (X k) l l' (X (k + 1))) (hm : ∀ k ≤ n, ∀ a b, X k a b → X n a b) :
    PRel (List.Forall₂ (ItemRel (X n))) (wavedecn x wv mode (some (n : ℤ)) axes) (wavedecn x' wv' mode (some (n : ℤ)) axes) := by
  unfold wavedecn
  rw [hx.shape]
  cases hp : prepAxes x'.shape axes with
  | error e => exact PRel.throw
  | ok r =>
    obtain ⟨ax, sh⟩ := r
    have hax : ax = axes.getD (rangeAxes x'.ndim) := by
      unfold prepAxes at hp
      simp only at hp
      split at hp
      · cases hp
      split at hp
      · cases hp
      cases ht : axesShapes x'.shape (axes.getD (rangeAxes x'.shape.length)) with
      | error e => rw [ht] at hp; cases hp
      | ok t =>
        rw [ht] at hp
        simp only [Py_bind_ok, Py_pure] at hp
        injection hp with hp
        injection hp with h1 h2
        exact h1.symm
    simp only [Py_bind_ok]
    rw [hax] at *
    obtain ⟨ws, ws', ms, e1, e2, -⟩ := ha.ok
    rw [e1, e2]
    simp only [Py_bind_ok]
    rw [hlen _ _ _ e1 e2]
    cases hl : checkLevel sh (ws'.map (·.dec_len)) (some (n : ℤ)) with
    | error e => exact PRel.throw
    | ok n' =>
      have : n' = n := by
        unfold checkLevel at hl
        cases hq : (sh.zip (ws'.map (·.dec_len))).mapM fun p => dwtMaxLevel p.1 p.2 with
        | error e => rw [hq] at hl; cases hl
        | ok ls =>
          rw [hq] at hl
          simp only [Py_bind_ok] at hl
          cases hm : ls.min? with
          | none => rw [hm] at hl; cases hl
          | some v =>
            rw [hm] at hl
            simp only [Py_pure, show ¬ ((n : ℤ) < 0) by omega, if_false] at hl
            injection hl with hl
            omega
      subst this
      simp only [Py_bind_ok]
      refine PRel.bind (wavedecnLoop_rel ha hs hm n' 0 (by omega) hx .nil) fun r r' hr => ?_
      refine PRel.ok (.cons hr.1 (forall₂_reverse ?_))
      exact List.forall₂_map_left_iff.mpr (List.forall₂_map_right_iff.mpr (hr.2.imp fun _ _ h => ItemRel.ofDict h))

end

end Pywt.Sim
