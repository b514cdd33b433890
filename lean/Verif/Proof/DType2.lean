import Verif.Proof.DType1

/-!
# Data types of `dwtn` and `idwtn`
-/

set_option linter.unusedSectionVars false

namespace Pywt

open Spec

variable {R M : Type} [Ring R] [AddCommGroup M] [Module R M] (re : M → M)

theorem mapEl_id (a : Arr M) : a.mapEl id = a := by
  cases a; simp [Arr.mapEl]

theorem astypeN_of {x : Typed (Arr M)} {d : DType} (h : castVal re x.dtype d = id) :
    x.astypeN re d = ⟨d, x.val⟩ := by
  simp [Typed.astypeN, h, mapEl_id]

theorem tdwtAxisU_eq (w : Wavelet R) (mode : Mode) (axis : Int) (x : Typed (Arr M)) :
    tdwtAxisU re w mode axis x = (dwtAxisU w mode axis x.val).map fun p =>
      (⟨x.dtype.check, p.1⟩, ⟨x.dtype.check, p.2⟩) := by
  unfold tdwtAxisU
  rw [astypeN_of re (castVal_check re x.dtype)]
  dsimp only
  rw [dispatch_ok (check_supported _), kern_one]
  exact py_map _ _

theorem tdwtnStep_eq (axis : Int) (w : Wavelet R) (mode : Mode) (D : DType)
    (l : List (Key × Arr M)) :
    tdwtnStep re axis w mode (l.map fun p => (p.1, ⟨D, p.2⟩))
      = (dwtnStep axis w mode l).map fun r => r.map fun p => (p.1, ⟨D.check, p.2⟩) := by
  induction l with
  | nil => rfl
  | cons p l ih =>
    obtain ⟨k, x⟩ := p
    simp only [List.map_cons, tdwtnStep, dwtnStep, tdwtAxisU_eq, ih]
    cases dwtAxisU w mode axis x with
    | error e => rfl
    | ok q =>
      cases dwtnStep axis w mode l with
      | error e => rfl
      | ok r => rfl

theorem tdwtnLoop_eq {T : DType} (hT : Supported T) (st : List (Int × Wavelet R × Mode)) :
    ∀ l : List (Key × Arr M),
    tdwtnLoop re st (l.map fun p => (p.1, ⟨T, p.2⟩))
      = (dwtnLoop st l).map fun r => r.map fun p => (p.1, ⟨T, p.2⟩) := by
  induction st with
  | nil => intro l; rfl
  | cons s st ih =>
    intro l
    obtain ⟨axis, w, mode⟩ := s
    simp only [tdwtnLoop, dwtnLoop, tdwtnStep_eq, check_of_supported hT]
    cases dwtnStep axis w mode l with
    | error e => rfl
    | ok r => exact ih r

theorem expand_length {α : Type} (p : PerAxis α) (n : Nat) {l : List α} (h : p.expand n = .ok l) :
    l.length = n := by
  unfold PerAxis.expand at h
  split at h
  · simp at h; subst h; simp
  · simp at h; subst h; simp
  · split at h
    · simp at h
    · rename_i h'; simp at h; subst h; simpa using h'

theorem tdwtn_eq (x : Typed (Arr M)) (wavelet : PerAxis (Wavelet R)) (mode : PerAxis Mode)
    (axes : Option (List Int)) (ha : axes ≠ some []) :
    tdwtn re x wavelet mode axes
      = (dwtn x.val wavelet mode axes).map fun r => r.map fun p => (p.1, ⟨x.dtype.check, p.2⟩) := by
  unfold tdwtn dwtn
  by_cases hn : x.val.ndim < 1
  · simp [hn, throw, throwThe, MonadExceptOf.throw, bind, Except.bind, Except.map]
  simp only [hn, if_false, Py_pure, Py_bind_ok]
  cases hm : mode.expand (normAxes x.val.ndim (axes.getD (rangeAxes x.val.ndim))).length with
  | error e => rfl
  | ok ms =>
  cases hw : wavelet.expand (normAxes x.val.ndim (axes.getD (rangeAxes x.val.ndim))).length with
  | error e => rfl
  | ok ws =>
  simp only [Py_bind_ok]
  have h1 := expand_length _ _ hm
  have h2 := expand_length _ _ hw
  have hlen : 0 < (normAxes x.val.ndim (axes.getD (rangeAxes x.val.ndim))).length := by
    cases axes with
    | none => simp [normAxes, rangeAxes]; omega
    | some l =>
      cases l with
      | nil => exact absurd rfl ha
      | cons a l => simp [normAxes]
  generalize normAxes x.val.ndim (axes.getD (rangeAxes x.val.ndim)) = ax at *
  cases ax with
  | nil => simp at hlen
  | cons a ax =>
  cases ms with
  | nil => simp at h1
  | cons m ms =>
  cases ws with
  | nil => simp at h2
  | cons w ws =>
  simp only [zipStages, List.zip_cons_cons, tdwtnLoop, dwtnLoop]
  have := tdwtnStep_eq re a w m x.dtype [([], x.val)]
  simp only [List.map_cons, List.map_nil] at this
  rw [this]
  cases dwtnStep a w m [([], x.val)] with
  | error e => rfl
  | ok r => exact tdwtnLoop_eq re (check_supported _) _ r

/-! ### `idwtn` -/

/-- `Kept` for a set of dtypes, of a result that need not have a supported dtype yet. -/
structure PreS (S : DType → Prop) (out : DType) : Prop where
  complex : out.isComplex = true ↔ ∃ d, S d ∧ d.isComplex = true
  precise : ∀ d, S d → precision d ≤ precision out
  same : ∀ T, Supported T → (∀ d, S d → d = T) → out = T

theorem PreS.congr {S S' : DType → Prop} {d : DType} (h : PreS S d) (hS : ∀ x, S x ↔ S' x) :
    PreS S' d := by
  have : S = S' := funext fun x => propext (hS x)
  exact this ▸ h

theorem preS_single (d : DType) : PreS (· = d) d where
  complex := by simp
  precise := by rintro _ rfl; rfl
  same := by intro T _ h; exact h d rfl

theorem PreS.check {S : DType → Prop} {d : DType} (h : PreS S d) : PreS S d.check where
  complex := by rw [check_complex]; exact h.complex
  precise := fun e he => (h.precise e he).trans (check_precise d)
  same := by
    intro T hT hs
    have := h.same T hT hs
    subst this; exact check_of_supported hT

/-- The dtype of what `idwtn` computes from two subbands. -/
def pairD : Option DType → Option DType → DType
  | some a, some d => if a = d then a.check else a.upcast d
  | some a, none => a.check
  | none, some d => d.check
  | none, none => .f64

theorem pairD_supported (a d : Option DType) : Supported (pairD a d) := by
  cases a <;> cases d
  · simp [pairD, Supported]
  · exact check_supported _
  · exact check_supported _
  · simp only [pairD]; split
    · exact check_supported _
    · exact upcast_supported _ _

theorem preS_pair {S S' : DType → Prop} {a d : DType} (h : PreS S a) (h' : PreS S' d) :
    PreS (fun x => S x ∨ S' x) (pairD (some a) (some d)) := by
  by_cases hd : a = d
  · subst hd
    simp only [pairD, if_true]
    refine PreS.check ⟨?_, ?_, ?_⟩
    · constructor
      · intro hc; obtain ⟨e, he, hc'⟩ := h.complex.1 hc; exact ⟨e, .inl he, hc'⟩
      · rintro ⟨e, he | he, hc⟩
        · exact h.complex.2 ⟨e, he, hc⟩
        · exact h'.complex.2 ⟨e, he, hc⟩
    · rintro e (he | he)
      · exact h.precise e he
      · exact h'.precise e he
    · intro T hT hs; exact h.same T hT fun e he => hs e (.inl he)
  · simp only [pairD, if_neg hd]
    refine ⟨?_, ?_, ?_⟩
    · rw [upcast_complex, Bool.or_eq_true]
      constructor
      · rintro (hc | hc)
        · obtain ⟨e, he, hc'⟩ := h.complex.1 hc; exact ⟨e, .inl he, hc'⟩
        · obtain ⟨e, he, hc'⟩ := h'.complex.1 hc; exact ⟨e, .inr he, hc'⟩
      · rintro ⟨e, he | he, hc⟩
        · exact .inl (h.complex.2 ⟨e, he, hc⟩)
        · exact .inr (h'.complex.2 ⟨e, he, hc⟩)
    · intro e _; rw [upcast_precise]; exact precision_le e
    · intro T hT hs
      have h1 := h.same T hT fun e he => hs e (.inl he)
      have h2 := h'.same T hT fun e he => hs e (.inr he)
      exact absurd (h1.trans h2.symm) hd

theorem tidwtAxis_eq (w : Wavelet R) (mode : Mode) (axis : Nat) (L H : Option (Typed (Arr M))) :
    tidwtAxis re w mode axis (upcastPair re L H).1 (upcastPair re L H).2
      = (idwtAxis w mode axis (L.map (·.val)) (H.map (·.val))).map fun o =>
          o.map fun v => ⟨pairD (L.map (·.dtype)) (H.map (·.dtype)), v⟩ := by
  have hitem : ∀ d : DType, ¬ d.itemsize > d.itemsize := fun d => Nat.lt_irrefl _
  have hcc : ∀ d : DType, d.check.check = d.check := fun d => check_of_supported (check_supported d)
  cases L with
  | none =>
    cases H with
    | none =>
      simp only [upcastPair, tidwtAxis, Option.map_none, idwtAxis, idwtAxisMem]
      rfl
    | some h =>
      simp only [upcastPair, tidwtAxis, Option.map_none, Option.map_some, pairD]
      rw [astypeN_of re (castVal_check re h.dtype)]
      simp only [HOrElse.hOrElse, OrElse.orElse, Option.orElse]
      rw [dispatch_ok (check_supported _)]
      simp only [Option.toList, List.map_nil, List.map_cons, List.nil_append, List.cons_append,
        kern_two]
      exact py_map _ _
  | some l =>
    cases H with
    | none =>
      simp only [upcastPair, tidwtAxis, Option.map_none, Option.map_some, pairD]
      rw [astypeN_of re (castVal_check re l.dtype)]
      simp only [HOrElse.hOrElse, OrElse.orElse, Option.orElse]
      rw [dispatch_ok (check_supported _)]
      simp only [Option.toList, List.map_nil, List.map_cons, List.nil_append, List.cons_append,
        kern_two]
      exact py_map _ _
    | some h =>
      have main : ∀ (D : DType) (u v : Arr M),
          tidwtAxis re w mode axis (some ⟨D, u⟩) (some ⟨D, v⟩)
            = (idwtAxis w mode axis (some u) (some v)).map fun o => o.map fun r => ⟨D.check, r⟩ := by
        intro D u v
        simp only [tidwtAxis, Option.map_some, hitem, if_false]
        rw [astypeN_of re (x := ⟨D, u⟩) (castVal_check re D)]
        simp only [hcc, ite_self]
        rw [astypeN_of re (x := ⟨D, v⟩) (castVal_check re D)]
        simp only [HOrElse.hOrElse, OrElse.orElse, Option.orElse]
        rw [dispatch_ok (check_supported _)]
        have : ∀ (d : DType) (k : Py (Option (Typed (Arr M)))), kern d [d, d, d] k = k := by
          intro d k; simp [kern]
        simp only [Option.toList, List.map_nil, List.map_cons, List.nil_append, List.cons_append,
          this]
        exact py_map _ _
      by_cases hd : l.dtype = h.dtype
      · simp only [upcastPair, hd, ne_eq, not_true_eq_false, if_false, Option.map_some, pairD,
          if_true]
        have := main h.dtype l.val h.val
        rw [← this]
        congr 2
        rw [← hd]
      · simp only [upcastPair, hd, ne_eq, not_false_eq_true, if_true, Option.map_some, pairD,
          if_false]
        rw [astypeN_of re (castVal_join_left re _ _), astypeN_of re (castVal_join_right re _ _),
          main, check_of_supported (upcast_supported _ _)]

theorem get_eraseT (c : TDict M) (k : Key) :
    CDict.get (eraseT c) k = (TDict.get c k).map (·.val) := by
  induction c with
  | nil => rfl
  | cons p c ih =>
    obtain ⟨k', o⟩ := p
    simp only [eraseT, CDict.get, TDict.get, List.map_cons, List.lookup_cons] at ih ⊢
    cases k == k' with
    | true => simp
    | false => exact ih

theorem lookup_mem_keys {α : Type} (c : List (Key × α)) (k : Key) (h : k ∈ c.map (·.1)) :
    ∃ o, c.lookup k = some o ∧ (k, o) ∈ c := by
  induction c with
  | nil => simp at h
  | cons p c ih =>
    obtain ⟨k', o⟩ := p
    rw [List.lookup_cons]
    by_cases hk : k = k'
    · subst hk; exact ⟨o, by simp, by simp⟩
    · have : (k == k') = false := by simpa using hk
      rw [this]
      obtain ⟨o', h1, h2⟩ := ih (by simpa [hk] using h)
      exact ⟨o', h1, by simp [h2]⟩

theorem lookup_not_mem {α : Type} (c : List (Key × α)) (k : Key) (h : k ∉ c.map (·.1)) :
    c.lookup k = none := by
  induction c with
  | nil => rfl
  | cons p c ih =>
    obtain ⟨k', o⟩ := p
    simp only [List.map_cons, List.mem_cons, not_or] at h
    rw [List.lookup_cons]
    have : (k == k') = false := by simpa using h.1
    rw [this]
    exact ih h.2

/-- The dtypes of the inputs whose names, of length `n`, begin with `k`. -/
def below (inp : List (Key × Typed (Arr M))) (n : Nat) (k : Key) (d : DType) : Prop :=
  ∃ p ∈ inp, p.1.length = n ∧ k <+: p.1 ∧ p.2.dtype = d

/-- What a subband of the loop has to do with the inputs. -/
def BandOk (inp : List (Key × Typed (Arr M))) (n : Nat) (k : Key) :
    Option (Typed (Arr M)) → Prop
  | none => ∀ d, ¬ below inp n k d
  | some t => (∃ d, below inp n k d) ∧ PreS (below inp n k) t.dtype

theorem below_split (inp : List (Key × Typed (Arr M))) (n : Nat)
    (hk : ∀ p ∈ inp, ∀ c ∈ p.1, c = 'a' ∨ c = 'd') (k : Key) (hkn : k.length < n) (d : DType) :
    below inp n k d ↔ below inp n (k ++ ['a']) d ∨ below inp n (k ++ ['d']) d := by
  constructor
  · rintro ⟨p, hp, hn, ⟨t, ht⟩, hd⟩
    cases t with
    | nil => simp at ht; rw [ht] at hkn; omega
    | cons c t =>
      have hc := hk p hp c (by rw [← ht]; simp)
      rcases hc with rfl | rfl
      · exact .inl ⟨p, hp, hn, ⟨t, by simp [← ht]⟩, hd⟩
      · exact .inr ⟨p, hp, hn, ⟨t, by simp [← ht]⟩, hd⟩
  · rintro (⟨p, hp, hn, ⟨t, ht⟩, hd⟩ | ⟨p, hp, hn, ⟨t, ht⟩, hd⟩)
    · exact ⟨p, hp, hn, ⟨'a' :: t, by simp [← ht]⟩, hd⟩
    · exact ⟨p, hp, hn, ⟨'d' :: t, by simp [← ht]⟩, hd⟩

theorem words_length' (n : Nat) : ∀ k ∈ words n, k.length = n := by
  induction n with
  | zero => simp [words]
  | succ n ih =>
    intro k hk
    simp only [words, List.mem_append, List.mem_map] at hk
    rcases hk with ⟨j, hj, rfl⟩ | ⟨j, hj, rfl⟩ <;> simp [ih j hj]

theorem words_snoc_both (n : Nat) : ∀ k ∈ words n, k ++ ['a'] ∈ words (n + 1) ∧ k ++ ['d'] ∈ words (n + 1) := by
  induction n with
  | zero => simp [words]
  | succ n ih =>
    intro k hk
    simp only [words, List.mem_append, List.mem_map] at hk
    rcases hk with ⟨j, hj, rfl⟩ | ⟨j, hj, rfl⟩
    · obtain ⟨h1, h2⟩ := ih j hj
      rw [words]
      simp only [List.mem_append, List.mem_map]
      exact ⟨.inl ⟨_, h1, rfl⟩, .inl ⟨_, h2, rfl⟩⟩
    · obtain ⟨h1, h2⟩ := ih j hj
      rw [words]
      simp only [List.mem_append, List.mem_map]
      exact ⟨.inr ⟨_, h1, rfl⟩, .inr ⟨_, h2, rfl⟩⟩

theorem idwtAxis_isSome (w : Wavelet R) (mode : Mode) (axis : Nat) (L H : Option (Arr M))
    {r : Option (Arr M)} (h : idwtAxis w mode axis L H = .ok r) :
    r.isSome = (L.isSome || H.isSome) := by
  unfold idwtAxis idwtAxisMem at h
  cases L with
  | none =>
    cases H with
    | none =>
      simp only [Option.map_none, HOrElse.hOrElse, OrElse.orElse, Option.orElse, Py_pure] at h
      injection h with h; subst h; rfl
    | some y =>
      simp only [Option.map_none, Option.map_some, HOrElse.hOrElse, OrElse.orElse,
        Option.orElse] at h
      split at h
      · simp at h
      · simp only [Py_pure, Py_bind_ok] at h
        split at h
        · simp at h
        · revert h
          generalize callC _ = c
          cases c with
          | error e => intro h; simp at h
          | ok v =>
            simp only [Py_bind_ok]
            generalize toArr _ v = t
            cases t with
            | error e => intro h; simp at h
            | ok t => intro h; simp at h; subst h; rfl
  | some x =>
    simp only [Option.map_some, HOrElse.hOrElse, OrElse.orElse,
      Option.orElse] at h
    split at h
    · simp at h
    · simp only [Py_pure, Py_bind_ok] at h
      split at h
      · simp at h
      · revert h
        generalize callC _ = c
        cases c with
        | error e => intro h; simp at h
        | ok v =>
          simp only [Py_bind_ok]
          generalize toArr _ v = t
          cases t with
          | error e => intro h; simp at h
          | ok t => intro h; simp at h; subst h; rfl

/-- The invariant of the loop of `idwtn`. -/
def LoopOk (inp : List (Key × Typed (Arr M))) (n j : Nat) (c : TDict M) : Prop :=
  (∀ k ∈ words j, BandOk inp n k (TDict.get c k)) ∧
    (j < n → ∀ k t, TDict.get c k = some t → Supported t.dtype)

theorem tidwtnStep_agrees (inp : List (Key × Typed (Arr M))) (n j : Nat)
    (hk : ∀ p ∈ inp, ∀ c ∈ p.1, c = 'a' ∨ c = 'd') (hj : j < n)
    (axis : Nat) (w : Wavelet R) (mode : Mode) (c : TDict M) (hc : LoopOk inp n (j + 1) c)
    (keys : List Key) (hkeys : ∀ k ∈ keys, k ∈ words j) :
    Agrees (fun r r' => r' = eraseT r ∧ r.map (·.1) = keys ∧
        ∀ p ∈ r, BandOk inp n p.1 p.2 ∧ ∀ t ∈ p.2, Supported t.dtype)
      (tidwtnStep re axis w mode c keys) (idwtnStep axis w mode (eraseT c) keys) := by
  induction keys with
  | nil => exact ⟨rfl, rfl, by simp⟩
  | cons k keys ih =>
    simp only [tidwtnStep, idwtnStep, tidwtAxis_eq, get_eraseT]
    have hkw := hkeys k (by simp)
    obtain ⟨ha, hd⟩ := words_snoc_both j k hkw
    have hA := hc.1 _ ha
    have hD := hc.1 _ hd
    have hlt : k.length < n := by rw [words_length' j k hkw]; exact hj
    generalize TDict.get c (k ++ ['a']) = L at *
    generalize TDict.get c (k ++ ['d']) = H at *
    cases hr : idwtAxis w mode axis (L.map (·.val)) (H.map (·.val)) with
    | error e => rfl
    | ok r =>
      simp only [Except.map, Py_bind_ok]
      refine (ih fun k' h => hkeys k' (by simp [h])).bind ?_
      rintro q q' ⟨rfl, h2, h3⟩
      have hs := idwtAxis_isSome w mode axis _ _ hr
      refine ⟨?_, by simp [h2], ?_⟩
      · have : Option.map (fun x => x.val) (Option.map (fun v =>
            (⟨pairD (L.map (·.dtype)) (H.map (·.dtype)), v⟩ : Typed (Arr M))) r) = r := by
          cases r <;> rfl
        simp only [eraseT, List.map_cons, this]
      · intro p hp
        rcases List.mem_cons.1 hp with rfl | hp
        · dsimp only
          cases L with
          | none =>
            cases H with
            | none =>
              cases r with
              | some _ => simp at hs
              | none =>
                refine ⟨?_, by simp⟩
                intro d hb
                rcases (below_split inp n hk k hlt d).1 hb with h | h
                · exact hA d h
                · exact hD d h
            | some h =>
              cases r with
              | none => simp at hs
              | some r =>
                refine ⟨⟨?_, ?_⟩, ?_⟩
                · obtain ⟨d, hd'⟩ := hD.1
                  exact ⟨d, (below_split inp n hk k hlt d).2 (.inr hd')⟩
                · refine (PreS.check hD.2).congr fun d => ?_
                  rw [below_split inp n hk k hlt d]
                  exact ⟨.inr, fun h => h.elim (fun h => absurd h (hA d)) id⟩
                · intro t ht; simp at ht; subst ht; exact pairD_supported none (some h.dtype)
          | some l =>
            cases H with
            | none =>
              cases r with
              | none => simp at hs
              | some r =>
                refine ⟨⟨?_, ?_⟩, ?_⟩
                · obtain ⟨d, hd'⟩ := hA.1
                  exact ⟨d, (below_split inp n hk k hlt d).2 (.inl hd')⟩
                · refine (PreS.check hA.2).congr fun d => ?_
                  rw [below_split inp n hk k hlt d]
                  exact ⟨.inl, fun h => h.elim id (fun h => absurd h (hD d))⟩
                · intro t ht; simp at ht; subst ht; exact pairD_supported (some l.dtype) none
            | some h =>
              cases r with
              | none => simp at hs
              | some r =>
                refine ⟨⟨?_, ?_⟩, ?_⟩
                · obtain ⟨d, hd'⟩ := hA.1
                  exact ⟨d, (below_split inp n hk k hlt d).2 (.inl hd')⟩
                · refine (preS_pair hA.2 hD.2).congr fun d => ?_
                  rw [below_split inp n hk k hlt d]
                · intro t ht; simp at ht; subst ht; exact pairD_supported (some l.dtype) (some h.dtype)
        · exact h3 p hp

theorem tidwtnLoop_agrees (inp : List (Key × Typed (Arr M))) (n ndim : Nat)
    (hk : ∀ p ∈ inp, ∀ c ∈ p.1, c = 'a' ∨ c = 'd') (st : List (Int × Wavelet R × Mode)) :
    ∀ c : TDict M, st.length ≤ n → LoopOk inp n st.length c →
      Agrees (fun r r' => r' = eraseT r ∧ LoopOk inp n 0 r)
        (tidwtnLoop re ndim st c) (idwtnLoop ndim st (eraseT c)) := by
  induction st with
  | nil => intro c _ hc; exact ⟨rfl, hc⟩
  | cons s st ih =>
    intro c hn hc
    obtain ⟨axis, w, mode⟩ := s
    simp only [List.length_cons] at hn hc
    simp only [tidwtnLoop, idwtnLoop]
    split
    · rfl
    · refine (tidwtnStep_agrees re inp n st.length hk (by omega) axis.toNat w mode c hc _
        fun k h => h).bind ?_
      rintro r r' ⟨rfl, h2, h3⟩
      refine ih r (by omega) ⟨fun k hkw => ?_, fun _ k t ht => ?_⟩
      · obtain ⟨o, ho, hm⟩ := lookup_mem_keys r k (by rw [h2]; exact hkw)
        have : TDict.get r k = o := by simp [TDict.get, ho]
        rw [this]
        exact (h3 _ hm).1
      · have hkr : k ∈ r.map (·.1) := by
          by_contra hne
          have := lookup_not_mem r k hne
          simp [TDict.get, this] at ht
        obtain ⟨o, ho, hm⟩ := lookup_mem_keys r k hkr
        have : TDict.get r k = o := by simp [TDict.get, ho]
        rw [this] at ht
        exact (h3 _ hm).2 t (by simp [ht])

theorem lookup_unique {α : Type} (c : List (Key × α)) (hn : (c.map (·.1)).Nodup) (k : Key) (v : α)
    (h : (k, v) ∈ c) : c.lookup k = some v := by
  induction c with
  | nil => simp at h
  | cons p c ih =>
    obtain ⟨k', o⟩ := p
    simp only [List.map_cons, List.nodup_cons] at hn
    rw [List.lookup_cons]
    rcases List.mem_cons.1 h with h | h'
    · injection h with h1 h2; subst h1; subst h2; simp
    · have : k ≠ k' := by rintro rfl; exact hn.1 (List.mem_map.2 ⟨(k, v), h', rfl⟩)
      have : (k == k') = false := by simpa using this
      rw [this]; exact ih hn.2 h'

theorem tdropNone_erase (c : TDict M) :
    dropNone (eraseT c) = (tdropNone c).map fun p => (p.1, p.2.val) := by
  induction c with
  | nil => rfl
  | cons p c ih =>
    obtain ⟨k, o⟩ := p
    have h1 : ∀ (l : CDict M) x, dropNone ((k, x) :: l) = (x.map fun v => (k, v)).toList ++ dropNone l := by
      intro l x; cases x <;> simp [dropNone]
    have h2 : ∀ (l : TDict M) x, tdropNone ((k, x) :: l) = (x.map fun v => (k, v)).toList ++ tdropNone l := by
      intro l x; cases x <;> simp [tdropNone]
    have h3 : eraseT ((k, o) :: c) = (k, o.map (·.val)) :: eraseT c := rfl
    rw [h3, h1, h2, ih]
    cases o <;> simp

theorem tdropNone_nodup (c : TDict M) (h : (c.map (·.1)).Nodup) :
    ((tdropNone c).map (·.1)).Nodup := by
  have : ((tdropNone c).map (·.1)).Sublist (c.map (·.1)) := by
    induction c with
    | nil => exact List.Sublist.refl _
    | cons p c ih =>
      obtain ⟨k, o⟩ := p
      have hc := ih (by simp at h; exact h.2)
      cases o with
      | none => exact List.Sublist.cons _ hc
      | some v => exact List.Sublist.cons_cons _ hc
  exact this.nodup h

theorem dictD_eq (c : TDict M) : dictD c = (tdropNone c).map fun p => p.2.dtype := by
  induction c with
  | nil => rfl
  | cons p c ih =>
    obtain ⟨k, o⟩ := p
    cases o <;> simp_all [dictD, tdropNone]

theorem tidwtn_agrees (c : TDict M) (hc : (c.map (·.1)).Nodup) (wavelet : PerAxis (Wavelet R))
    (mode : PerAxis Mode) (axes : Option (List Int)) :
    Agrees (fun r r' => r.map (·.val) = r' ∧
        ∀ t ∈ r, PreS (· ∈ dictD c) t.dtype ∧ ((∀ p ∈ c, p.1 ≠ []) → Supported t.dtype))
      (tidwtn re c wavelet mode axes) (idwtn (eraseT c) wavelet mode axes) := by
  unfold tidwtn idwtn
  rw [tdropNone_erase, dictD_eq]
  have hnd := tdropNone_nodup c hc
  have hne : (∀ p ∈ c, p.1 ≠ []) → ∀ p ∈ tdropNone c, p.1 ≠ [] := by
    intro h p hp
    simp only [tdropNone, List.mem_filterMap, Option.map_eq_some_iff] at hp
    obtain ⟨q, hq, v, _, rfl⟩ := hp
    exact h q hq
  generalize tdropNone c = cs at *
  simp only [List.map_map]
  have hkeys : (List.map ((fun x => x.1) ∘ fun p : Key × Typed (Arr M) => (p.1, p.2.val)) cs)
      = cs.map (·.1) := by simp [Function.comp_def]
  rw [hkeys]
  by_cases hko : keysOk (cs.map (·.1)) = true
  swap
  · simp [hko, throw, throwThe, MonadExceptOf.throw, bind, Except.bind, Agrees]
  simp only [hko, Bool.not_true, Bool.false_eq_true, if_false, Py_pure, Py_bind_ok]
  cases cs with
  | nil => rfl
  | cons p0 cs0 =>
    obtain ⟨k0, v0⟩ := p0
    simp only [List.map_cons]
    set cs := (k0, v0) :: cs0 with hcs
    have hany : ((k0, v0.val) :: cs0.map fun p => (p.1, p.2.val)).any
          (fun p => decide (p.2.shape ≠ v0.val.shape))
        = cs.any fun p => decide (p.2.val.shape ≠ v0.val.shape) := by
      simp [hcs, List.any_map, Function.comp_def]
    rw [hany]
    split
    · rfl
    · cases hm : mode.expand (normAxes (idwtnDim axes k0.length v0.val.shape.length)
          (axes.getD (rangeAxes k0.length))).length with
      | error e => rfl
      | ok ms =>
      cases hw : wavelet.expand (normAxes (idwtnDim axes k0.length v0.val.shape.length)
          (axes.getD (rangeAxes k0.length))).length with
      | error e => rfl
      | ok ws =>
      simp only [Py_bind_ok]
      generalize (zipStages _ ws ms).reverse = st
      have hko' := hko
      simp only [keysOk, Bool.and_eq_true, List.all_eq_true, decide_eq_true_eq, Bool.or_eq_true] at hko'
      have hlet : ∀ p ∈ cs, ∀ ch ∈ p.1, ch = 'a' ∨ ch = 'd' := by
        intro p hp ch hch
        exact hko'.1 p.1 (List.mem_map.2 ⟨p, hp, rfl⟩) ch hch
      have hlen : ∀ p ∈ cs, p.1.length = k0.length := by
        intro p hp
        have := hko'.2 p.1 (List.mem_map.2 ⟨p, hp, rfl⟩)
        simpa [hcs] using this
      have her : ((k0, some v0.val) :: cs0.map fun p => (p.1, some p.2.val))
          = eraseT (cs.map fun p => (p.1, some p.2)) := by
        simp [eraseT, hcs, Function.comp_def]
      have hget : ∀ k, TDict.get (cs.map fun p => (p.1, some p.2)) k = cs.lookup k := by
        intro k
        generalize cs = l
        induction l with
        | nil => rfl
        | cons p l ih =>
          obtain ⟨k', o⟩ := p
          simp only [TDict.get, List.map_cons, List.lookup_cons] at ih ⊢
          cases k == k' with
          | true => rfl
          | false => exact ih
      have hL : LoopOk cs st.length st.length (cs.map fun p => (p.1, some p.2)) := by
        refine ⟨fun k hkw => ?_, fun h => absurd h (lt_irrefl _)⟩
        rw [hget]
        have hkl := words_length' _ k hkw
        cases hl : cs.lookup k with
        | none =>
          rintro d ⟨p, hp, hpn, hpre, _⟩
          have hpk : p.1 = k := (hpre.eq_of_length (by rw [hkl, hpn])).symm
          have := lookup_unique cs hnd k p.2 (by rw [← hpk]; exact hp)
          rw [hl] at this; simp at this
        | some t =>
          have hmem : (k, t) ∈ cs := by
            have hkc : k ∈ cs.map (·.1) := by
              by_contra hne
              have := lookup_not_mem cs k hne
              rw [hl] at this; simp at this
            obtain ⟨o, h1, h2⟩ := lookup_mem_keys cs k hkc
            rw [hl] at h1; injection h1 with h1; subst h1; exact h2
          refine ⟨⟨t.dtype, (k, t), hmem, hkl, List.prefix_rfl, rfl⟩, ?_⟩
          refine (preS_single t.dtype).congr fun d => ⟨?_, ?_⟩
          · rintro rfl; exact ⟨(k, t), hmem, hkl, List.prefix_rfl, rfl⟩
          · rintro ⟨p, hp, hpn, hpre, rfl⟩
            have hpk : p.1 = k := (hpre.eq_of_length (by rw [hkl, hpn])).symm
            have := lookup_unique cs hnd k p.2 (by rw [← hpk]; exact hp)
            rw [hl] at this; injection this with this; rw [this]
      have hfold : (k0, some v0) :: cs0.map (fun p => (p.1, some p.2))
          = cs.map fun p => (p.1, some p.2) := by simp [hcs]
      simp only [Function.comp_def]
      rw [her]
      rw [hfold]
      refine (tidwtnLoop_agrees re cs st.length _ hlet st _ le_rfl hL).bind ?_
      rintro r r' ⟨rfl, h1, h2⟩
      have hb := h1 [] (by simp [words])
      have hlk : ∀ (r : TDict M), lookupKey (eraseT r) [] = (lookupKey r []).map fun o => o.map (·.val) := by
        intro r
        induction r with
        | nil => rfl
        | cons p r ih =>
          obtain ⟨k', o⟩ := p
          simp only [lookupKey, eraseT, List.map_cons, List.lookup_cons] at ih ⊢
          cases (([] : Key) == k') with
          | true => rfl
          | false => exact ih
      rw [hlk]
      cases hr : lookupKey r [] with
      | error e => rfl
      | ok o =>
        have hg : TDict.get r [] = o := by
          unfold lookupKey at hr
          cases h : r.lookup [] with
          | none => rw [h] at hr; simp at hr
          | some x => rw [h] at hr; injection hr with hr; subst hr; simp [TDict.get, h]
        refine ⟨rfl, fun t ht => ?_⟩
        have ho : o = some t := ht
        rw [hg, ho] at hb
        have hex := hb.1
        obtain ⟨d, p, hp, hpn, _, _⟩ := hex
        have hst : st.length = k0.length := by rw [← hpn, hlen p hp]
        have hmap : v0.dtype :: cs0.map (fun p => p.2.dtype) = cs.map fun p => p.2.dtype := by
          simp [hcs]
        refine ⟨hb.2.congr fun d => ?_, fun hne' => ?_⟩
        rw [hmap]
        · constructor
          · rintro ⟨p, hp, _, _, rfl⟩
            exact List.mem_map.2 ⟨p, hp, rfl⟩
          · intro hd
            obtain ⟨p, hp, rfl⟩ := List.mem_map.1 hd
            exact ⟨p, hp, by rw [hst, hlen p hp], List.nil_prefix, rfl⟩
        · refine h2 ?_ [] t (by rw [hg, ho])
          rw [← hpn]
          exact List.length_pos_iff.2 (hne hne' p hp)

end Pywt
