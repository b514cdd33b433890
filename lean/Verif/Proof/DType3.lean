import Verif.Proof.DType2

/-!
# Data types of `iswtn`, `iswt2`, `coeffs_to_array` and of the nodes of wavelet packets
-/

set_option linter.unusedSectionVars false

namespace Pywt

open Spec

variable {R M : Type} [Ring R] [AddCommGroup M] [Module R M] (re : M → M)

theorem foldl_or (l : List DType) : ∀ b : Bool,
    l.foldl (fun c e => c || e.isComplex) b = (b || l.any (·.isComplex)) := by
  induction l with
  | nil => simp
  | cons a l ih => intro b; simp [ih, Bool.or_assoc]

theorem resultType_complex (d : DType) (ds : List DType) :
    (d.resultType ds).isComplex = (d.isComplex || ds.any (·.isComplex)) := by
  unfold DType.resultType
  rw [foldl_or]
  generalize (d.isComplex || ds.any (·.isComplex)) = c
  dsimp only
  split
  · cases c <;> rfl
  · split <;> cases c <;> rfl

theorem foldl_max_same (b : Nat) (l : List Nat) (h : ∀ x ∈ l, x = b) : l.foldl max b = b := by
  induction l with
  | nil => rfl
  | cons a l ih =>
    have : a = b := h a (by simp)
    subst this
    simp only [List.foldl_cons, max_self]
    exact ih fun x hx => h x (by simp [hx])

theorem resultType_same {T : DType} (hT : Supported T) (ds : List DType) (h : ∀ d ∈ ds, d = T) :
    T.resultType ds = T := by
  have h1 : (ds.map DType.bits).foldl max T.bits = T.bits := by
    refine foldl_max_same _ _ fun x hx => ?_
    obtain ⟨d, hd, rfl⟩ := List.mem_map.1 hx
    rw [h d hd]
  have h2 : ds.foldl (fun c e => c || e.isComplex) T.isComplex = T.isComplex := by
    rw [foldl_or]
    cases hc : T.isComplex with
    | true => simp
    | false =>
      simp only [Bool.false_or, List.any_eq_false]
      intro d hd
      rw [h d hd, hc]; simp
  unfold DType.resultType
  simp only [h1, h2]
  rcases hT with rfl | rfl | rfl | rfl <;> simp [DType.bits, DType.isComplex]

/-- The dtypes of a dict of arrays. -/
def keyD (d : List (Key × Typed (Arr M))) : List (Key × DType) := d.map fun p => (p.1, p.2.dtype)

theorem tsliceDict_agrees (sl : List Stride) (d : List (Key × Typed (Arr M))) :
    Agrees (fun r r' => r' = eraseDict r ∧ keyD r = keyD d) (tsliceDict sl d)
      (sliceDict sl (eraseDict d)) := by
  induction d with
  | nil => exact ⟨rfl, rfl⟩
  | cons p d ih =>
    obtain ⟨k, v⟩ := p
    have h1 : eraseDict ((k, v) :: d) = (k, v.val) :: eraseDict d := rfl
    rw [h1]
    simp only [tsliceDict, sliceDict]
    cases v.val.getStrides sl with
    | error e => rfl
    | ok x =>
      simp only [Py_bind_ok]
      refine ih.bind ?_
      rintro r r' ⟨rfl, h2⟩
      refine ⟨rfl, ?_⟩
      simp only [keyD, List.map_cons] at h2 ⊢
      rw [h2]

theorem eraseDict_set (d : List (Key × Typed (Arr M))) (k : Key) (v : Typed (Arr M)) :
    eraseDict (dictSet d k v) = dictSet (eraseDict d) k v.val := by
  induction d with
  | nil => rfl
  | cons p d ih =>
    obtain ⟨k', v'⟩ := p
    simp only [dictSet, eraseDict, List.map_cons] at ih ⊢
    split
    · rfl
    · simp only [List.map_cons, ih]

theorem dictSet_mem {α : Type} (d : List (Key × α)) (k : Key) (v : α) :
    ∀ p ∈ dictSet d k v, p = (k, v) ∨ p ∈ d := by
  induction d with
  | nil => simp [dictSet]
  | cons q d ih =>
    obtain ⟨k', v'⟩ := q
    intro p hp
    simp only [dictSet] at hp
    split at hp
    · rcases List.mem_cons.1 hp with h | h
      · exact .inl h
      · exact .inr (by simp [h])
    · rcases List.mem_cons.1 hp with h | h
      · exact .inr (by simp [h])
      · rcases ih p h with h | h
        · exact .inl h
        · exact .inr (by simp [h])

theorem dictSet_nodup_keys {α : Type} (d : List (Key × α)) (k : Key) (v : α)
    (h : (d.map (·.1)).Nodup) : ((dictSet d k v).map (·.1)).Nodup := by
  induction d with
  | nil => simp [dictSet]
  | cons q d ih =>
    obtain ⟨k', v'⟩ := q
    simp only [List.map_cons, List.nodup_cons] at h
    simp only [dictSet]
    split
    · rename_i he; subst he; simpa using h
    · rename_i he
      simp only [List.map_cons, List.nodup_cons]
      refine ⟨fun hm => ?_, ih h.2⟩
      obtain ⟨p, hp, hpk⟩ := List.mem_map.1 hm
      rcases dictSet_mem d k v p hp with rfl | hp
      · exact he hpk.symm
      · exact h.1 (List.mem_map.2 ⟨p, hp, hpk⟩)

theorem some_erase (d : List (Key × Typed (Arr M))) :
    eraseT (d.map fun p => (p.1, some p.2)) = (eraseDict d).map fun p => (p.1, some p.2) := by
  simp [eraseT, eraseDict, Function.comp_def]

theorem dictD_some (d : List (Key × Typed (Arr M))) :
    dictD (d.map fun p => (p.1, some p.2)) = d.map fun p => p.2.dtype := by
  induction d with
  | nil => rfl
  | cons p d ih => simp_all [dictD]

theorem tiswtnOdd_agrees (c : IswtnArgs R) (step : Nat) (firsts sh : List Nat)
    (details : List (Key × Typed (Arr M))) (hn : (details.map (·.1)).Nodup)
    (T : DType) (hd : ∀ p ∈ details, p.2.dtype.isComplex = true → T.isComplex = true)
    (approx output : Arr M) (odds : List Nat) :
    Agrees (fun r v => r = ⟨T, v⟩)
      (tiswtnOdd re c step firsts sh details ⟨T, approx⟩ ⟨T, output⟩ odds)
      (iswtnOdd c step firsts sh (eraseDict details) approx output odds) := by
  unfold tiswtnOdd iswtnOdd
  refine (tsliceDict_agrees _ details).bind ?_
  rintro ds ds' ⟨rfl, hkd⟩
  dsimp only
  cases approx.getStrides (placeSlices c.ndim c.axs (oddEven step firsts sh odds)) with
  | error e => rfl
  | ok a =>
  simp only [Py_bind_ok]
  have hnd : (ds.map (·.1)).Nodup := by
    have h1 : ds.map (·.1) = (keyD ds).map (·.1) := by simp [keyD, Function.comp_def]
    have h2 : details.map (·.1) = (keyD details).map (·.1) := by simp [keyD, Function.comp_def]
    rw [h1, hkd, ← h2]; exact hn
  have hset := eraseDict_set ds (aKey c.m) ⟨T, a⟩
  dsimp only at hset
  rw [← hset]
  have hdd : ∀ p ∈ dictSet ds (aKey c.m) ⟨T, a⟩, p.2.dtype.isComplex = true → T.isComplex = true := by
    intro p hp hc
    rcases dictSet_mem _ _ _ p hp with rfl | hp
    · exact hc
    · have : (p.1, p.2.dtype) ∈ keyD details := by
        rw [← hkd]; exact List.mem_map.2 ⟨p, hp, rfl⟩
      obtain ⟨q, hq, he⟩ := List.mem_map.1 this
      injection he with _ he
      exact hd q hq (by rw [he]; exact hc)
  have hnd' := dictSet_nodup_keys ds (aKey c.m) ⟨T, a⟩ hnd
  generalize dictSet ds (aKey c.m) ⟨T, a⟩ = all at *
  rw [← some_erase]
  have hnd2 : ((all.map fun p => (p.1, some p.2)).map (·.1)).Nodup := by
    simpa [Function.comp_def] using hnd'
  refine (tidwtn_agrees re (all.map fun p => (p.1, some p.2)) hnd2 (.many c.wavelets)
    (.one .periodization) (some c.axes)).bind ?_
  rintro r r' ⟨rfl, hr⟩
  cases r with
  | none => rfl
  | some x =>
    simp only [Option.map_some]
    have hx := (hr x rfl).1
    have : (x.dtype.isComplex && !T.isComplex) = false := by
      cases hxc : x.dtype.isComplex with
      | false => rfl
      | true =>
        obtain ⟨d, hdm, hdc⟩ := hx.complex.1 hxc
        rw [dictD_some] at hdm
        obtain ⟨p, hp, rfl⟩ := List.mem_map.1 hdm
        simp [hdd p hp hdc]
    simp only [this, Bool.false_eq_true, if_false]
    cases output.addStrides (placeSlices c.ndim c.axs ((firsts.zip sh).map fun p => .by p.1 p.2 step))
        (rollOdds c.axs odds x.val) with
    | error e => rfl
    | ok v => rfl

theorem foldlM_agrees {α β γ : Type} {P : β → γ → Prop} {g : β → α → Py β} {h : γ → α → Py γ}
    (hgh : ∀ b c a, P b c → Agrees P (g b a) (h c a)) (l : List α) :
    ∀ b c, P b c → Agrees P (l.foldlM g b) (l.foldlM h c) := by
  induction l with
  | nil => intro b c hp; exact hp
  | cons a l ih =>
    intro b c hp
    simp only [List.foldlM_cons]
    exact (hgh b c a hp).bind fun b' c' h' => ih b' c' h'

variable [Invertible (2 : R)]

theorem tiswtnFirst_agrees (c : IswtnArgs R) (step : Nat) (sh : List Nat)
    (details : List (Key × Typed (Arr M))) (hn : (details.map (·.1)).Nodup)
    (T : DType) (hd : ∀ p ∈ details, p.2.dtype.isComplex = true → T.isComplex = true)
    (output : Arr M) (firsts : List Nat) :
    Agrees (fun r v => r = ⟨T, v⟩)
      (tiswtnFirst re c step sh details ⟨T, output⟩ firsts)
      (iswtnFirst c step sh (eraseDict details) output firsts) := by
  unfold tiswtnFirst iswtnFirst
  refine (foldlM_agrees (P := fun r v => r = ⟨T, v⟩) ?_ _ _ _ rfl).bind ?_
  · rintro b v odds rfl
    exact tiswtnOdd_agrees re c step firsts sh details hn T hd output v odds
  · rintro b v rfl
    rfl

theorem tiswtnLevel_agrees (dt : DType) (axes : List Int) (wavelets : List (Wavelet R)) (m step : Nat)
    (details : List (Key × Typed (Arr M))) (hn : (details.map (·.1)).Nodup) (output : Typed (Arr M))
    (ho : output.dtype.isComplex = true →
      (dt.resultType (details.map fun p => p.2.dtype)).isComplex = true) :
    Agrees (fun r v => r = ⟨dt.resultType (details.map fun p => p.2.dtype), v⟩)
      (tiswtnLevel re dt axes wavelets m step details output)
      (iswtnLevel axes wavelets m step (eraseDict details) output.val) := by
  unfold tiswtnLevel iswtnLevel
  have hd : ∀ p ∈ details, p.2.dtype.isComplex = true →
      (dt.resultType (details.map fun p => p.2.dtype)).isComplex = true := by
    intro p hp hc
    rw [resultType_complex]
    have : (details.map fun p => p.2.dtype).any (·.isComplex) = true :=
      List.any_eq_true.2 ⟨p.2.dtype, List.mem_map.2 ⟨p, hp, rfl⟩, hc⟩
    simp [this]
  generalize hC : dt.resultType (details.map fun p => p.2.dtype) = C at *
  have hcast : (if output.dtype ≠ C then output.astypeN re C else output) = ⟨C, output.val⟩ := by
    split
    · exact astypeN_of re (castVal_of re ho)
    · rename_i h
      push Not at h
      cases output; simp at h; simp [h]
  dsimp only
  rw [hcast]
  cases details with
  | nil => rfl
  | cons p ds =>
    obtain ⟨k0, d0⟩ := p
    have h1 : eraseDict ((k0, d0) :: ds) = (k0, d0.val) :: eraseDict ds := rfl
    rw [h1]
    dsimp only
    rw [← h1]
    have hany : (eraseDict ((k0, d0) :: ds)).any (fun p => decide (p.2.shape ≠ d0.val.shape))
        = ((k0, d0) :: ds).any fun p => decide (p.2.val.shape ≠ d0.val.shape) := by
      simp [eraseDict, List.any_map, Function.comp_def]
    rw [hany]
    split
    · rfl
    · cases axes.mapM (listIx d0.val.ndim) with
      | error e => rfl
      | ok pos =>
      simp only [Py_bind_ok]
      cases axes.mapM (listIx output.val.ndim) with
      | error e => rfl
      | ok axs =>
      simp only [Py_bind_ok]
      refine foldlM_agrees ?_ _ _ _ rfl
      rintro b v firsts rfl
      exact tiswtnFirst_agrees re _ step _ _ hn C hd v firsts

/-- The loop of `iswtn` without its dicts. -/
theorem iswtnLoop_trimmed' (axes : List Int) (wavelets : List (Wavelet R)) (m : Nat) (d : ADict M)
    (done rest : List (ADict M)) (output : Arr M) :
    (iswtnLoop true axes wavelets m done (d :: rest) output).1
      = (do
          let o ← iswtnLevel axes wavelets m (2 ^ rest.length) d output
          (iswtnLoop true axes wavelets m (done ++ [d]) rest o).1) := by
  simp only [iswtnLoop, if_true]
  cases iswtnLevel axes wavelets m (2 ^ rest.length) d output with
  | error e => rfl
  | ok o => rfl

/-- The dtype at the end of the loop. -/
def lastD (dt : DType) (levels : List (List DType)) (o : DType) : DType :=
  levels.foldl (fun _ l => dt.resultType l) o

theorem tiswtnLoop_agrees (dt : DType) (axes : List Int) (wavelets : List (Wavelet R)) (m : Nat)
    (ds : List (List (Key × Typed (Arr M)))) (hn : ∀ d ∈ ds, (d.map (·.1)).Nodup)
    (hs : (levelD ds).Pairwise fun l l' =>
      (dt.resultType l).isComplex = true → (dt.resultType l').isComplex = true) :
    ∀ (done : List (ADict M)) (output : Typed (Arr M)),
      (output.dtype.isComplex = true → ∀ l ∈ levelD ds, (dt.resultType l).isComplex = true) →
      Agrees (fun r v => r = ⟨lastD dt (levelD ds) output.dtype, v⟩)
        (tiswtnLoop re dt axes wavelets m ds output)
        (iswtnLoop true axes wavelets m done (ds.map eraseDict) output.val).1 := by
  induction ds with
  | nil => intro done output _; rfl
  | cons d ds ih =>
    intro done output ho
    simp only [levelD, List.map_cons, List.pairwise_cons] at hs ho
    rw [List.map_cons, iswtnLoop_trimmed']
    simp only [tiswtnLoop, List.length_map]
    refine (tiswtnLevel_agrees re dt axes wavelets m _ d (hn d (by simp)) output
      fun h => ho h _ (by simp)).bind ?_
    rintro r v rfl
    exact ih (fun d' h => hn d' (by simp [h])) hs.2 _ ⟨_, v⟩ fun h l hl => hs.1 l hl h

theorem lastD_complex (dt : DType) (levels : List (List DType)) :
    ∀ o : DType,
    (levels.Pairwise fun l l' =>
      (dt.resultType l).isComplex = true → (dt.resultType l').isComplex = true) →
    (o.isComplex = true → ∀ l ∈ levels, (dt.resultType l).isComplex = true) →
    ((lastD dt levels o).isComplex = true ↔
      o.isComplex = true ∨ ∃ l ∈ levels, (dt.resultType l).isComplex = true) := by
  induction levels with
  | nil => intro o _ _; simp [lastD]
  | cons l ls ih =>
    intro o hs ho
    rw [List.pairwise_cons] at hs
    have := ih (dt.resultType l) hs.2 fun h l' hl' => hs.1 l' hl' h
    have he : lastD dt (l :: ls) o = lastD dt ls (dt.resultType l) := rfl
    rw [he, this]
    constructor
    · rintro (h | ⟨l', h, h'⟩)
      · exact .inr ⟨l, by simp, h⟩
      · exact .inr ⟨l', by simp [h], h'⟩
    · rintro (h | ⟨l', h, h'⟩)
      · exact .inl (ho h l (by simp))
      · rcases List.mem_cons.1 h with rfl | h
        · exact .inl h'
        · exact .inr ⟨l', h, h'⟩

theorem lastD_same {T : DType} (hT : Supported T) (levels : List (List DType))
    (h : ∀ l ∈ levels, ∀ d ∈ l, d = T) : lastD T levels T = T := by
  induction levels with
  | nil => rfl
  | cons l ls ih =>
    have he : lastD T (l :: ls) T = lastD T ls (T.resultType l) := rfl
    rw [he, resultType_same hT l (h l (by simp))]
    exact ih fun l' hl' => h l' (by simp [hl'])

theorem stays_resultType (a : DType) (l : List DType) :
    (a.check.resultType l).isComplex = true ↔ (Cplx a ∨ ∃ d ∈ l, Cplx d) := by
  simp only [resultType_complex, check_complex, Bool.or_eq_true, List.any_eq_true, cplx_iff]

theorem tiswtn_agrees (cA : Typed (Arr M)) (ds : List (List (Key × Typed (Arr M))))
    (hn : ∀ d ∈ ds, (d.map (·.1)).Nodup) (hs : StaysComplex cA.dtype (levelD ds))
    (wavelet : PerAxis (Wavelet R)) (axes : Option (List Int)) (norm : Option R) :
    Agrees (fun r v => r = ⟨lastD cA.dtype.check (levelD ds) cA.dtype.check, v⟩)
      (tiswtn re cA ds wavelet axes norm)
      (iswtn (.trimmed cA.val (ds.map eraseDict)) wavelet axes norm) := by
  unfold tiswtn iswtn iswtnFull
  cases hp : iswtnPrep (.trimmed cA.val (ds.map eraseDict)) wavelet axes norm with
  | error e => rfl
  | ok p =>
    obtain ⟨m, a, axs, ws⟩ := p
    have ha : a = cA.val := by
      unfold iswtnPrep at hp
      revert hp
      generalize swtnKeyLen _ = q
      intro hp
      cases q with
      | error e => simp at hp
      | ok n =>
        simp only [Py_bind_ok, swtnApprox0] at hp
        split at hp
        · simp at hp
        · split at hp
          · simp at hp
          · revert hp
            generalize wavelet.expand _ = q
            intro hp
            cases q with
            | error e => simp at hp
            | ok w =>
              simp only [Py_bind_ok, Py_pure, Except.ok.injEq, Prod.mk.injEq] at hp
              exact hp.2.1.symm
    subst ha
    simp only [Py_bind_ok]
    rw [astypeN_of re (castVal_check re cA.dtype)]
    refine tiswtnLoop_agrees re cA.dtype.check axs ws m ds hn ?_ [] ⟨_, cA.val⟩ ?_
    · unfold StaysComplex at hs
      refine hs.imp fun h => ?_
      rw [stays_resultType, stays_resultType]; exact h
    · intro h l _
      rw [stays_resultType]
      replace h : cA.dtype.check.isComplex = true := h
      rw [check_complex] at h
      exact .inl ((cplx_iff _).2 h)

/-! ### `iswt2` -/

theorem tiswt2Part_agrees (ws : List (Wavelet R)) (T dH dV dD : DType)
    (hc : dH.isComplex = true ∨ dV.isComplex = true ∨ dD.isComplex = true → T.isComplex = true)
    (output cH cV cD : Arr M) (h w : Stride) :
    Agrees (fun r v => r.val = v ∧ (r.dtype.isComplex = true → T.isComplex = true))
      (tiswt2Part re ws ⟨T, output⟩ ⟨dH, cH⟩ ⟨dV, cV⟩ ⟨dD, cD⟩ h w)
      (iswt2Part ws output cH cV cD h w) := by
  unfold tiswt2Part iswt2Part
  dsimp only
  cases output.getStrides [h, w] with
  | error e => rfl
  | ok a =>
  cases cH.getStrides [h, w] with
  | error e => rfl
  | ok xH =>
  cases cV.getStrides [h, w] with
  | error e => rfl
  | ok xV =>
  cases cD.getStrides [h, w] with
  | error e => rfl
  | ok xD =>
  simp only [Py_bind_ok]
  have := tidwtn_agrees re [(['a', 'a'], some ⟨T, a⟩), (['d', 'a'], some ⟨dH, xH⟩),
      (['a', 'd'], some ⟨dV, xV⟩), (['d', 'd'], some ⟨dD, xD⟩)] 
      (show List.Nodup [['a', 'a'], ['d', 'a'], ['a', 'd'], ['d', 'd']] by decide) (.many ws)
      (.one .periodization) (some [-2, -1])
  have h2 : idwt2 (some a, (some xH, some xV, some xD)) (.many ws) (.one .periodization) [-2, -1]
      = idwtn (eraseT [(['a', 'a'], some ⟨T, a⟩), (['d', 'a'], some ⟨dH, xH⟩),
          (['a', 'd'], some ⟨dV, xV⟩), (['d', 'd'], some ⟨dD, xD⟩)]) (.many ws)
          (.one .periodization) (some [-2, -1]) := rfl
  rw [h2]
  refine this.bind ?_
  rintro r r' ⟨rfl, hr⟩
  cases r with
  | none => rfl
  | some x =>
    refine ⟨rfl, fun hx => ?_⟩
    obtain ⟨d, hd, hdc⟩ := (hr x rfl).1.complex.1 hx
    simp only [dictD, List.filterMap_cons, Option.map_some, List.filterMap_nil, List.mem_cons,
      List.not_mem_nil, or_false] at hd
    rcases hd with rfl | rfl | rfl | rfl
    · exact hdc
    · exact hc (.inl hdc)
    · exact hc (.inr (.inl hdc))
    · exact hc (.inr (.inr hdc))

theorem tiswt2Phase_agrees (ws : List (Wavelet R)) (step : Nat) (T dH dV dD : DType)
    (hc : dH.isComplex = true ∨ dV.isComplex = true ∨ dD.isComplex = true → T.isComplex = true)
    (cH cV cD output : Arr M) (first : Nat × Nat) :
    Agrees (fun r v => r = ⟨T, v⟩)
      (tiswt2Phase re ws step ⟨dH, cH⟩ ⟨dV, cV⟩ ⟨dD, cD⟩ ⟨T, output⟩ first)
      (iswt2Phase ws step cH cV cD output first) := by
  unfold tiswt2Phase iswt2Phase
  dsimp only
  refine (tiswt2Part_agrees re ws T dH dV dD hc _ _ _ _ _ _).bind ?_
  rintro x1 _ ⟨rfl, h1⟩
  refine (tiswt2Part_agrees re ws T dH dV dD hc _ _ _ _ _ _).bind ?_
  rintro x2 _ ⟨rfl, h2⟩
  refine (tiswt2Part_agrees re ws T dH dV dD hc _ _ _ _ _ _).bind ?_
  rintro x3 _ ⟨rfl, h3⟩
  refine (tiswt2Part_agrees re ws T dH dV dD hc _ _ _ _ _ _).bind ?_
  rintro x4 _ ⟨rfl, h4⟩
  split
  · rfl
  · split
    · rfl
    · have : castVal re (x1.dtype.resultType [x2.dtype, x3.dtype, x4.dtype]) T = id := by
        refine castVal_of re fun h => ?_
        rw [resultType_complex] at h
        simp only [List.any_cons, List.any_nil, Bool.or_false, Bool.or_eq_true] at h
        rcases h with h | h | h | h
        · exact h1 h
        · exact h2 h
        · exact h3 h
        · exact h4 h
      simp only [this, id]
      rfl

theorem tiswt2Loop_agrees (dt : DType) (ws : List (Wavelet R))
    (ds : List (Typed (Arr M) × Typed (Arr M) × Typed (Arr M)))
    (hs : (levelD2 ds).Pairwise fun l l' => (dt.resultType (l.map DType.check)).isComplex = true →
      (dt.resultType (l'.map DType.check)).isComplex = true) :
    ∀ (output : Typed (Arr M)),
      (output.dtype.isComplex = true →
        ∀ l ∈ levelD2 ds, (dt.resultType (l.map DType.check)).isComplex = true) →
      Agrees (fun r v => r = ⟨lastD dt ((levelD2 ds).map fun l => l.map DType.check) output.dtype, v⟩)
        (tiswt2Loop re dt ws ds output) (iswt2Loop ws (erase2 ds) output.val) := by
  induction ds with
  | nil => intro output _; rfl
  | cons p ds ih =>
    intro output ho
    obtain ⟨⟨dH, cH⟩, ⟨dV, cV⟩, ⟨dD, cD⟩⟩ := p
    simp only [levelD2, List.map_cons, List.pairwise_cons] at hs ho
    have h1 : erase2 ((⟨dH, cH⟩, ⟨dV, cV⟩, ⟨dD, cD⟩) :: ds) = (cH, cV, cD) :: erase2 ds := rfl
    rw [h1]
    simp only [tiswt2Loop, iswt2Loop]
    split
    · rfl
    · have hl : (erase2 ds).length = ds.length := by simp [erase2]
      rw [hl]
      split
      · rfl
      · have ho' := fun h => ho h _ (List.mem_cons_self)
        have hcc : dH.isComplex = true ∨ dV.isComplex = true ∨ dD.isComplex = true →
            (dt.resultType [dH.check, dV.check, dD.check]).isComplex = true := by
          intro h
          rw [resultType_complex]
          simp only [List.any_cons, List.any_nil, check_complex, Bool.or_false, Bool.or_eq_true]
          exact .inr h
        have hcast : (if output.dtype ≠ dt.resultType [dH.check, dV.check, dD.check] then
            output.astypeN re (dt.resultType [dH.check, dV.check, dD.check]) else output)
            = ⟨dt.resultType [dH.check, dV.check, dD.check], output.val⟩ := by
          split
          · exact astypeN_of re (castVal_of re ho')
          · rename_i h
            push Not at h
            cases output; simp at h; simp [h]
        rw [hcast]
        refine (foldlM_agrees (P := fun r v => r = ⟨dt.resultType [dH.check, dV.check, dD.check], v⟩)
          ?_ _ _ _ rfl).bind ?_
        · rintro b v first rfl
          exact tiswt2Phase_agrees re ws _ _ dH dV dD hcc cH cV cD v first
        · rintro r v rfl
          exact ih hs.2 ⟨_, v⟩ fun h l hl => hs.1 l hl h

theorem stays_check (a : DType) (l : List DType) :
    (a.check.resultType (l.map DType.check)).isComplex = true ↔ (Cplx a ∨ ∃ d ∈ l, Cplx d) := by
  rw [stays_resultType]
  simp only [List.mem_map, exists_exists_and_eq_and, cplx_iff, check_complex]

theorem tiswt2_agrees (cA : Typed (Arr M)) (h2 : cA.val.ndim = 2)
    (ds : List (Typed (Arr M) × Typed (Arr M) × Typed (Arr M)))
    (hs : StaysComplex cA.dtype (levelD2 ds))
    (wavelet : PerAxis (Wavelet R)) (norm : Option R) :
    Agrees (fun r v =>
        r = ⟨lastD cA.dtype.check ((levelD2 ds).map fun l => l.map DType.check) cA.dtype.check, v⟩)
      (tiswt2 re cA ds wavelet norm)
      (iswt2 (.trimmed cA.val (erase2 ds)) wavelet norm [-2, -1]) := by
  unfold tiswt2 iswt2 swt2Parts
  simp only [h2, ne_eq, not_true_eq_false, if_false, or_self, Py_bind_ok]
  cases wavelet.expand 2 with
  | error e => rfl
  | ok ws =>
    simp only [Py_bind_ok]
    rw [astypeN_of re (castVal_check re cA.dtype)]
    refine tiswt2Loop_agrees re cA.dtype.check _ ds ?_ ⟨_, cA.val⟩ ?_
    · unfold StaysComplex at hs
      refine hs.imp fun h => ?_
      rw [stays_check, stays_check]; exact h
    · intro h l _
      rw [stays_check]
      replace h : cA.dtype.check.isComplex = true := h
      rw [check_complex] at h
      exact .inl ((cplx_iff _).2 h)

/-! ### `coeffs_to_array` -/

omit [Module R M] [Invertible (2 : R)] in
theorem stored_eq (T : DType) (c : TItem M) (h : ∀ d ∈ c.dtypes, d.isComplex = true → T.isComplex = true) :
    c.stored re T = c.erase := by
  cases c with
  | null => rfl
  | arr a =>
    simp only [TItem.stored, TItem.erase]
    rw [astypeN_of re (castVal_of re (h _ (by simp [TItem.dtypes])))]
  | tup l =>
    simp only [TItem.stored, TItem.erase, Item.tup.injEq]
    refine List.map_congr_left fun o ho => ?_
    cases o with
    | none => rfl
    | some a =>
      simp only [Option.map_some]
      rw [astypeN_of re (castVal_of re (h _ (by
        simp only [TItem.dtypes, List.mem_filterMap]; exact ⟨_, ho, rfl⟩)))]
  | dict d =>
    simp only [TItem.stored, TItem.erase, Item.dict.injEq]
    refine List.map_congr_left fun o ho => ?_
    obtain ⟨k, o⟩ := o
    cases o with
    | none => rfl
    | some a =>
      simp only [Option.map_some]
      rw [astypeN_of re (castVal_of re (h _ (by
        simp only [TItem.dtypes, List.mem_filterMap]; exact ⟨_, ho, rfl⟩)))]

theorem tcoeffsToArray_eq (a : Typed (Arr M)) (ds : List (TItem M))
    (h : ∀ c ∈ ds, ∀ d ∈ c.dtypes, d.isComplex = true → a.dtype.isComplex = true)
    (padding : Option M) (axes : Option (List Int)) (junk : Nat → M) :
    tcoeffsToArray re a ds padding axes junk
      = (coeffsToArray (.arr a.val :: ds.map TItem.erase) padding axes junk).map
          fun r => (⟨a.dtype, r.1⟩, r.2) := by
  unfold tcoeffsToArray
  have : ds.map (TItem.stored re a.dtype) = ds.map TItem.erase :=
    List.map_congr_left fun c hc => stored_eq re a.dtype c (h c hc)
  rw [this]
  exact py_map _ _

theorem travelCoeffs_eq (a : Typed (Arr M)) (ds : List (TItem M))
    (h : ∀ c ∈ ds, ∀ d ∈ c.dtypes, d.isComplex = true → a.dtype.isComplex = true)
    (axes : Option (List Int)) (junk : Nat → M) :
    travelCoeffs re a ds axes junk
      = (ravelCoeffs (.arr a.val :: ds.map TItem.erase) axes junk).map
          fun r => (⟨a.dtype, r.1⟩, r.2) := by
  unfold travelCoeffs
  have : ds.map (TItem.stored re a.dtype) = ds.map TItem.erase :=
    List.map_congr_left fun c hc => stored_eq re a.dtype c (h c hc)
  rw [this]
  exact py_map _ _

end Pywt
