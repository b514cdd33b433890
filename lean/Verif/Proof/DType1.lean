import Verif.Spec.DType
import Verif.Proof.Dwt

/-!
# Data types of the 1-D transforms
-/

set_option linter.unusedSectionVars false

namespace Pywt

open Spec

theorem cplx_iff (d : DType) : Cplx d ↔ d.isComplex = true := by
  cases d <;> simp [Cplx, DType.isComplex]

theorem check_complex (d : DType) : d.check.isComplex = d.isComplex := by
  cases d <;> rfl

theorem check_supported (d : DType) : Supported d.check := by
  cases d <;> simp [Supported, DType.check]

theorem check_of_supported {d : DType} (h : Supported d) : d.check = d := by
  rcases h with rfl | rfl | rfl | rfl <;> rfl

theorem check_precise (d : DType) : precision d ≤ precision d.check := by
  cases d <;> simp [precision, DType.check]

theorem kept_check (d : DType) : Kept [d] d.check where
  supported := check_supported d
  complex := by simp [cplx_iff, check_complex]
  precise := by simpa using check_precise d
  same := by
    intro T hT _ h
    have : d = T := h d (by simp)
    subst this; exact check_of_supported hT

theorem upcast_supported (a d : DType) : Supported (a.upcast d) := by
  unfold DType.upcast; split <;> simp [Supported]

theorem upcast_complex (a d : DType) : (a.upcast d).isComplex = (a.isComplex || d.isComplex) := by
  unfold DType.upcast
  split
  · rename_i h; simp [DType.isComplex] at *; tauto
  · rename_i h; simp [DType.isComplex] at *; tauto

theorem precision_le (d : DType) : precision d ≤ 64 := by cases d <;> simp [precision]

theorem upcast_precise (a d : DType) : precision (a.upcast d) = 64 := by
  unfold DType.upcast; split <;> rfl

/-- The common dtype of two checked arrays. -/
def joinD (a d : DType) : DType := if a = d then a else a.upcast d

theorem joinD_supported {a : DType} (ha : Supported a) (d : DType) : Supported (joinD a d) := by
  unfold joinD; split
  · exact ha
  · exact upcast_supported a d

theorem joinD_complex (a d : DType) : (joinD a d).isComplex = (a.isComplex || d.isComplex) := by
  unfold joinD; split
  · rename_i h; simp [h]
  · exact upcast_complex a d

theorem kept_join {A B : List DType} {x y : DType} (hA : A ≠ []) (hB : B ≠ [])
    (hx : Kept A x) (hy : Kept B y) : Kept (A ++ B) (joinD x y) where
  supported := joinD_supported hx.supported y
  complex := by
    have h1 := hx.complex
    have h2 := hy.complex
    simp only [cplx_iff] at h1 h2 ⊢
    rw [joinD_complex, Bool.or_eq_true, h1, h2]
    simp only [List.mem_append]
    constructor
    · rintro (⟨d, hd, h⟩ | ⟨d, hd, h⟩)
      · exact ⟨d, .inl hd, h⟩
      · exact ⟨d, .inr hd, h⟩
    · rintro ⟨d, hd | hd, h⟩
      · exact .inl ⟨d, hd, h⟩
      · exact .inr ⟨d, hd, h⟩
  precise := by
    intro d hd
    unfold joinD
    split
    · rename_i h
      rcases List.mem_append.1 hd with h1 | h1
      · exact hx.precise d h1
      · rw [h]; exact hy.precise d h1
    · rw [upcast_precise]; exact precision_le d
  same := by
    intro T hT _ h
    have h1 := hx.same T hT hA fun d hd => h d (List.mem_append_left _ hd)
    have h2 := hy.same T hT hB fun d hd => h d (List.mem_append_right _ hd)
    subst h1; simp [joinD, h2]

variable {R M : Type} [Ring R] [AddCommGroup M] [Module R M] (re : M → M)

theorem castVal_of {s d : DType} (h : s.isComplex = true → d.isComplex = true) :
    castVal re s d = id := by
  funext v
  unfold castVal
  cases hs : s.isComplex
  · simp
  · simp [h hs]

theorem castVal_check (d : DType) : castVal re d d.check = id :=
  castVal_of re (by rw [check_complex]; exact id)

theorem castVal_join_left (a d : DType) : castVal re a (a.upcast d) = id :=
  castVal_of re (by rw [upcast_complex]; intro h; simp [h])

theorem castVal_join_right (a d : DType) : castVal re d (a.upcast d) = id :=
  castVal_of re (by rw [upcast_complex]; intro h; simp [h])

theorem castVal_self (d : DType) : castVal re d d = id := castVal_of re id

theorem astype_of {x : Typed (List M)} {d : DType} (h : castVal re x.dtype d = id) :
    x.astype re d = ⟨d, x.val⟩ := by
  simp [Typed.astype, h]

theorem asarray_ok (x : Like M) (hx : ¬ ComplexSeq x) :
    x.asarray re x.check = .ok ⟨x.check, values x⟩ := by
  cases x with
  | arr a => simp [Like.asarray, Like.check, values, astype_of re (castVal_check re a.dtype)]
  | seq i v =>
    have : i.isComplex = false := by
      simpa [ComplexSeq, cplx_iff] using hx
    simp [Like.asarray, this, values]

theorem asarray_err (x : Like M) (hx : ComplexSeq x) : x.asarray re x.check = .error .type := by
  cases x with
  | arr a => exact hx.elim
  | seq i v =>
    have : i.isComplex = true := (cplx_iff i).1 hx
    have h2 : DType.f64.isComplex = false := rfl
    simp [Like.asarray, this, Like.check, h2]

theorem like_check_supported (x : Like M) : Supported x.check := by
  cases x with
  | arr a => exact check_supported _
  | seq i v => simp [Like.check, Supported]

theorem kept_like (x : Like M) (hx : ¬ ComplexSeq x) : Kept [dtypeOf x] x.check := by
  cases x with
  | arr a => exact kept_check a.dtype
  | seq i v =>
    have : dtypeOf (Like.seq i v) = .f64 := by
      simp only [dtypeOf]; rw [if_neg]; exact hx
    rw [this]; exact kept_check .f64

theorem dispatch_ok {β : Type} {d : DType} (h : Supported d) (f : DType → Py β) :
    dispatch d f = f d := by
  rcases h with rfl | rfl | rfl | rfl <;> simp [dispatch]

theorem kern_one {β : Type} (d : DType) (k : Py β) : kern d [d] k = k := by simp [kern]

theorem kern_two {β : Type} (d : DType) (k : Py β) : kern d [d, d] k = k := by simp [kern]

theorem py_map {α β : Type} (p : Py α) (f : α → β) : (p >>= fun a => pure (f a)) = p.map f := by
  cases p <;> rfl

theorem tdwtSingle_eq (w : Wavelet R) (mode : Mode) {T : DType} (hT : Supported T) (v : List M) :
    tdwtSingle w mode ⟨T, v⟩ = (dwt w mode v).map fun p => (⟨T, p.1⟩, ⟨T, p.2⟩) := by
  unfold tdwtSingle dwt
  rw [dispatch_ok hT, kern_one]
  exact py_map _ _

theorem tdwt_eq (w : Wavelet R) (mode : Mode) (x : Like M) (hx : ¬ ComplexSeq x) :
    tdwt re w mode x
      = (dwt w mode (values x)).map fun p => (⟨x.check, p.1⟩, ⟨x.check, p.2⟩) := by
  unfold tdwt
  simp only [asarray_ok re x hx, Py_bind_ok, tdwtSingle_eq w mode (like_check_supported x)]
  cases dwt w mode (values x) with
  | error e => rfl
  | ok p =>
    simp only [Except.map, Py_bind_ok, Py_pure]
    rw [astype_of re (castVal_self re _), astype_of re (castVal_self re _)]

theorem tidwtSingle_eq (w : Wavelet R) (mode : Mode) {T : DType} (hT : Supported T)
    (a d : List M) :
    tidwtSingle w mode ⟨T, a⟩ ⟨T, d⟩ = (idwtSingle w mode a d).map fun v => ⟨T, v⟩ := by
  unfold tidwtSingle
  by_cases h : a.length = d.length
  · simp only [h, ne_eq, not_true_eq_false, if_false, Py_pure, Py_bind_ok]
    rw [dispatch_ok hT, kern_two]
    exact py_map _ _
  · unfold idwtSingle
    simp [h, Except.map, throw, throwThe, MonadExceptOf.throw, bind, Except.bind]

/-- The dtype of `idwt`'s result. -/
def idwtD : Option DType → Option DType → DType
  | some a, some d => joinD a d
  | some a, none => a
  | none, some d => d
  | none, none => .f64

theorem tidwt_eq (w : Wavelet R) (mode : Mode) (cA cD : Option (Like M))
    (hA : ∀ a ∈ cA, ¬ ComplexSeq a) (hD : ∀ d ∈ cD, ¬ ComplexSeq d) :
    tidwt re w mode cA cD
      = (idwt w mode (cA.map values) (cD.map values)).map fun v =>
          ⟨idwtD (cA.map Like.check) (cD.map Like.check), v⟩ := by
  cases cA with
  | none =>
    cases cD with
    | none => rfl
    | some d =>
      simp only [tidwt, asarray_ok re d (hD d rfl), Py_bind_ok]
      exact tidwtSingle_eq w mode (like_check_supported d) _ _
  | some a =>
    cases cD with
    | none =>
      simp only [tidwt, asarray_ok re a (hA a rfl), Py_bind_ok]
      exact tidwtSingle_eq w mode (like_check_supported a) _ _
    | some d =>
      simp only [tidwt, asarray_ok re a (hA a rfl), asarray_ok re d (hD d rfl), Py_bind_ok,
        Option.map_some, idwtD, joinD, idwt]
      by_cases h : a.check = d.check
      · simp only [h, ne_eq, not_true_eq_false, if_false, if_true]
        exact tidwtSingle_eq w mode (like_check_supported d) _ _
      · simp only [h, ne_eq, not_false_eq_true, if_true, if_false]
        rw [astype_of re (castVal_join_left re _ _), astype_of re (castVal_join_right re _ _)]
        exact tidwtSingle_eq w mode (upcast_supported _ _) _ _

theorem kept_nil : Kept [] .f64 where
  supported := by simp [Supported]
  complex := by simp [Cplx]
  precise := by simp
  same := by intro T _ h; exact absurd rfl h

theorem kept_idwt (cA cD : Option (Like M))
    (hA : ∀ a ∈ cA, ¬ ComplexSeq a) (hD : ∀ d ∈ cD, ¬ ComplexSeq d) :
    Kept ((cA.map dtypeOf).toList ++ (cD.map dtypeOf).toList)
      (idwtD (cA.map Like.check) (cD.map Like.check)) := by
  cases cA with
  | none =>
    cases cD with
    | none => exact kept_nil
    | some d => exact kept_like d (hD d rfl)
  | some a =>
    cases cD with
    | none => exact kept_like a (hA a rfl)
    | some d =>
      exact kept_join (by simp) (by simp) (kept_like a (hA a rfl)) (kept_like d (hD d rfl))

theorem tdowncoef_eq (part : String) (w : Wavelet R) (mode : Mode) (level : Int) (x : Like M)
    (hx : ¬ ComplexSeq x) :
    tdowncoef re part w mode level x
      = (downcoef part w mode level (values x)).map fun v => ⟨x.check, v⟩ := by
  unfold tdowncoef
  simp only [asarray_ok re x hx, Py_bind_ok]
  rw [dispatch_ok (like_check_supported x), kern_one]
  exact py_map _ _

theorem tupcoef_eq (part : String) (w : Wavelet R) (level : Int) (take : Nat) (x : Like M)
    (hx : ¬ ComplexSeq x) :
    tupcoef re part w level take x
      = (upcoef part w level take (values x)).map fun v => ⟨x.check, v⟩ := by
  unfold tupcoef
  simp only [asarray_ok re x hx, Py_bind_ok]
  rw [dispatch_ok (like_check_supported x), kern_one]
  exact py_map _ _

theorem tswt_eq (w : Wavelet R) (level : Option Int) (start : Int) (trim : Bool) (norm : Option R)
    (x : Like M) (hx : ¬ ComplexSeq x) :
    tswt re w level start trim norm x
      = (swt w level start trim norm (values x)).map fun c => c.typed x.check := by
  unfold tswt
  simp only [asarray_ok re x hx, Py_bind_ok]
  rw [dispatch_ok (like_check_supported x), kern_one]
  exact py_map _ _

theorem seq_err (x : Like M) (hx : ComplexSeq x) :
    (∀ (w : Wavelet R) mode, tdwt re w mode x = .error .type)
    ∧ (∀ part (w : Wavelet R) mode level, tdowncoef re part w mode level x = .error .type)
    ∧ (∀ part (w : Wavelet R) level take, tupcoef re part w level take x = .error .type)
    ∧ (∀ (w : Wavelet R) level start trim norm, tswt re w level start trim norm x = .error .type)
    ∧ (∀ (w : Wavelet R) mode d, tidwt re w mode (some x) d = .error .type) := by
  refine ⟨?_, ?_, ?_, ?_, ?_⟩
  · intros; simp [tdwt, asarray_err re x hx]
  · intros; simp [tdowncoef, asarray_err re x hx]
  · intros; simp [tupcoef, asarray_err re x hx]
  · intros; simp [tswt, asarray_err re x hx]
  · intro w mode d
    cases d <;> simp [tidwt, asarray_err re x hx]

/-- The loop of `wavedec` on an array of a supported dtype. -/
theorem twavedecLoop_eq (w : Wavelet R) (mode : Mode) {T : DType} (hT : Supported T) (n : Nat) :
    ∀ (a : List M) (l : List (List M)),
      twavedecLoop re w mode n ⟨T, a⟩ (l.map fun v => ⟨T, v⟩)
        = (wavedecLoop w mode n a l).map fun r => r.map fun v => (⟨T, v⟩ : Typed (List M)) := by
  induction n with
  | zero =>
    intro a l
    simp [twavedecLoop, wavedecLoop, Except.map]
  | succ n ih =>
    intro a l
    simp only [twavedecLoop, wavedecLoop]
    rw [tdwt_eq re w mode _ (by simp [ComplexSeq])]
    simp only [values, Like.check, check_of_supported hT]
    cases dwt w mode a with
    | error e => rfl
    | ok p =>
      simp only [Except.map, Py_bind_ok]
      have := ih p.1 (l ++ [p.2])
      simpa [Except.map] using this

theorem twavedec_eq (w : Wavelet R) (mode : Mode) (level : Option Int) (x : Like M) :
    twavedec re w mode level x
      = (wavedec w mode level (values x)).map fun r =>
          if r.length ≤ 1 then r.map fun v => ⟨x.asarray'.dtype, v⟩
          else r.map fun v => ⟨x.asarray'.dtype.check, v⟩ := by
  have hv : x.asarray' = ⟨x.asarray'.dtype, values x⟩ := by cases x <;> rfl
  unfold twavedec wavedec
  generalize x.asarray'.dtype = D at hv ⊢
  rw [hv]
  generalize values x = v
  dsimp only
  cases checkLevel [v.length] [w.dec_len] level with
  | error e => rfl
  | ok n =>
    simp only [Py_bind_ok]
    cases n with
    | zero =>
      simp [twavedecLoop, wavedecLoop, Except.map]
    | succ n =>
      simp only [twavedecLoop, wavedecLoop]
      rw [tdwt_eq re w mode _ (by simp [ComplexSeq])]
      simp only [values, Like.check]
      cases h : dwt w mode v with
      | error e => rfl
      | ok p =>
        simp only [Except.map, Py_bind_ok]
        have := twavedecLoop_eq re w mode (check_supported D) n p.1 ([] ++ [p.2])
        simp only [List.map_append, List.map_nil, List.map_cons] at this
        rw [this]
        have hlen : ∀ (n : Nat) (a : List M) (l r : List (List M)),
            wavedecLoop w mode n a l = .ok r → r.length = n + l.length + 1 := by
          intro n
          induction n with
          | zero => intro a l r h; simp [wavedecLoop] at h; subst h; simp
          | succ n ih =>
            intro a l r h
            simp only [wavedecLoop] at h
            cases h' : dwt w mode a with
            | error e => rw [h'] at h; simp at h
            | ok q =>
              rw [h'] at h
              have := ih _ _ _ h
              simp at this; omega
        cases hr : wavedecLoop w mode n p.1 ([] ++ [p.2]) with
        | error e => rfl
        | ok r =>
          have h3 := hlen _ _ _ _ hr
          have : ¬ r.length ≤ 1 := by simp at h3; omega
          simp [Except.map, this]

/-! ### Inverse multilevel transforms -/

/-- The dtype of a partial result of `waverec`: the accumulated dtypes are `ins`. -/
theorem twaverecTrim_eq (a d : Option (Typed (List M))) :
    Agrees (fun (r : Option (Typed (List M))) (r' : Option (List M)) =>
        r.map (·.val) = r' ∧ r.map (·.dtype) = a.map (·.dtype))
      (twaverecTrim a d) (waverecTrim (a.map (·.val)) (d.map (·.val))) := by
  cases a with
  | none => exact ⟨rfl, rfl⟩
  | some a =>
    cases d with
    | none => exact ⟨rfl, rfl⟩
    | some d =>
      simp only [twaverecTrim, waverecTrim, Option.map_some]
      split
      · exact ⟨rfl, rfl⟩
      · split
        · rfl
        · exact ⟨rfl, rfl⟩

theorem values_arr (o : Option (Typed (List M))) :
    (o.map Like.arr).map values = o.map (·.val) := by cases o <;> rfl

theorem dtypes_arr (o : Option (Typed (List M))) :
    (o.map Like.arr).map dtypeOf = o.map (·.dtype) := by cases o <;> rfl

theorem not_seq_arr (o : Option (Typed (List M))) :
    ∀ a ∈ o.map Like.arr, ¬ ComplexSeq a := by
  intro a ha
  cases o with
  | none => simp at ha
  | some o => simp at ha; subst ha; simp [ComplexSeq]

/-- Arrays cast with the dtypes of the list. -/
theorem kept_trans {A B : List DType} {x y : DType} (hx : Kept A x)
    (hy : Kept (x :: B) y) (hA : A ≠ []) : Kept (A ++ B) y where
  supported := hy.supported
  complex := by
    rw [hy.complex]
    constructor
    · rintro ⟨d, hd, h⟩
      rcases List.mem_cons.1 hd with rfl | hd
      · obtain ⟨e, he, h'⟩ := hx.complex.1 h
        exact ⟨e, List.mem_append_left _ he, h'⟩
      · exact ⟨d, List.mem_append_right _ hd, h⟩
    · rintro ⟨d, hd, h⟩
      rcases List.mem_append.1 hd with hd | hd
      · exact ⟨x, List.mem_cons_self, hx.complex.2 ⟨d, hd, h⟩⟩
      · exact ⟨d, List.mem_cons_of_mem _ hd, h⟩
  precise := by
    intro d hd
    rcases List.mem_append.1 hd with hd | hd
    · exact (hx.precise d hd).trans (hy.precise x List.mem_cons_self)
    · exact hy.precise d (List.mem_cons_of_mem _ hd)
  same := by
    intro T hT _ h
    have h1 := hx.same T hT hA fun d hd => h d (List.mem_append_left _ hd)
    refine hy.same T hT (by simp) fun d hd => ?_
    rcases List.mem_cons.1 hd with rfl | hd
    · exact h1
    · exact h d (List.mem_append_right _ hd)

theorem agrees_map {α β : Type} (p : Py β) (f : β → α) (P : α → β → Prop) (h : ∀ b, P (f b) b) :
    Agrees P (p.map f) p := by
  cases p with
  | error e => rfl
  | ok b => exact h b

theorem agrees_map' {α β : Type} (p : Py β) (f : β → α) :
    Agrees (fun r b => r = f b) (p.map f) p := agrees_map p f _ fun _ => rfl

theorem Spec.Agrees.bind {α β γ δ : Type} {P : α → β → Prop} {Q : γ → δ → Prop} {p : Py α} {q : Py β}
    {f : α → Py γ} {g : β → Py δ} (h : Agrees P p q) (hf : ∀ a b, P a b → Agrees Q (f a) (g b)) :
    Agrees Q (p >>= f) (q >>= g) := by
  cases p <;> cases q
  · exact h
  · exact h.elim
  · exact h.elim
  · exact hf _ _ h

theorem Spec.Agrees.imp {α β : Type} {P Q : α → β → Prop} {p : Py α} {q : Py β} (h : Agrees P p q)
    (hPQ : ∀ a b, P a b → Q a b) : Agrees Q p q := by
  cases p <;> cases q
  · exact h
  · exact h.elim
  · exact h.elim
  · exact hPQ _ _ h

/-- The loop of `waverec` from an accumulated array. -/
theorem twaverecLoop_some (w : Wavelet R) (mode : Mode) (ds : List (Option (Typed (List M)))) :
    ∀ (ins : List DType) (a : Typed (List M)), ins ≠ [] → Kept ins a.dtype →
      Agrees (fun r r' => ∃ v T, r = some ⟨T, v⟩ ∧ r' = some v ∧ Kept (ins ++ presentD ds) T)
        (twaverecLoop re w mode (some a) ds)
        (waverecLoop w mode (some a.val) (ds.map fun o => o.map (·.val))) := by
  induction ds with
  | nil =>
    intro ins a hins h
    exact ⟨a.val, a.dtype, rfl, rfl, by simpa [presentD] using h⟩
  | cons d ds ih =>
    intro ins a hins h
    simp only [twaverecLoop, waverecLoop, List.map_cons]
    refine (twaverecTrim_eq (some a) d).bind ?_
    rintro t t' ⟨rfl, ht⟩
    rw [tidwt_eq re w mode _ _ (not_seq_arr t) (not_seq_arr d), values_arr, values_arr]
    have hk := kept_idwt (t.map Like.arr) (d.map Like.arr) (not_seq_arr t) (not_seq_arr d)
    rw [dtypes_arr, dtypes_arr, ht] at hk
    refine (agrees_map' (idwt w mode (t.map (·.val)) (d.map (·.val))) _).bind ?_
    rintro r v rfl
    have hk' : Kept (ins ++ presentD [d])
        (idwtD ((t.map Like.arr).map Like.check) ((d.map Like.arr).map Like.check)) := by
      refine kept_trans h ?_ hins
      cases d <;> simpa [presentD] using hk
    refine (ih _ ⟨_, v⟩ (by simp [hins]) hk').imp ?_
    rintro r r' ⟨v, T, h1, h2, h3⟩
    refine ⟨v, T, h1, h2, ?_⟩
    have : ins ++ presentD (d :: ds) = ins ++ presentD [d] ++ presentD ds := by
      cases d <;> simp [presentD]
    rw [this]; exact h3

theorem twaverec_agrees (w : Wavelet R) (mode : Mode) (c0 c1 : Option (Typed (List M)))
    (cs : List (Option (Typed (List M)))) :
    Agrees (fun r r' => ∃ v T, r = some ⟨T, v⟩ ∧ r' = some v ∧ Kept (presentD (c0 :: c1 :: cs)) T)
      (twaverec re w mode (c0 :: c1 :: cs))
      (waverec w mode ((c0 :: c1 :: cs).map fun o => o.map (·.val))) := by
  simp only [twaverec, waverec, List.map_cons, twaverecLoop, waverecLoop]
  refine (twaverecTrim_eq c0 c1).bind ?_
  rintro t t' ⟨rfl, ht⟩
  rw [tidwt_eq re w mode _ _ (not_seq_arr t) (not_seq_arr c1), values_arr, values_arr]
  have hk := kept_idwt (t.map Like.arr) (c1.map Like.arr) (not_seq_arr t) (not_seq_arr c1)
  rw [dtypes_arr, dtypes_arr, ht] at hk
  cases hr : idwt w mode (t.map (·.val)) (c1.map (·.val)) with
  | error e => rfl
  | ok v =>
    simp only [Except.map, Py_bind_ok]
    have hp : presentD (c0 :: c1 :: cs)
        = (c0.map (·.dtype)).toList ++ (c1.map (·.dtype)).toList ++ presentD cs := by
      cases c0 <;> cases c1 <;> simp [presentD]
    rw [hp]
    refine twaverecLoop_some re w mode cs _ ⟨_, v⟩ ?_ hk
    cases c0 with
    | some _ => simp
    | none =>
      cases c1 with
      | some _ => simp
      | none =>
        exfalso
        have : t = none := by simpa using ht
        subst this
        simp [idwt] at hr

variable [Invertible (2 : R)]

theorem tiswtPhase_eq (w : Wavelet R) {T : DType} (hT : Supported T) (step : Nat) (cD out : List M)
    (first : Nat) :
    tiswtPhase re w step ⟨T, cD⟩ ⟨T, out⟩ first
      = (iswtPhase w step cD out first).map fun v => ⟨T, v⟩ := by
  unfold tiswtPhase iswtPhase
  simp only [half_eq]
  simp only [tidwtSingle_eq w _ hT]
  cases gather out (evens (arange first cD.length step)) with
  | error e => rfl
  | ok oe =>
  cases gather cD (evens (arange first cD.length step)) with
  | error e => rfl
  | ok de =>
  simp only [Py_bind_ok]
  cases idwtSingle w .periodization oe de with
  | error e => rfl
  | ok x1 =>
  simp only [Py_bind_ok, Except.map]
  cases gather out (odds (arange first cD.length step)) with
  | error e => rfl
  | ok oo =>
  cases gather cD (odds (arange first cD.length step)) with
  | error e => rfl
  | ok dO =>
  simp only [Py_bind_ok]
  cases idwtSingle w .periodization oo dO with
  | error e => rfl
  | ok x2 =>
  simp only [Py_bind_ok]
  split
  · rfl
  · simp only [Py_pure, Py_bind_ok, castVal_self, List.map_id]
    split
    · rfl
    · rfl

theorem foldlM_map {α β γ : Type} (f : β → γ) (g : γ → α → Py γ) (h : β → α → Py β)
    (hgh : ∀ b a, g (f b) a = (h b a).map f) (l : List α) :
    ∀ b, l.foldlM g (f b) = (l.foldlM h b).map f := by
  induction l with
  | nil => intro b; rfl
  | cons a l ih =>
    intro b
    simp only [List.foldlM_cons, hgh]
    cases h b a with
    | error e => rfl
    | ok b' => exact ih b'

theorem tiswtLoop_agrees (w : Wavelet R) (cDs : List (Like M)) (hc : ∀ c ∈ cDs, ¬ ComplexSeq c) :
    ∀ (ins : List DType) (out : Typed (List M)), ins ≠ [] → Kept ins out.dtype →
      Agrees (fun r v => ∃ T, r = ⟨T, v⟩ ∧ Kept (ins ++ cDs.map dtypeOf) T)
        (tiswtLoop re w cDs out) (iswtLoop w (cDs.map values) out.val) := by
  induction cDs with
  | nil =>
    intro ins out hins h
    exact ⟨out.dtype, rfl, by simpa using h⟩
  | cons c cs ih =>
    intro ins out hins h
    have hc0 := hc c (by simp)
    simp only [tiswtLoop, iswtLoop, List.map_cons, List.length_map, asarray_ok re c hc0, Py_bind_ok]
    have hk : Kept (ins ++ [dtypeOf c]) (joinD out.dtype c.check) :=
      kept_join hins (by simp) h (kept_like c hc0)
    have hp : (if c.check ≠ out.dtype then
          (out.astype re (out.dtype.upcast c.check),
            (⟨c.check, values c⟩ : Typed (List M)).astype re (out.dtype.upcast c.check))
        else (out, ⟨c.check, values c⟩))
        = ((⟨joinD out.dtype c.check, out.val⟩ : Typed (List M)),
            (⟨joinD out.dtype c.check, values c⟩ : Typed (List M))) := by
      by_cases he : out.dtype = c.check
      · rw [if_neg (by simp [he])]
        simp [joinD, he]
        rw [← he]
      · rw [if_pos (fun h => he h.symm), astype_of re (castVal_join_left re _ _),
          astype_of re (castVal_join_right re _ _)]
        simp [joinD, he]
    simp only [hp]
    rw [foldlM_map (fun v => (⟨joinD out.dtype c.check, v⟩ : Typed (List M))) _
      (iswtPhase w (2 ^ cs.length) (values c))
      (fun b a => tiswtPhase_eq re w hk.supported _ _ _ _)]
    refine (agrees_map' _ _).bind ?_
    rintro r v rfl
    refine (ih (fun c hc' => hc c (by simp [hc'])) _ ⟨_, v⟩ (by simp) hk).imp ?_
    rintro r r' ⟨T, h1, h2⟩
    exact ⟨T, h1, by simpa using h2⟩

end Pywt
