import Verif.Proof.Fs

/-! The fully separable transform: loops, subbands, assignment, round trip. -/

namespace Pywt

open Finset Spec

set_option linter.unusedSectionVars false

section
variable {M : Type} [AddCommGroup M]

/-! ### Extension -/

theorem Arr.Extends.trans {a b c : Arr M} (h : a.Extends b) (h' : b.Extends c) : a.Extends c := by
  refine ⟨h.1.trans h'.1, fun j hj => ?_, fun idx hidx => ?_⟩
  · exact (h'.2.1 j hj).trans (h.2.1 j (by rw [h'.1]; exact hj))
  · rw [h.2.2 idx, h'.2.2 idx hidx]
    intro k hk
    rw [h'.1] at hk
    exact lt_of_lt_of_le (hidx k hk) (h'.2.1 k hk)

theorem Arr.along_extends {x : Arr M} {ax n : ℕ} {g : List M → List M} (ha : ax < x.shape.length)
    (hn : x.shape.getD ax 0 ≤ n)
    (hg : ∀ l : List M, l.length = x.shape.getD ax 0 → (g l).take l.length = l) :
    (x.along ax n g).Extends x := by
  refine ⟨by simp [Arr.shape_along], fun j hj => ?_, fun idx hidx => ?_⟩
  · rw [Arr.shape_along, getD_set ha]
    split
    · rename_i h; subst h; exact hn
    · exact le_rfl
  · rw [Arr.along_get ha]
    · have hl := hg (x.line ax idx) (Arr.line_length _ _ _)
      have hi : idx ax < (x.line ax idx).length := by rw [Arr.line_length]; exact hidx ax ha
      have hi' : idx ax < (g (x.line ax idx)).length := by
        have := congrArg List.length hl
        rw [List.length_take] at this
        omega
      have := congrArg (fun l : List M => l.getD (idx ax) 0) hl
      rw [List.getD_eq_getElem (hn := by rw [List.length_take]; omega),
        List.getD_eq_getElem (hn := hi), List.getElem_take, Arr.line_getElem,
        Function.update_eq_self] at this
      rw [List.getD_eq_getElem (hn := hi'), this]
    · rw [inB_set ha]
      exact ⟨lt_of_lt_of_le (hidx ax ha) hn, fun k hk _ => hidx k hk⟩

theorem Arr.run_extends (ops : List (LOp M)) (hn : (ops.map (·.ax)).Nodup) : ∀ x : Arr M,
    (∀ o ∈ ops, o.ax < x.shape.length ∧ x.shape.getD o.ax 0 ≤ o.n ∧
      ∀ l : List M, l.length = x.shape.getD o.ax 0 → (o.g l).take l.length = l) →
    (x.run ops).Extends x := by
  induction ops with
  | nil => intro x _; exact Arr.Extends.refl x
  | cons o ops ih =>
    intro x hx
    simp only [List.map_cons, List.nodup_cons] at hn
    obtain ⟨h1, h2, h3⟩ := hx o (by simp)
    rw [Arr.run_cons]
    refine (ih hn.2 _ ?_).trans (Arr.along_extends h1 h2 h3)
    intro p hp
    obtain ⟨p1, p2, p3⟩ := hx p (by simp [hp])
    have hne : p.ax ≠ o.ax := fun h => hn.1 (List.mem_map.mpr ⟨p, hp, h⟩)
    rw [Arr.shape_along, getD_set h1, if_neg hne]
    exact ⟨by simpa using p1, p2, p3⟩

/-! ### Slicing several axes -/

/-- Lower corner of a list of slices (axis, offset, length). -/
def lowOf : List (ℕ × ℕ × ℕ) → ℕ → ℕ
  | [], _ => 0
  | o :: os, k => if k = o.1 then o.2.1 else lowOf os k

theorem lowOf_not_mem {os : List (ℕ × ℕ × ℕ)} {k : ℕ} (h : k ∉ os.map (·.1)) : lowOf os k = 0 := by
  induction os with
  | nil => rfl
  | cons o os ih =>
    simp only [List.map_cons, List.mem_cons, not_or] at h
    simp only [lowOf, if_neg h.1, ih h.2]

theorem lowOf_mem {os : List (ℕ × ℕ × ℕ)} (hn : (os.map (·.1)).Nodup) {o : ℕ × ℕ × ℕ} (h : o ∈ os) :
    lowOf os o.1 = o.2.1 := by
  induction os with
  | nil => simp at h
  | cons p os ih =>
    simp only [List.map_cons, List.nodup_cons] at hn
    rcases List.mem_cons.mp h with rfl | h
    · simp [lowOf]
    · have : o.1 ≠ p.1 := fun e => hn.1 (List.mem_map.mpr ⟨o, h, e⟩)
      simp only [lowOf, if_neg this, ih hn.2 h]

/-- Slicing as an operation on lines. -/
def sliceOp (N : ℕ) (o : ℕ × ℕ × ℕ) : LOp M := ⟨o.1, N, o.2.2, fun l => (l.drop o.2.1).take o.2.2⟩

theorem run_slices_get (N : ℕ × ℕ × ℕ → ℕ) (os : List (ℕ × ℕ × ℕ)) (hn : (os.map (·.1)).Nodup) :
    ∀ x : Arr M, (∀ o ∈ os, o.1 < x.shape.length ∧ o.2.1 + o.2.2 ≤ x.shape.getD o.1 0) →
      ∀ idx, InB (x.run (os.map fun o => sliceOp (N o) o)).shape idx →
        (x.run (os.map fun o => sliceOp (N o) o)).get idx = x.get fun k => lowOf os k + idx k := by
  induction os with
  | nil => intro x _ idx _; simp [Arr.run, lowOf]
  | cons o os ih =>
    intro x hx idx hidx
    simp only [List.map_cons, List.nodup_cons] at hn
    obtain ⟨h1, h2⟩ := hx o (by simp)
    have hne : ∀ p ∈ os, p.1 ≠ o.1 := fun p hp e => hn.1 (List.mem_map.mpr ⟨p, hp, e⟩)
    have hos : ∀ p ∈ os, p.1 < (x.along o.1 o.2.2 fun l => (l.drop o.2.1).take o.2.2).shape.length ∧
        p.2.1 + p.2.2 ≤ (x.along o.1 o.2.2 fun l => (l.drop o.2.1).take o.2.2).shape.getD p.1 0 := by
      intro p hp
      obtain ⟨p1, p2⟩ := hx p (by simp [hp])
      rw [Arr.shape_along, getD_set h1, if_neg (hne p hp)]
      exact ⟨by simpa using p1, p2⟩
    rw [List.map_cons, Arr.run_cons] at hidx ⊢
    simp only [sliceOp] at hidx ⊢
    rw [show (fun o : ℕ × ℕ × ℕ => (⟨o.1, N o, o.2.2, fun l => (l.drop o.2.1).take o.2.2⟩ : LOp M)) =
      fun o => sliceOp (N o) o from rfl] at hidx ⊢
    have hax' : ((os.map fun o => (sliceOp (N o) o : LOp M)).map (·.ax)) = os.map (·.1) := by
      simp [sliceOp, Function.comp_def]
    rw [ih hn.2 _ hos idx hidx]
    have hlow : lowOf os o.1 = 0 := lowOf_not_mem hn.1
    have hi : idx o.1 < o.2.2 := by
      have := hidx o.1 (by rw [Arr.run_length]; simpa [Arr.shape_along] using h1)
      rw [Arr.run_shape_ne _ (by rw [hax']; exact hn.1), Arr.shape_along, getD_set h1,
        if_pos rfl] at this
      exact this
    rw [Arr.along_get h1, hlow, Nat.zero_add]
    · rw [List.getD_eq_getElem (hn := by
        rw [List.length_take, List.length_drop, Arr.line_length]; omega), List.getElem_take,
        List.getElem_drop, Arr.line_getElem]
      refine x.get_congr fun k hk => ?_
      by_cases hk' : k = o.1
      · subst hk'; rw [Function.update_self]; simp [lowOf]
      · rw [Function.update_of_ne hk']; simp only [lowOf, if_neg hk']
    · intro k hk
      rw [List.length_set] at hk
      have hik := hidx k (by rw [Arr.run_length]; simpa [Arr.shape_along] using hk)
      by_cases hk' : k ∈ os.map (·.1)
      · obtain ⟨p, hp, rfl⟩ := List.mem_map.mp hk'
        simp only
        rw [lowOf_mem hn.2 hp]
        have hp' := hos p hp
        have hpn : (sliceOp (N p) p : LOp M).n = p.2.2 := rfl
        have hpa : (sliceOp (N p) p : LOp M).ax = p.1 := rfl
        have := Arr.run_shape_eq (os.map fun o => (sliceOp (N o) o : LOp M))
          (by rw [hax']; exact hn.2) (o := sliceOp (N p) p)
          (List.mem_map.mpr ⟨p, hp, rfl⟩) _ hp'.1
        rw [hpa, hpn] at this
        rw [this] at hik
        rw [Arr.shape_along] at hp'
        omega
      · simp only
        rw [lowOf_not_mem hk', Nat.zero_add]
        rw [Arr.run_shape_ne _ (by rw [hax']; exact hk'), Arr.shape_along] at hik
        exact hik

end

section
variable {R M : Type} [Ring R] [AddCommGroup M] [Module R M]

/-! ### The loops -/

/-- Lengths of the coefficient arrays along an axis. -/
def FsAxis.lens (shape : List ℕ) (p : FsAxis R) : List ℕ :=
  cascadeLens p.mode p.w.dec_len (shape.getD p.ax 0) p.n

/-- The forward operation along an axis. -/
def FsAxis.fwd (shape : List ℕ) (p : FsAxis R) : LOp M :=
  ⟨p.ax, shape.getD p.ax 0, (p.lens shape).sum,
    fun l => (cascade p.mode p.w.dec_lo p.w.dec_hi p.n l).flatten⟩

/-- The inverse operation along an axis. -/
def FsAxis.inv (shape : List ℕ) (p : FsAxis R) : LOp M :=
  ⟨p.ax, (p.lens shape).sum, shape.getD p.ax 0 + if p.n = 0 then 0 else shape.getD p.ax 0 % 2,
    recombineLine p.mode p.w.rec_lo p.w.rec_hi (p.lens shape)⟩

/-- The loop entry of an axis. -/
def FsAxis.entry (p : FsAxis R) : Int × Option Int × Wavelet R × Mode := (p.arg, p.level, p.w, p.mode)

/-- The slices of an axis. -/
def FsAxis.slices (shape : List ℕ) (p : FsAxis R) : List Slice := offsetSlices (p.lens shape) 0

/-- The axis and level of a loop entry are those of `p`. -/
def FsAxis.Is (shape : List ℕ) (p : FsAxis R) : Prop :=
  AxisIs shape.length p.arg p.ax ∧
    match p.level with
    | some l => l = (p.n : ℤ)
    | none => dwtMaxLevel (shape.getD p.ax 0) p.w.dec_len = .ok p.n

theorem fsTransform_eq (ps : List (FsAxis R)) (x : Arr M) :
    x.fsTransform ps = x.run (ps.map fun p => p.fwd x.shape) := by
  unfold Arr.fsTransform Arr.run
  rw [List.foldl_map]
  rfl

theorem fsInverse_eq (ps : List (FsAxis R)) (shape : List ℕ) (c : Arr M) :
    c.fsInverse ps shape = c.run (ps.map fun p => p.inv shape) := by
  unfold Arr.fsInverse Arr.run
  rw [List.foldl_map]
  rfl

theorem wavedecA_is {x : Arr M} {p : FsAxis R} (hp : p.Is x.shape) (hw : p.w.Ok)
    (hl : LevelsOk p.mode p.w.dec_len (x.shape.getD p.ax 0) p.n) :
    wavedecA p.w p.mode p.level p.arg x =
      .ok (x.cascadeAlong p.ax p.mode p.w.dec_lo p.w.dec_hi p.n) := by
  obtain ⟨h1, h2⟩ := hp
  have hF : 2 ≤ p.w.dec_len := hw.1
  have e : wavedecALoop p.w p.mode p.arg p.n x [] =
      .ok (x.cascadeAlong p.ax p.mode p.w.dec_lo p.w.dec_hi p.n) := by
    rw [wavedecALoop_ok hw p.n x [] h1 hl]
    simp
  unfold wavedecA
  simp only [h1.pyIndex, checkLevel_one hF]
  cases hlev : p.level with
  | none =>
    rw [hlev] at h2
    simp only [dwtMaxLevel, if_neg (show ¬ p.w.dec_len < 2 by omega), Except.ok.injEq] at h2
    simp only [Py_bind_ok, h2, e]
  | some l =>
    rw [hlev] at h2
    simp only at h2
    simp only [h2]
    rw [if_neg (by omega)]
    simp only [Py_bind_ok, Int.toNat_natCast, e]

theorem FsAxis.Is.set {shape : List ℕ} {p : FsAxis R} (h : p.Is shape) {a n : ℕ} (ha : p.ax ≠ a) :
    p.Is (shape.set a n) := by
  have e : (shape.set a n).getD p.ax 0 = shape.getD p.ax 0 := by
    simp only [List.getD_eq_getElem?_getD, List.getElem?_set_ne (Ne.symm ha)]
  unfold FsAxis.Is
  rw [List.length_set, e]
  exact h

theorem fsLoop_step {x : Arr M} {p : FsAxis R} (hpi : p.Is x.shape) (hw : p.w.Ok)
    (hl : LevelsOk p.mode p.w.dec_len (x.shape.getD p.ax 0) p.n)
    (rest : List (ℤ × Option ℤ × Wavelet R × Mode)) (sls : List (List Slice)) :
    fsLoop (p.entry :: rest) x sls = fsLoop rest (x.along p.ax (p.lens x.shape).sum
      fun l => (cascade p.mode p.w.dec_lo p.w.dec_hi p.n l).flatten)
      (sls ++ [offsetSlices (cascadeLens p.mode p.w.dec_lo.length (x.shape.getD p.ax 0) p.n) 0]) := by
  have hax : p.ax < x.shape.length := hpi.1.2
  have hconc : concatAxis p.arg (x.cascadeAlong p.ax p.mode p.w.dec_lo p.w.dec_hi p.n) =
      .ok (x.along p.ax (p.lens x.shape).sum
        fun l => (cascade p.mode p.w.dec_lo p.w.dec_hi p.n l).flatten) := by
    have := concatAxis_ok (x := x) (axis := p.arg) hpi.1
      (c := x.along p.ax (approxLen p.mode p.w.dec_lo.length (x.shape.getD p.ax 0) p.n)
        (approx p.mode p.w.dec_lo p.n))
      (cs := ((List.range p.n).map fun j => x.along p.ax
        (approxLen p.mode p.w.dec_lo.length (x.shape.getD p.ax 0) (j + 1))
          (detail p.mode p.w.dec_lo p.w.dec_hi j)).reverse)
      (fun b hb => cascadeAlong_sameBut b hb)
      (g := fun l => (cascade p.mode p.w.dec_lo p.w.dec_hi p.n l).flatten)
      (fun idx hidx => flatMap_lines_cascade hw.2.2.1 hax hidx)
    have hlens := cascadeAlong_lens (mode := p.mode) (lo := p.w.dec_lo) (hi := p.w.dec_hi)
      (n := p.n) hax
    unfold Arr.cascadeAlong at hlens
    rw [hlens] at this
    exact this
  simp only [FsAxis.entry, fsLoop]
  rw [wavedecA_is hpi hw hl]
  simp only [Py_bind_ok]
  rw [shapesAt_ok hpi.1 _ (fun c hc => (cascadeAlong_sameBut c hc).length),
    cascadeAlong_lens hax, hconc]
  simp only [Py_bind_ok]

theorem fsLoop_ok (ps : List (FsAxis R)) (hn : (ps.map (·.ax)).Nodup) :
    ∀ (x : Arr M) (sls : List (List Slice)), (∀ p ∈ ps, p.Is x.shape) → FsOk x.shape ps →
      fsLoop (ps.map FsAxis.entry) x sls =
        .ok (x.run (ps.map fun p => p.fwd x.shape), sls ++ ps.map fun p => p.slices x.shape) := by
  induction ps with
  | nil => intro x sls _ _; simp [fsLoop, Arr.run]
  | cons p ps ih =>
    intro x sls hp hok
    simp only [List.map_cons, List.nodup_cons] at hn
    have hpi := hp p (by simp)
    have hax : p.ax < x.shape.length := hpi.1.2
    obtain ⟨hw, hl⟩ := hok p (by simp)
    have hne : ∀ q ∈ ps, q.ax ≠ p.ax := fun q hq e => hn.1 (List.mem_map.mpr ⟨q, hq, e⟩)
    have hgetD : ∀ q ∈ ps, (x.shape.set p.ax (p.lens x.shape).sum).getD q.ax 0 =
        x.shape.getD q.ax 0 := by
      intro q hq
      rw [getD_set hax, if_neg (hne q hq)]
    rw [List.map_cons, List.map_cons, List.map_cons, fsLoop_step hpi hw hl]
    have := ih hn.2 (x.along p.ax (p.lens x.shape).sum
      fun l => (cascade p.mode p.w.dec_lo p.w.dec_hi p.n l).flatten)
      (sls ++ [offsetSlices (cascadeLens p.mode p.w.dec_lo.length (x.shape.getD p.ax 0) p.n) 0])
      (fun q hq => by rw [Arr.shape_along]; exact (hp q (by simp [hq])).set (hne q hq))
      (fun q hq => by
        rw [Arr.shape_along, hgetD q hq]
        exact hok q (by simp [hq]))
    rw [this, Arr.run_cons]
    have e1 : (ps.map fun q : FsAxis R => (q.fwd (x.shape.set p.ax (p.lens x.shape).sum) : LOp M)) =
        ps.map fun q => q.fwd x.shape := by
      apply List.map_congr_left
      intro q hq
      have h0 := hgetD q hq
      simp only [FsAxis.lens] at h0
      simp only [FsAxis.fwd, FsAxis.lens, h0]
    have e2 : (ps.map fun q : FsAxis R => q.slices (x.shape.set p.ax (p.lens x.shape).sum)) =
        ps.map fun q => q.slices x.shape := by
      apply List.map_congr_left
      intro q hq
      have h0 := hgetD q hq
      simp only [FsAxis.lens] at h0
      simp only [FsAxis.slices, FsAxis.lens, h0]
    rw [Arr.shape_along, e1, e2]
    simp [FsAxis.fwd, FsAxis.slices, FsAxis.lens]
    rfl

theorem fsLoop_err (ps : List (FsAxis R)) (hn : (ps.map (·.ax)).Nodup) :
    ∀ (x : Arr M) (sls : List (List Slice)), (∀ p ∈ ps, p.Is x.shape) → (∀ p ∈ ps, p.w.Ok) →
      (∃ p ∈ ps, ¬ LevelsOk p.mode p.w.dec_len (x.shape.getD p.ax 0) p.n) →
      fsLoop (ps.map FsAxis.entry) x sls = .error .value := by
  induction ps with
  | nil => intro x sls _ _ h; simp at h
  | cons p ps ih =>
    intro x sls hp hw h
    simp only [List.map_cons, List.nodup_cons] at hn
    have hpi := hp p (by simp)
    have hax : p.ax < x.shape.length := hpi.1.2
    have hw0 := hw p (by simp)
    have hF : 2 ≤ p.w.dec_len := hw0.1
    have hne : ∀ q ∈ ps, q.ax ≠ p.ax := fun q hq e => hn.1 (List.mem_map.mpr ⟨q, hq, e⟩)
    by_cases hl : LevelsOk p.mode p.w.dec_len (x.shape.getD p.ax 0) p.n
    · rw [List.map_cons, fsLoop_step hpi hw0 hl]
      refine ih hn.2 _ _ (fun q hq => by rw [Arr.shape_along]; exact (hp q (by simp [hq])).set (hne q hq))
        (fun q hq => hw q (by simp [hq])) ?_
      obtain ⟨q, hq, hq'⟩ := h
      rcases List.mem_cons.mp hq with rfl | hq
      · exact absurd hl hq'
      · refine ⟨q, hq, ?_⟩
        rw [Arr.shape_along, getD_set hax, if_neg (hne q hq)]
        exact hq'
    · have e := wavedecALoop_err hw0 p.n x [] hpi.1 hl
      have : wavedecA p.w p.mode p.level p.arg x = .error .value := by
        obtain ⟨h1, h2⟩ := hpi
        unfold wavedecA
        simp only [h1.pyIndex, checkLevel_one hF]
        cases hlev : p.level with
        | none =>
          rw [hlev] at h2
          simp only [dwtMaxLevel, if_neg (show ¬ p.w.dec_len < 2 by omega), Except.ok.injEq] at h2
          simp only [Py_bind_ok, h2, e]
        | some l =>
          rw [hlev] at h2
          simp only at h2
          simp only [h2]
          rw [if_neg (by omega)]
          simp only [Py_bind_ok, Int.toNat_natCast, e]
      simp only [List.map_cons, FsAxis.entry, fsLoop]
      rw [this]
      rfl

theorem FsAxis.recOk {p : FsAxis R} {shape : List ℕ} (hw : p.w.Ok)
    (hl : LevelsOk p.mode p.w.dec_len (shape.getD p.ax 0) p.n) :
    RecOk p.mode p.w.rec_len (approxLen p.mode p.w.dec_len (shape.getD p.ax 0) p.n)
      ((List.range p.n).map fun j => approxLen p.mode p.w.dec_len (shape.getD p.ax 0) (j + 1)).reverse ∧
    recLen p.mode p.w.rec_len (approxLen p.mode p.w.dec_len (shape.getD p.ax 0) p.n)
      ((List.range p.n).map fun j => approxLen p.mode p.w.dec_len (shape.getD p.ax 0) (j + 1)).reverse =
      shape.getD p.ax 0 + if p.n = 0 then 0 else shape.getD p.ax 0 % 2 := by
  have hrl : p.w.rec_len = p.w.dec_len := hw.2.2.2.1
  rw [hrl]
  obtain ⟨h1, h2⟩ := recOk_cascade (mode := p.mode) (F := p.w.dec_len) (N := shape.getD p.ax 0) hw.1
    hw.2.1 p.n _ hl (.inl rfl)
  refine ⟨h1, h2.trans ?_⟩
  split
  · rename_i h; rw [h]; rfl
  · rfl

theorem fsRecLoop_ok (shape : List ℕ) (ps : List (FsAxis R)) (hn : (ps.map (·.ax)).Nodup)
    (hok : FsOk shape ps) :
    ∀ c : Arr M, (∀ p ∈ ps, AxisIs c.ndim p.arg p.ax ∧
        c.shape.getD p.ax 0 = (p.lens shape).sum) →
      fsRecLoop (ps.map fun p => (p.slices shape, p.arg, p.w, p.mode)) c =
        .ok (c.run (ps.map fun p => p.inv shape)) := by
  induction ps with
  | nil => intro c _; rfl
  | cons p ps ih =>
    intro c hc
    simp only [List.map_cons, List.nodup_cons] at hn
    have hne : ∀ q ∈ ps, q.ax ≠ p.ax := fun q hq e => hn.1 (List.mem_map.mpr ⟨q, hq, e⟩)
    obtain ⟨hw, hl⟩ := hok p (by simp)
    obtain ⟨ha, hs⟩ := hc p (by simp)
    have hax : p.ax < c.shape.length := ha.2
    obtain ⟨r1, r2⟩ := FsAxis.recOk hw hl
    obtain ⟨cs, c1, c2⟩ := fsRecStep_ok hw ha r1 hs
    rw [r2] at c2
    simp only [List.map_cons, fsRecLoop, FsAxis.slices, FsAxis.lens, cascadeLens]
    rw [c1]
    simp only [Py_bind_ok]
    rw [c2]
    simp only [Py_bind_ok]
    have := ih hn.2 (fun q hq => hok q (by simp [hq])) (c.along p.ax
      (shape.getD p.ax 0 + if p.n = 0 then 0 else shape.getD p.ax 0 % 2)
      (recombineLine p.mode p.w.rec_lo p.w.rec_hi (p.lens shape))) (by
        intro q hq
        obtain ⟨q1, q2⟩ := hc q (by simp [hq])
        refine ⟨by simpa [Arr.ndim, Arr.shape_along] using q1, ?_⟩
        rw [Arr.shape_along, getD_set hax, if_neg (hne q hq)]
        exact q2)
    exact this

/-! ### Results -/

/-- The result object belongs to the given axes of data of the given shape. -/
def FsResult.Is (r : FsResult R M) (shape : List ℕ) (ps : List (FsAxis R)) : Prop :=
  r.axes = ps.map (·.arg) ∧ r.slices = ps.map (fun p => p.slices shape) ∧
  r.wavelets = ps.map (·.w) ∧ r.modes = ps.map (·.mode) ∧
  r.coeffs.shape.length = shape.length ∧
  (∀ p ∈ ps, r.coeffs.shape.getD p.ax 0 = (p.lens shape).sum) ∧
  (∀ k, k ∉ ps.map (·.ax) → r.coeffs.shape.getD k 0 = shape.getD k 0)

theorem args_nodup {ndim : ℕ} {ps : List (FsAxis R)} (hn : (ps.map (·.ax)).Nodup)
    (ha : ∀ p ∈ ps, AxisIs ndim p.arg p.ax) : (ps.map (·.arg)).Nodup := by
  induction ps with
  | nil => simp
  | cons p ps ih =>
    simp only [List.map_cons, List.nodup_cons] at hn ⊢
    refine ⟨fun h => ?_, ih hn.2 fun q hq => ha q (by simp [hq])⟩
    obtain ⟨q, hq, e⟩ := List.mem_map.mp h
    have h1 := (ha p (by simp)).1
    have h2 := (ha q (by simp [hq])).1
    rw [e] at h2
    exact hn.1 (List.mem_map.mpr ⟨q, hq, by omega⟩)

theorem axesShapes_args {shape : List ℕ} {ps : List (FsAxis R)}
    (ha : ∀ p ∈ ps, AxisIs shape.length p.arg p.ax) :
    axesShapes shape (ps.map (·.arg)) = .ok (ps.map fun p => shape.getD p.ax 0) := by
  induction ps with
  | nil => rfl
  | cons p ps ih =>
    simp only [List.map_cons, axesShapes, (ha p (by simp)).pyIndex,
      ih fun q hq => ha q (by simp [hq]), Py_bind_ok, Py_pure]

theorem checkFsAxes_ok {shape : List ℕ} {ps : List (FsAxis R)} (hn : (ps.map (·.ax)).Nodup)
    (ha : ∀ p ∈ ps, AxisIs shape.length p.arg p.ax) :
    checkFsAxes shape (ps.map (·.arg)) = .ok () := by
  have e : ¬ ¬ (ps.map (·.arg)).Nodup := not_not.mpr (args_nodup hn ha)
  simp only [checkFsAxes, if_neg e, axesShapes_args ha, Py_bind_ok, Py_pure]

theorem fsLevels_ok {levels : PerAxis (Option ℤ)} {ps : List (FsAxis R)}
    (h : match levels with
      | .one l => ∀ p ∈ ps, p.level = l
      | .many ls => ps.map (·.level) = ls) :
    fsLevels levels ps.length = .ok (ps.map (·.level)) := by
  cases levels with
  | one l =>
    simp only at h
    simp only [fsLevels, Py_pure]
    congr 1
    apply List.ext_getElem
    · simp
    · intro j h1 h2
      simp only [List.getElem_replicate, List.getElem_map]
      exact (h _ (List.getElem_mem _)).symm
  | many ls =>
    simp only at h
    subst h
    simp [fsLevels, Py_pure]

theorem zip_map_four {α β γ δ ε : Type} (ps : List α) (f : α → β) (g : α → γ) (h : α → δ)
    (k : α → ε) :
    (ps.map f).zip ((ps.map g).zip ((ps.map h).zip (ps.map k))) =
      ps.map fun p => (f p, g p, h p, k p) := by
  induction ps with
  | nil => rfl
  | cons p ps ih => simp [ih]

theorem fswavedecn_ok {x : Arr M} {wavelet : PerAxis (Wavelet R)} {mode : PerAxis Mode}
    {levels : PerAxis (Option ℤ)} {axes : Option (List ℤ)} {ps : List (FsAxis R)}
    (hr : FsResolves x.shape wavelet mode levels axes ps) (hok : FsOk x.shape ps) :
    fswavedecn x wavelet mode levels axes = .ok
      ⟨x.fsTransform ps, ps.map (fun p => p.slices x.shape), ps.map (·.w), ps.map (·.mode),
        ps.map (·.arg)⟩ := by
  obtain ⟨h1, h2, h3, h4, h5, h6⟩ := hr
  have hax : axes.getD (rangeAxes x.ndim) = ps.map (·.arg) := by
    cases axes with
    | none =>
      simp only at h1
      rw [Option.getD_none, h1]
      rfl
    | some l => exact h1.symm
  unfold fswavedecn
  simp only [hax, checkFsAxes_ok h6 fun p hp => (h5 p hp).1, Py_bind_ok, List.length_map,
    fsLevels_ok h2, h3, h4, zip_map_four]
  rw [show (fun p : FsAxis R => (p.arg, p.level, p.w, p.mode)) = FsAxis.entry from rfl,
    fsLoop_ok ps h6 x [] h5 hok]
  simp only [Py_bind_ok, Py_pure, List.nil_append, fsTransform_eq]

theorem fswavedecn_err {x : Arr M} {wavelet : PerAxis (Wavelet R)} {mode : PerAxis Mode}
    {levels : PerAxis (Option ℤ)} {axes : Option (List ℤ)} {ps : List (FsAxis R)}
    (hr : FsResolves x.shape wavelet mode levels axes ps) (hw : ∀ p ∈ ps, p.w.Ok)
    (hbad : ∃ p ∈ ps, ¬ LevelsOk p.mode p.w.dec_len (x.shape.getD p.ax 0) p.n) :
    fswavedecn x wavelet mode levels axes = .error .value := by
  obtain ⟨h1, h2, h3, h4, h5, h6⟩ := hr
  have hax : axes.getD (rangeAxes x.ndim) = ps.map (·.arg) := by
    cases axes with
    | none =>
      simp only at h1
      rw [Option.getD_none, h1]
      rfl
    | some l => exact h1.symm
  unfold fswavedecn
  simp only [hax, checkFsAxes_ok h6 fun p hp => (h5 p hp).1, Py_bind_ok, List.length_map,
    fsLevels_ok h2, h3, h4, zip_map_four]
  rw [show (fun p : FsAxis R => (p.arg, p.level, p.w, p.mode)) = FsAxis.entry from rfl,
    fsLoop_err ps h6 x [] h5 hw hbad]
  rfl

theorem fsTransform_shape {x : Arr M} {ps : List (FsAxis R)} (hn : (ps.map (·.ax)).Nodup)
    (ha : ∀ p ∈ ps, p.ax < x.shape.length) :
    (x.fsTransform ps).shape.length = x.shape.length ∧
    (∀ p ∈ ps, (x.fsTransform ps).shape.getD p.ax 0 = (p.lens x.shape).sum) ∧
    (∀ k, k ∉ ps.map (·.ax) → (x.fsTransform ps).shape.getD k 0 = x.shape.getD k 0) := by
  have e : ((ps.map fun p => (p.fwd x.shape : LOp M)).map (·.ax)) = ps.map (·.ax) := by
    simp [FsAxis.fwd, Function.comp_def]
  rw [fsTransform_eq]
  refine ⟨Arr.run_length _ _, fun p hp => ?_, fun k hk => Arr.run_shape_ne _ (by rw [e]; exact hk) _⟩
  exact Arr.run_shape_eq (ps.map fun p => (p.fwd x.shape : LOp M)) (by rw [e]; exact hn)
    (o := p.fwd x.shape) (List.mem_map.mpr ⟨p, hp, rfl⟩) x (ha p hp)

theorem fswaverecn_ok {r : FsResult R M} {shape : List ℕ} {ps : List (FsAxis R)}
    (hr : r.Is shape ps) (hn : (ps.map (·.ax)).Nodup)
    (ha : ∀ p ∈ ps, AxisIs shape.length p.arg p.ax) (hok : FsOk shape ps) :
    fswaverecn r = .ok (r.coeffs.fsInverse ps shape) := by
  obtain ⟨h1, h2, h3, h4, h5, h6, h7⟩ := hr
  have ha' : ∀ p ∈ ps, AxisIs r.coeffs.shape.length p.arg p.ax := by rw [h5]; exact ha
  have e : ¬ (ps.map (·.arg)).length ≠ (ps.map fun p => p.slices shape).length := by simp
  unfold fswaverecn
  rw [h1, h2, h3, h4, checkFsAxes_ok hn ha']
  simp only [Py_bind_ok, if_neg e, zip_map_four]
  rw [fsRecLoop_ok shape ps hn hok _ fun p hp => ⟨ha' p hp, h6 p hp⟩, fsInverse_eq]

end

section
variable {R M : Type} [CommRing R] [AddCommGroup M] [Module R M]

theorem FsAxis.fwd_fits {shape : List ℕ} {p : FsAxis R} (ha : p.ax < shape.length) (hw : p.w.Ok) :
    (p.fwd shape : LOp M).Fits R shape :=
  ⟨ha, rfl, isMat_flatten hw.2.2.1 _ _⟩

theorem FsAxis.inv_mat {shape : List ℕ} {p : FsAxis R} (hw : p.w.Ok)
    (hl : LevelsOk p.mode p.w.dec_len (shape.getD p.ax 0) p.n) :
    IsMat R (p.inv shape : LOp M).m (p.inv shape : LOp M).n (p.inv shape : LOp M).g := by
  obtain ⟨r1, r2⟩ := FsAxis.recOk hw hl
  have := isMat_recombine (M := M) (lo := p.w.rec_lo) (hi := p.w.rec_hi) r1
  have e : recLen p.mode p.w.rec_lo.length (approxLen p.mode p.w.dec_len (shape.getD p.ax 0) p.n)
      ((List.range p.n).map fun j =>
        approxLen p.mode p.w.dec_len (shape.getD p.ax 0) (j + 1)).reverse =
      (p.inv shape : LOp M).n := r2
  rw [e] at this
  exact this

theorem fs_round_trip {x : Arr M} {ps : List (FsAxis R)} (hn : (ps.map (·.ax)).Nodup)
    (ha : ∀ p ∈ ps, p.ax < x.shape.length) (hok : FsOk x.shape ps)
    (hpr : ∀ p ∈ ps, PR p.w.dec_lo p.w.dec_hi p.w.rec_lo p.w.rec_hi) :
    ((x.fsTransform ps).fsInverse ps x.shape).Extends x ∧
    (∀ p ∈ ps, ((x.fsTransform ps).fsInverse ps x.shape).shape.getD p.ax 0 =
      x.shape.getD p.ax 0 + if p.n = 0 then 0 else x.shape.getD p.ax 0 % 2) ∧
    (∀ k, k ∉ ps.map (·.ax) →
      ((x.fsTransform ps).fsInverse ps x.shape).shape.getD k 0 = x.shape.getD k 0) := by
  have hrun := Arr.run_run (R := R) (ps.map fun p => ((p.fwd x.shape : LOp M), (p.inv x.shape : LOp M)))
    (by simpa [FsAxis.fwd, Function.comp_def] using hn) x (by
      intro q hq
      obtain ⟨p, hp, rfl⟩ := List.mem_map.mp hq
      obtain ⟨hw, hl⟩ := hok p hp
      exact ⟨FsAxis.fwd_fits (ha p hp) hw, rfl, rfl, FsAxis.inv_mat hw hl⟩)
  simp only [List.map_map, Function.comp_def] at hrun
  have e : ((ps.map fun p => LOp.comp ((p.fwd x.shape : LOp M), (p.inv x.shape : LOp M))).map
      (·.ax)) = ps.map (·.ax) := by
    simp [LOp.comp, FsAxis.fwd, Function.comp_def]
  rw [fsInverse_eq, fsTransform_eq, hrun]
  refine ⟨Arr.run_extends _ (by rw [e]; exact hn) x ?_, ?_, ?_⟩
  · intro o ho
    obtain ⟨p, hp, rfl⟩ := List.mem_map.mp ho
    obtain ⟨hw, hl⟩ := hok p hp
    refine ⟨ha p hp, ?_, ?_⟩
    · show _ ≤ x.shape.getD p.ax 0 + _
      exact Nat.le_add_right _ _
    · intro l hlen
      show (recombineLine p.mode p.w.rec_lo p.w.rec_hi (p.lens x.shape)
        (cascade p.mode p.w.dec_lo p.w.dec_hi p.n l).flatten).take l.length = l
      have hlen' : l.length = x.shape.getD p.ax 0 := hlen
      have e2 : p.lens x.shape = (cascade p.mode p.w.dec_lo p.w.dec_hi p.n l).map List.length := by
        rw [cascade_lens hw.2.2.1, hlen']
        rfl
      unfold recombineLine
      rw [e2, chunks_flatten]
      exact recombine_cascade hw (hpr p hp) p.n _ (by rw [hlen']; exact hl) (by simp)
  · intro p hp
    exact Arr.run_shape_eq _ (by rw [e]; exact hn)
      (o := LOp.comp ((p.fwd x.shape : LOp M), (p.inv x.shape : LOp M)))
      (List.mem_map.mpr ⟨p, hp, rfl⟩) x (ha p hp)
  · intro k hk
    exact Arr.run_shape_ne _ (by rw [e]; exact hk) x

end

end Pywt
