import Verif.Proof.AxisMulti
import Verif.Proof.Lin
import Mathlib.LinearAlgebra.Finsupp.LinearCombination

/-! Linear operations on lines: natural operations are matrices, and matrices along different axes
commute. -/

namespace Pywt

open Finset Spec

set_option linter.unusedSectionVars false

section
variable {R M : Type} [Ring R] [AddCommGroup M] [Module R M]

/-- On lists of length `m` the operation is given by an `n × m` matrix. -/
def IsMat (R : Type) {M : Type} [Ring R] [AddCommGroup M] [Module R M] (m n : ℕ)
    (g : List M → List M) : Prop :=
  ∃ c : ℕ → ℕ → R, ∀ l : List M, l.length = m →
    g l = (List.range n).map fun i : ℕ => ∑ j ∈ Finset.range m, c i j • l.getD j 0

theorem IsMat.length {m n : ℕ} {g : List M → List M} (h : IsMat R m n g) {l : List M}
    (hl : l.length = m) : (g l).length = n := by
  obtain ⟨c, hc⟩ := h
  rw [hc l hl]
  simp

/-- An operation that commutes with linear maps is a matrix. -/
theorem isMat_of_natural {m n : ℕ} {g : List M → List M}
    {g' : List (Fin m → R) → List (Fin m → R)}
    (hnat : ∀ (φ : (Fin m → R) →ₗ[R] M) (l : List (Fin m → R)), g (l.map φ) = (g' l).map φ)
    (hlen : ∀ l : List M, l.length = m → (g l).length = n) : IsMat R m n g := by
  let x0 : List (Fin m → R) := List.ofFn fun j : Fin m => (Pi.single j 1 : Fin m → R)
  refine ⟨fun i j => if h : j < m then ((g' x0).getD i 0) ⟨j, h⟩ else 0, fun l hl => ?_⟩
  let φ : (Fin m → R) →ₗ[R] M := Fintype.linearCombination R fun j : Fin m => l.getD j 0
  have hx : l = x0.map φ := by
    apply List.ext_getElem
    · simp [x0, hl]
    · intro j h1 h2
      simp only [x0, List.getElem_map, List.getElem_ofFn, φ]
      rw [Fintype.linearCombination_apply_single, one_smul, List.getD_eq_getElem (hn := h1)]
  have hg : g l = (g' x0).map φ := by rw [← hnat, ← hx]
  apply List.ext_getElem
  · rw [hlen l hl]; simp
  · intro i h1 h2
    have h3 : i < (g' x0).length := by rw [hg] at h1; simpa using h1
    simp only [List.getElem_map, List.getElem_range]
    have : (g l)[i] = φ ((g' x0)[i]) := by simp [hg]
    rw [this, Fintype.linearCombination_apply, Finset.sum_range, List.getD_eq_getElem (hn := h3)]
    apply Finset.sum_congr rfl
    intro j _
    rw [dif_pos j.2]

end

section
variable {R M : Type} [CommRing R] [AddCommGroup M] [Module R M]

theorem along_comm {a b m1 n1 m2 n2 : ℕ} {g h : List M → List M} {x : Arr M} (hab : a ≠ b)
    (ha : a < x.shape.length) (hb : b < x.shape.length) (hsa : x.shape.getD a 0 = m1)
    (hsb : x.shape.getD b 0 = m2) (hg : IsMat R m1 n1 g) (hh : IsMat R m2 n2 h) :
    (x.along a n1 g).along b n2 h = (x.along b n2 h).along a n1 g := by
  have hsh : ((x.along a n1 g).along b n2 h).shape = ((x.along b n2 h).along a n1 g).shape := by
    simp only [Arr.shape_along]
    exact List.set_comm _ _ hab
  have key : ∀ {a b m1 n1 m2 n2 : ℕ} {g h : List M → List M} (_ : a ≠ b)
      (_ : a < x.shape.length) (_ : b < x.shape.length) (_ : x.shape.getD a 0 = m1)
      (_ : x.shape.getD b 0 = m2) (cg ch : ℕ → ℕ → R)
      (_ : ∀ l : List M, l.length = m1 →
        g l = (List.range n1).map fun i : ℕ => ∑ j ∈ Finset.range m1, cg i j • l.getD j 0)
      (_ : ∀ l : List M, l.length = m2 →
        h l = (List.range n2).map fun i : ℕ => ∑ j ∈ Finset.range m2, ch i j • l.getD j 0)
      (idx : ℕ → ℕ) (_ : InB ((x.shape.set a n1).set b n2) idx),
      ((x.along a n1 g).along b n2 h).get idx =
        ∑ j ∈ Finset.range m2, ∑ i ∈ Finset.range m1,
          (ch (idx b) j * cg (idx a) i) • x.get (Function.update (Function.update idx b j) a i) := by
    intro a b m1 n1 m2 n2 g h hab ha hb hsa hsb cg ch hcg hch idx hidx
    have hb' : b < (x.along a n1 g).shape.length := by simpa [Arr.shape_along] using hb
    have hbl : (x.along a n1 g).shape.getD b 0 = m2 := by
      rw [Arr.shape_along, getD_set ha, if_neg hab.symm, hsb]
    have hidxb : idx b < n2 := by
      have := hidx b (by simpa using hb)
      rwa [getD_set (by simpa using hb), if_pos rfl] at this
    have hidxa : idx a < n1 := by
      have := hidx a (by simpa using ha)
      rwa [getD_set (by simpa using hb), if_neg hab, getD_set ha, if_pos rfl] at this
    rw [Arr.along_get hb' (by rw [Arr.shape_along]; exact hidx),
      hch _ (by rw [Arr.line_length, hbl]),
      List.getD_eq_getElem (hn := by simpa using hidxb)]
    simp only [List.getElem_map, List.getElem_range]
    apply Finset.sum_congr rfl
    intro j hj
    rw [Finset.mem_range] at hj
    rw [List.getD_eq_getElem (hn := by rw [Arr.line_length, hbl]; exact hj), Arr.line_getElem,
      Arr.along_get ha, Function.update_of_ne hab, hcg _ (by rw [Arr.line_length, hsa]),
      List.getD_eq_getElem (hn := by simpa using hidxa)]
    · simp only [List.getElem_map, List.getElem_range]
      rw [Finset.smul_sum]
      apply Finset.sum_congr rfl
      intro i hi
      rw [Finset.mem_range] at hi
      rw [List.getD_eq_getElem (hn := by rw [Arr.line_length, hsa]; exact hi), Arr.line_getElem,
        smul_smul]
    · intro k hk
      rw [List.length_set] at hk
      by_cases hkb : k = b
      · subst hkb
        rw [Function.update_self, getD_set ha, if_neg hab.symm, hsb]
        exact hj
      · rw [Function.update_of_ne hkb]
        have := hidx k (by simpa using hk)
        rwa [getD_set (by simpa using hb), if_neg hkb] at this
  obtain ⟨cg, hcg⟩ := hg
  obtain ⟨ch, hch⟩ := hh
  refine Arr.ext_get hsh fun idx hidx => ?_
  rw [key hab ha hb hsa hsb cg ch hcg hch idx (by simpa [Arr.shape_along] using hidx),
    key hab.symm hb ha hsb hsa ch cg hch hcg idx (by
      rw [hsh] at hidx; simpa [Arr.shape_along] using hidx), Finset.sum_comm]
  apply Finset.sum_congr rfl
  intro i _
  apply Finset.sum_congr rfl
  intro j _
  rw [Function.update_comm hab, mul_comm]

end

/-- An operation on the lines along an axis. -/
structure LOp (M : Type) where
  ax : ℕ
  m : ℕ
  n : ℕ
  g : List M → List M

section
variable {R M : Type} [CommRing R] [AddCommGroup M] [Module R M]

/-- One operation after another. -/
def Arr.run (ops : List (LOp M)) (x : Arr M) : Arr M :=
  ops.foldl (fun x o => x.along o.ax o.n o.g) x

theorem Arr.run_cons (o : LOp M) (ops : List (LOp M)) (x : Arr M) :
    x.run (o :: ops) = (x.along o.ax o.n o.g).run ops := rfl

/-- The operation fits an array of the given shape. -/
def LOp.Fits (R : Type) {M : Type} [Ring R] [AddCommGroup M] [Module R M] (o : LOp M)
    (shape : List ℕ) : Prop :=
  o.ax < shape.length ∧ shape.getD o.ax 0 = o.m ∧ IsMat R o.m o.n o.g

theorem LOp.Fits.set {o : LOp M} {shape : List ℕ} (h : o.Fits R shape) {a n : ℕ} (ha : o.ax ≠ a) :
    o.Fits R (shape.set a n) := by
  refine ⟨by simpa using h.1, ?_, h.2.2⟩
  rw [← h.2.1]
  simp only [List.getD_eq_getElem?_getD, List.getElem?_set_ne ha.symm]

theorem Arr.run_length (ops : List (LOp M)) : ∀ x : Arr M, (x.run ops).shape.length =
    x.shape.length := by
  induction ops with
  | nil => intro x; rfl
  | cons o ops ih => intro x; rw [Arr.run_cons, ih]; simp [Arr.shape_along]

theorem Arr.run_shape_ne (ops : List (LOp M)) {k : ℕ} (hk : k ∉ ops.map (·.ax)) :
    ∀ x : Arr M, (x.run ops).shape.getD k 0 = x.shape.getD k 0 := by
  induction ops with
  | nil => intro x; rfl
  | cons o ops ih =>
    intro x
    simp only [List.map_cons, List.mem_cons, not_or] at hk
    rw [Arr.run_cons, ih hk.2, Arr.shape_along]
    simp only [List.getD_eq_getElem?_getD, List.getElem?_set_ne (Ne.symm hk.1)]

theorem Arr.run_shape_eq (ops : List (LOp M)) (hn : (ops.map (·.ax)).Nodup) {o : LOp M}
    (ho : o ∈ ops) : ∀ x : Arr M, o.ax < x.shape.length → (x.run ops).shape.getD o.ax 0 = o.n := by
  induction ops with
  | nil => simp at ho
  | cons p ops ih =>
    intro x hx
    simp only [List.map_cons, List.nodup_cons] at hn
    rw [Arr.run_cons]
    rcases List.mem_cons.mp ho with rfl | ho
    · rw [Arr.run_shape_ne _ hn.1, Arr.shape_along, getD_set hx, if_pos rfl]
    · exact ih hn.2 ho _ (by simpa [Arr.shape_along] using hx)

/-- An operation along an axis that the list does not touch can be done first. -/
theorem Arr.run_comm_one {o : LOp M} (ops : List (LOp M)) (ho : o.ax ∉ ops.map (·.ax))
    (hn : (ops.map (·.ax)).Nodup) :
    ∀ x : Arr M, o.Fits R x.shape → (∀ p ∈ ops, p.Fits R x.shape) →
      (x.run ops).along o.ax o.n o.g = (x.along o.ax o.n o.g).run ops := by
  induction ops with
  | nil => intro x _ _; rfl
  | cons p ops ih =>
    intro x hox hx
    simp only [List.map_cons, List.mem_cons, not_or, List.nodup_cons] at ho hn
    have hp := hx p (by simp)
    rw [Arr.run_cons, Arr.run_cons, ih ho.2 hn.2 _ (by
        rw [Arr.shape_along]; exact hox.set ho.1) (by
        intro q hq
        rw [Arr.shape_along]
        refine (hx q (by simp [hq])).set ?_
        intro h
        exact hn.1 (List.mem_map.mpr ⟨q, hq, h⟩)),
      along_comm (Ne.symm ho.1) hp.1 hox.1 hp.2.1 hox.2.1 hp.2.2 hox.2.2]

/-- The composition of two operations along the same axis. -/
def LOp.comp (p : LOp M × LOp M) : LOp M := ⟨p.1.ax, p.1.m, p.2.n, fun l => p.2.g (p.1.g l)⟩

/-- Running one list of operations after another, on the same distinct axes, is running the
compositions. -/
theorem Arr.run_run (ps : List (LOp M × LOp M)) (hn : (ps.map (·.1.ax)).Nodup) :
    ∀ x : Arr M, (∀ p ∈ ps, p.1.Fits R x.shape ∧ p.2.ax = p.1.ax ∧ p.2.m = p.1.n ∧
      IsMat R p.2.m p.2.n p.2.g) →
      (x.run (ps.map (·.1))).run (ps.map (·.2)) = x.run (ps.map LOp.comp) := by
  induction ps with
  | nil => intro x _; rfl
  | cons p ps ih =>
    intro x hx
    simp only [List.map_cons, List.nodup_cons] at hn
    obtain ⟨h1, h2, h3, h4⟩ := hx p (by simp)
    have hne : ∀ q ∈ ps, q.1.ax ≠ p.1.ax := by
      intro q hq h
      exact hn.1 (List.mem_map.mpr ⟨q, hq, h⟩)
    have hsh : (x.along p.1.ax p.1.n p.1.g).shape.getD p.1.ax 0 = p.1.n := by
      rw [Arr.shape_along, getD_set h1.1, if_pos rfl]
    simp only [List.map_cons, Arr.run_cons]
    rw [Arr.run_comm_one (R := R) (o := p.2) (ps.map (·.1))
      (by rw [h2]; simpa using hn.1) (by rw [List.map_map]; exact hn.2)]
    · rw [h2, Arr.along_along h1.1 (fun l hl => h1.2.2.length (hl.trans h1.2.1))]
      rw [ih hn.2]
      · rfl
      · intro q hq
        obtain ⟨q1, q2, q3, q4⟩ := hx q (by simp [hq])
        refine ⟨?_, q2, q3, q4⟩
        rw [Arr.shape_along]
        exact q1.set (hne q hq)
    · refine ⟨by rw [h2]; simpa [Arr.shape_along] using h1.1, by rw [h2, hsh, h3], h4⟩
    · intro o ho
      obtain ⟨q, hq, rfl⟩ := List.mem_map.mp ho
      rw [Arr.shape_along]
      exact (hx q (by simp [hq])).1.set (hne q hq)

theorem Arr.run_congr (ops ops' : List (LOp M)) (x : Arr M)
    (h : List.Forall₂ (fun o o' : LOp M => o.ax = o'.ax ∧ o.n = o'.n ∧ o.m = o'.m ∧
      ∀ l : List M, l.length = o.m → o.g l = o'.g l) ops ops')
    (hn : (ops.map (·.ax)).Nodup) (hx : ∀ o ∈ ops, x.shape.getD o.ax 0 = o.m) :
    x.run ops = x.run ops' := by
  induction h generalizing x with
  | nil => rfl
  | cons h1 _ ih =>
    rename_i o o' ops ops' _
    obtain ⟨e1, e2, e3, e4⟩ := h1
    simp only [List.map_cons, List.nodup_cons] at hn
    have : x.along o.ax o.n o.g = x.along o'.ax o'.n o'.g := by
      rw [← e1, ← e2]
      exact Arr.along_congr fun l hl => e4 l (hl.trans (hx o (by simp)))
    rw [Arr.run_cons, Arr.run_cons, ← this]
    refine ih _ hn.2 ?_
    intro p hp
    rw [Arr.shape_along, ← hx p (by simp [hp])]
    have hne : o.ax ≠ p.ax := by
      intro h
      exact hn.1 (List.mem_map.mpr ⟨p, hp, h.symm⟩)
    simp only [List.getD_eq_getElem?_getD, List.getElem?_set_ne hne]

end

end Pywt
