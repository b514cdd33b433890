import Verif.Model.Arr
import Mathlib.Tactic.Ring
import Mathlib.Data.List.GetD
import Mathlib.Algebra.BigOperators.Intervals

/-! Row-major indexing. -/

namespace Pywt

set_option linter.unusedSectionVars false

/-- Product of the first `j` extents. -/
def prodTo (shape : List ℕ) : ℕ → ℕ
  | 0 => 1
  | j + 1 => prodTo shape j * shape.getD j 0

theorem prodTo_eq (shape : List ℕ) {j : ℕ} (hj : j ≤ shape.length) :
    prodTo shape j = (shape.take j).prod := by
  induction j with
  | zero => simp [prodTo]
  | succ j ih =>
    rw [prodTo, ih (by omega), List.prod_take_succ _ _ (by omega), List.getD_eq_getElem]

theorem prodTo_length (shape : List ℕ) : prodTo shape shape.length = shape.prod := by
  rw [prodTo_eq _ le_rfl, List.take_length]

theorem ravelIx_lt {shape : List ℕ} {idx : ℕ → ℕ} {j : ℕ}
    (h : ∀ k < j, idx k < shape.getD k 0) : ravelIx shape idx j < prodTo shape j := by
  induction j with
  | zero => simp [ravelIx, prodTo]
  | succ j ih =>
    have h1 := ih fun k hk => h k (by omega)
    have h2 := h j (by omega)
    simp only [ravelIx, prodTo]
    calc ravelIx shape idx j * shape.getD j 0 + idx j
        < ravelIx shape idx j * shape.getD j 0 + shape.getD j 0 := by omega
      _ = (ravelIx shape idx j + 1) * shape.getD j 0 := by ring
      _ ≤ _ := Nat.mul_le_mul_right _ h1

theorem InB.ravel_lt {shape : List ℕ} {idx : ℕ → ℕ} (h : InB shape idx) :
    ravelIx shape idx shape.length < shape.prod := by
  rw [← prodTo_length]
  exact ravelIx_lt h

theorem unravelIx_inB {shape : List ℕ} {j p : ℕ} (hp : p < prodTo shape j) :
    ∀ k < j, unravelIx shape j p k < shape.getD k 0 := by
  induction j generalizing p with
  | zero => intro k hk; omega
  | succ j ih =>
    intro k hk
    have hpos : 0 < shape.getD j 0 := by
      rcases Nat.eq_zero_or_pos (shape.getD j 0) with h | h
      · simp only [prodTo, h, Nat.mul_zero] at hp; omega
      · exact h
    simp only [unravelIx]
    split
    · rename_i h
      subst h
      exact Nat.mod_lt _ hpos
    · exact ih (Nat.div_lt_of_lt_mul (by rw [Nat.mul_comm]; exact hp)) k (by omega)

theorem ravel_unravel {shape : List ℕ} {j p : ℕ} (hp : p < prodTo shape j) :
    ravelIx shape (unravelIx shape j p) j = p := by
  have congr : ∀ (f g : ℕ → ℕ) (j : ℕ), (∀ k < j, f k = g k) →
      ravelIx shape f j = ravelIx shape g j := by
    intro f g j
    induction j with
    | zero => intro _; rfl
    | succ j ih =>
      intro h
      simp only [ravelIx, ih fun k hk => h k (by omega), h j (by omega)]
  induction j generalizing p with
  | zero => simp [prodTo] at hp; simp [ravelIx, hp]
  | succ j ih =>
    have hdiv : p / shape.getD j 0 < prodTo shape j :=
      Nat.div_lt_of_lt_mul (by rw [Nat.mul_comm]; exact hp)
    simp only [ravelIx]
    rw [congr _ (unravelIx shape j (p / shape.getD j 0)) j
      (fun k hk => by simp only [unravelIx]; rw [if_neg (by omega)]), ih hdiv]
    simp only [unravelIx, if_true]
    rw [Nat.mul_comm]
    exact Nat.div_add_mod _ _

theorem ravelIx_congr {shape : List ℕ} {f g : ℕ → ℕ} {j : ℕ} (h : ∀ k < j, f k = g k) :
    ravelIx shape f j = ravelIx shape g j := by
  induction j with
  | zero => rfl
  | succ j ih => simp only [ravelIx, ih fun k hk => h k (by omega), h j (by omega)]

theorem unravel_ravel {shape : List ℕ} {idx : ℕ → ℕ} {j : ℕ}
    (h : ∀ k < j, idx k < shape.getD k 0) :
    ∀ k < j, unravelIx shape j (ravelIx shape idx j) k = idx k := by
  induction j with
  | zero => intro k hk; omega
  | succ j ih =>
    intro k hk
    have h2 := h j (by omega)
    simp only [ravelIx, unravelIx]
    have e1 : (ravelIx shape idx j * shape.getD j 0 + idx j) % shape.getD j 0 = idx j := by
      rw [Nat.mul_comm, Nat.mul_add_mod, Nat.mod_eq_of_lt h2]
    have e2 : (ravelIx shape idx j * shape.getD j 0 + idx j) / shape.getD j 0 =
        ravelIx shape idx j := by
      rw [Nat.mul_comm, Nat.mul_add_div (by omega), Nat.div_eq_of_lt h2, Nat.add_zero]
    rw [e1, e2]
    split
    · rename_i h'; rw [h']
    · exact ih (fun k hk => h k (by omega)) k (by omega)

theorem ravelIx_inj {shape : List ℕ} {f g : ℕ → ℕ} {j : ℕ} (hf : ∀ k < j, f k < shape.getD k 0)
    (hg : ∀ k < j, g k < shape.getD k 0) (h : ravelIx shape f j = ravelIx shape g j) :
    ∀ k < j, f k = g k := by
  intro k hk
  rw [← unravel_ravel hf k hk, h, unravel_ravel hg k hk]

theorem InB.congr {shape : List ℕ} {f g : ℕ → ℕ} (h : ∀ k < shape.length, f k = g k) :
    InB shape f ↔ InB shape g := by
  unfold InB
  exact forall₂_congr fun k hk => by rw [h k hk]

namespace Arr

variable {M : Type} [Zero M]

theorem ext_get {a b : Arr M} (hs : a.shape = b.shape)
    (h : ∀ idx, InB a.shape idx → a.get idx = b.get idx) : a = b := by
  obtain ⟨s, d, hd⟩ := a
  obtain ⟨s', d', hd'⟩ := b
  simp only at hs
  subst hs
  congr 1
  apply List.ext_getElem
  · rw [hd, hd']
  intro p h1 h2
  have hp : p < prodTo s s.length := by rw [prodTo_length, ← hd]; exact h1
  have := h (unravelIx s s.length p) (unravelIx_inB hp)
  simp only [get, ravel_unravel hp] at this
  rwa [List.getD_eq_getElem (hn := h1), List.getD_eq_getElem (hn := h2)] at this

theorem ext_iff_get {a b : Arr M} :
    a = b ↔ a.shape = b.shape ∧ ∀ idx, InB a.shape idx → a.get idx = b.get idx :=
  ⟨fun h => by subst h; exact ⟨rfl, fun _ _ => rfl⟩, fun h => ext_get h.1 h.2⟩

@[simp] theorem shape_ofFn (shape : List ℕ) (f : (ℕ → ℕ) → M) : (ofFn shape f).shape = shape := rfl

/-- `f` looks only at the axes of the shape. -/
def Local (n : ℕ) (f : (ℕ → ℕ) → M) : Prop := ∀ g h : ℕ → ℕ, (∀ k < n, g k = h k) → f g = f h

theorem get_ofFn {shape : List ℕ} {f : (ℕ → ℕ) → M} (hf : Local shape.length f) {idx : ℕ → ℕ}
    (h : InB shape idx) : (ofFn shape f).get idx = f idx := by
  have hlt := h.ravel_lt
  simp only [get, ofFn]
  rw [List.getD_eq_getElem (hn := by simpa using hlt)]
  simp only [List.getElem_map, List.getElem_range]
  exact hf _ _ fun k hk => unravel_ravel h k hk

theorem get_congr (a : Arr M) {f g : ℕ → ℕ} (h : ∀ k < a.shape.length, f k = g k) :
    a.get f = a.get g := by
  simp only [get, ravelIx_congr h]

end Arr

end Pywt
