import Verif.Proof.MultiDimZero
import Verif.Model.SwtN
import Mathlib.Algebra.BigOperators.Group.List.Lemmas
import Mathlib.Algebra.Group.Hom.Basic

/-! Additive operations along several axes, as functions of the indices. -/

namespace Pywt

open Finset Spec

set_option linter.unusedSectionVars false

section
variable {M : Type} [AddCommGroup M]

/-- An additive operation along one axis. -/
def liftAx (ax : ℕ) (T : (ℕ → M) →+ (ℕ → M)) : ((ℕ → ℕ) → M) →+ ((ℕ → ℕ) → M) where
  toFun F idx := T (fun j => F (Function.update idx ax j)) (idx ax)
  map_zero' := by
    funext idx
    have : T (fun _ => (0 : M)) = 0 := map_zero T
    simp [this]
  map_add' F G := by
    funext idx
    have := map_add T (fun j => F (Function.update idx ax j)) (fun j => G (Function.update idx ax j))
    exact congrFun this (idx ax)

theorem liftAx_apply (ax : ℕ) (T : (ℕ → M) →+ (ℕ → M)) (F : (ℕ → ℕ) → M) (idx : ℕ → ℕ) :
    liftAx ax T F idx = T (fun j => F (Function.update idx ax j)) (idx ax) := rfl

/-- Operations along several axes, the last one first. -/
def nest : List (ℕ × ((ℕ → M) →+ (ℕ → M))) → ((ℕ → ℕ) → M) →+ ((ℕ → ℕ) → M)
  | [] => AddMonoidHom.id _
  | p :: l => (liftAx p.1 p.2).comp (nest l)

theorem nest_cons (p : ℕ × ((ℕ → M) →+ (ℕ → M))) (l) (F : (ℕ → ℕ) → M) :
    nest (p :: l) F = liftAx p.1 p.2 (nest l F) := rfl

theorem nest_append (l l' : List (ℕ × ((ℕ → M) →+ (ℕ → M)))) (F : (ℕ → ℕ) → M) :
    nest (l ++ l') F = nest l (nest l' F) := by
  induction l with
  | nil => rfl
  | cons p l ih => rw [List.cons_append, nest_cons, ih, nest_cons]

/-- Substitution of the argument. -/
def pre (φ : ℕ → ℕ) (T : (ℕ → M) →+ (ℕ → M)) : (ℕ → M) →+ (ℕ → M) where
  toFun u := T (fun j => u (φ j))
  map_zero' := map_zero T
  map_add' u v := map_add T (fun j => u (φ j)) (fun j => v (φ j))

/-- Substitution of the result. -/
def post (ρ : ℕ → ℕ) (T : (ℕ → M) →+ (ℕ → M)) : (ℕ → M) →+ (ℕ → M) where
  toFun u := fun i => T u (ρ i)
  map_zero' := by funext i; simp
  map_add' u v := by funext i; simp

/-- Substitution in every coordinate. -/
def psub (σ : ℕ → ℕ → ℕ) (F : (ℕ → ℕ) → M) : (ℕ → ℕ) → M := fun idx => F fun k => σ k (idx k)

theorem nest_psub (l : List (ℕ × ((ℕ → M) →+ (ℕ → M)))) (hn : (l.map (·.1)).Nodup) (σ : ℕ → ℕ → ℕ)
    (F : (ℕ → ℕ) → M) :
    nest l (psub σ F) = psub (fun k => if k ∈ l.map (·.1) then id else σ k)
      (nest (l.map fun p => (p.1, pre (σ p.1) p.2)) F) := by
  induction l with
  | nil => simp [nest]
  | cons p l ih =>
    simp only [List.map_cons, List.nodup_cons] at hn
    rw [nest_cons, ih hn.2]
    funext idx
    simp only [List.map_cons, nest_cons, psub, liftAx_apply, pre, AddMonoidHom.coe_mk, ZeroHom.coe_mk]
    have e : (if p.1 ∈ p.1 :: l.map (·.1) then id else σ p.1) (idx p.1) = idx p.1 := by simp
    rw [e]
    refine congrFun (congrArg p.2 ?_) _
    funext j
    refine congrArg _ ?_
    funext k
    by_cases hk : k = p.1
    · subst hk
      rw [Function.update_self, Function.update_self, if_neg hn.1]
    · rw [Function.update_of_ne hk, Function.update_of_ne hk]
      by_cases h : k ∈ l.map (·.1)
      · rw [if_pos h, if_pos (by simp only [List.mem_cons]; exact Or.inr h)]
      · rw [if_neg h, if_neg (by simp only [List.mem_cons, not_or]; exact ⟨hk, h⟩)]

theorem psub_nest (l : List (ℕ × ((ℕ → M) →+ (ℕ → M)))) (hn : (l.map (·.1)).Nodup)
    (F : (ℕ → ℕ) → M) : ∀ ρ : ℕ → ℕ → ℕ,
    psub ρ (nest l F) = nest (l.map fun p => (p.1, post (ρ p.1) p.2))
      (psub (fun k => if k ∈ l.map (·.1) then id else ρ k) F) := by
  induction l with
  | nil => intro ρ; simp [nest]
  | cons p l ih =>
    intro ρ
    simp only [List.map_cons, List.nodup_cons] at hn
    have h1 : psub ρ (nest (p :: l) F) =
        liftAx p.1 (post (ρ p.1) p.2) (psub (Function.update ρ p.1 id) (nest l F)) := by
      funext idx
      simp only [nest_cons, psub, liftAx_apply, post, AddMonoidHom.coe_mk, ZeroHom.coe_mk]
      refine congrFun (congrArg p.2 ?_) _
      funext j
      refine congrArg _ ?_
      funext k
      by_cases hk : k = p.1
      · subst hk
        rw [Function.update_self, Function.update_self, Function.update_self]
        rfl
      · rw [Function.update_of_ne hk, Function.update_of_ne hk, Function.update_of_ne hk]
    rw [h1, ih hn.2]
    simp only [List.map_cons, nest_cons]
    congr 1
    congr 1
    · congr 1
      apply List.map_congr_left
      intro q hq
      rw [Function.update_of_ne]
      intro h
      exact hn.1 (h ▸ List.mem_map_of_mem hq)
    · congr 1
      funext k
      by_cases hk : k = p.1
      · subst hk
        rw [Function.update_self]
        simp
      · rw [Function.update_of_ne hk]
        by_cases h : k ∈ l.map (·.1)
        · rw [if_pos h, if_pos (by simp only [List.mem_cons]; exact Or.inr h)]
        · rw [if_neg h, if_neg (by simp only [List.mem_cons, not_or]; exact ⟨hk, h⟩)]

theorem psub_id (F : (ℕ → ℕ) → M) : psub (fun _ => id) F = F := rfl

/-- The operation looks only at the first `n` samples. -/
def LocalOp (n : ℕ) (T : (ℕ → M) →+ (ℕ → M)) : Prop :=
  ∀ u v : ℕ → M, (∀ j < n, u j = v j) → T u = T v

theorem nest_congr (ndim : ℕ) (B : ℕ → ℕ) (l : List (ℕ × ((ℕ → M) →+ (ℕ → M))))
    (hl : ∀ p ∈ l, LocalOp (B p.1) p.2) {F G : (ℕ → ℕ) → M}
    (h : ∀ idx : ℕ → ℕ, (∀ k < ndim, idx k < B k) → F idx = G idx) :
    ∀ idx : ℕ → ℕ, (∀ k < ndim, k ∉ l.map (·.1) → idx k < B k) → nest l F idx = nest l G idx := by
  induction l with
  | nil =>
    intro idx hidx
    exact h idx fun k hk => hidx k hk (by simp)
  | cons p l ih =>
    intro idx hidx
    rw [nest_cons, nest_cons, liftAx_apply, liftAx_apply]
    rw [hl p (by simp) (fun j => nest l F (Function.update idx p.1 j))
      (fun j => nest l G (Function.update idx p.1 j))]
    intro j hj
    refine ih (fun q hq => hl q (by simp [hq])) _ fun k hk hkl => ?_
    by_cases hkp : k = p.1
    · subst hkp; rw [Function.update_self]; exact hj
    · rw [Function.update_of_ne hkp]
      exact hidx k hk (by simp [hkp] at hkl ⊢; exact hkl)

theorem sum_flatMap_map {α : Type} {N : Type} [AddCommMonoid N] (l : List α) (f : α → List N) :
    (l.flatMap f).sum = (l.map fun a => (f a).sum).sum := by
  induction l with
  | nil => rfl
  | cons a l ih => simp [List.flatMap_cons, ih]

theorem nest_sum_odds (l : List (ℕ × (ℕ → (ℕ → M) →+ (ℕ → M)))) (F : (ℕ → ℕ) → M) :
    ((product [0, 1] l.length).map fun o : List ℕ =>
      nest (List.zipWith (fun p i => (p.1, p.2 i)) l o) F).sum =
      nest (l.map fun p => (p.1, p.2 0 + p.2 1)) F := by
  induction l with
  | nil => simp [product, nest]
  | cons p l ih =>
    have key : ∀ i : ℕ, ((product [0, 1] l.length).map fun o : List ℕ =>
        nest (List.zipWith (fun p i => (p.1, p.2 i)) (p :: l) (i :: o)) F).sum =
        liftAx p.1 (p.2 i) (nest (l.map fun p => (p.1, p.2 0 + p.2 1)) F) := by
      intro i
      rw [← ih, map_list_sum, List.map_map]
      rfl
    simp only [List.length_cons, product, List.flatMap_cons, List.flatMap_nil, List.append_nil,
      List.map_append, List.sum_append, List.map_map, Function.comp_def]
    rw [key 0, key 1]
    simp only [List.map_cons, nest_cons]
    rfl

theorem nest_apply_add (l : List (ℕ × ((ℕ → M) →+ (ℕ → M)))) (F G : (ℕ → ℕ) → M) :
    nest l (F + G) = nest l F + nest l G := map_add _ _ _

theorem words_succ_snoc (n : ℕ) :
    words (n + 1) = (words n).flatMap fun k => [k ++ ['a'], k ++ ['d']] := by
  induction n with
  | zero => rfl
  | succ n ih =>
    have e : words (n + 2) = (words (n + 1)).map ('a' :: ·) ++ (words (n + 1)).map ('d' :: ·) := rfl
    have e' : words (n + 1) = (words n).map ('a' :: ·) ++ (words n).map ('d' :: ·) := rfl
    rw [e]
    conv_lhs => rw [ih]
    rw [e']
    simp [List.flatMap_append, List.map_flatMap, List.flatMap_map]

end

end Pywt
