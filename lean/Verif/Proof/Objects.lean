import Verif.Model.Objects
import Verif.Spec.Objects
import Verif.Proof.Dwt
import Verif.Proof.Axis
import Verif.Model.MultilevelN

/-! Facts about mode objects and `Wavelet` objects. -/

namespace Pywt

open Spec

set_option linter.unusedSectionVars false

variable {R : Type} [Ring R]

theorem copyObject_ok (src dest : List R) (i : ℕ) (h : i + src.length ≤ dest.length) :
    copyObject src i dest = .ok (dest.take i ++ src ++ dest.drop (i + src.length)) := by
  induction src generalizing i dest with
  | nil => simp [copyObject]
  | cons x src ih =>
    have hi : i < dest.length := by simp at h; omega
    unfold copyObject wr
    rw [if_pos hi]
    change copyObject src (i + 1) (dest.set i x) = _
    rw [ih _ _ (by simp at h ⊢; omega)]
    congr 1
    have e1 : (dest.set i x).take (i + 1) = dest.take i ++ [x] := by
      rw [List.take_set, List.take_add_one]
      rw [List.set_append, List.length_take]
      rw [if_neg (by omega)]
      simp [List.getElem?_eq_getElem hi, show i - min i dest.length = 0 by omega]
    have e2 : (dest.set i x).drop (i + 1 + src.length) = dest.drop (i + (src.length + 1)) := by
      rw [List.drop_set_of_lt (by omega)]
      congr 1
      omega
    rw [e1, e2]
    simp

theorem copyObject_blank (f : List R) :
    copyObject f 0 (List.replicate (blankLength f.length) 0) = .ok (padEven f) := by
  have hb : f.length ≤ blankLength f.length := by unfold blankLength; split_ifs <;> omega
  rw [copyObject_ok _ _ _ (by simpa using hb)]
  congr 1
  unfold padEven blankLength
  by_cases h : f.length % 2 = 1
  · rw [if_pos h, if_pos ⟨by omega, h⟩]
    simp
  · rw [if_neg h, if_neg (by tauto)]
    simp

theorem padEven_length {f : List R} (h : 0 < f.length) :
    2 ≤ (padEven f).length ∧ (padEven f).length % 2 = 0 := by
  unfold padEven
  split_ifs with h1
  · rw [List.length_append]; simp; omega
  · omega

theorem padEven_even {f : List R} (h : f.length % 2 = 0) : padEven f = f := by
  unfold padEven
  rw [if_neg (by omega)]

theorem waveletOfBank_four (a b c d : Arr R)
    (h1 : a.ndim = 1 ∧ b.ndim = 1 ∧ c.ndim = 1 ∧ d.ndim = 1)
    (h2 : 0 < a.data.length ∧ b.data.length = a.data.length ∧ c.data.length = a.data.length ∧
      d.data.length = a.data.length) :
    waveletOfBank [a, b, c, d] =
      .ok ⟨padEven a.data, padEven b.data, padEven c.data, padEven d.data⟩ := by
  have e1 := copyObject_blank a.data
  have e2 := copyObject_blank b.data
  have e3 := copyObject_blank c.data
  have e4 := copyObject_blank d.data
  rw [h2.2.1] at e2
  rw [h2.2.2.1] at e3
  rw [h2.2.2.2] at e4
  unfold waveletOfBank
  simp only [e1, e2, e3, e4]
  rw [if_neg (by omega), if_neg (by omega)]
  rfl

theorem waveletOfBank_bad (a b c d : Arr R)
    (h : ¬ ((a.ndim = 1 ∧ b.ndim = 1 ∧ c.ndim = 1 ∧ d.ndim = 1) ∧
      (0 < a.data.length ∧ b.data.length = a.data.length ∧ c.data.length = a.data.length ∧
      d.data.length = a.data.length))) : waveletOfBank [a, b, c, d] = .error .value := by
  unfold waveletOfBank
  by_cases h1 : a.ndim = 1 ∧ b.ndim = 1 ∧ c.ndim = 1 ∧ d.ndim = 1
  · simp only
    rw [if_neg (by omega), if_pos (by omega)]
    rfl
  · simp only
    rw [if_pos (by omega)]
    rfl

theorem waveletOfBank_count (l : List (Arr R)) (h : l.length ≠ 4) :
    waveletOfBank l = .error .value := by
  match l with
  | [] => rfl
  | [_] => rfl
  | [_, _] => rfl
  | [_, _, _] => rfl
  | [_, _, _, _] => simp at h
  | _ :: _ :: _ :: _ :: _ :: _ => rfl

/-! ### Sequences of arguments -/

theorem mapM_py_ok {α β : Type} {l : List α} {f : α → Py β} {r : List β}
    (h : List.Forall₂ (fun a b => f a = .ok b) l r) : l.mapM f = .ok r := by
  induction h with
  | nil => rfl
  | cons h1 _ ih => rw [List.mapM_cons, h1, ih]; rfl

theorem mapM_py_ok_iff {α β : Type} {l : List α} {f : α → Py β} {r : List β} :
    l.mapM f = .ok r ↔ List.Forall₂ (fun a b => f a = .ok b) l r := by
  refine ⟨fun h => ?_, mapM_py_ok⟩
  induction l generalizing r with
  | nil =>
    rw [List.mapM_nil] at h
    injection h with h
    subst h
    exact .nil
  | cons a l ih =>
    rw [List.mapM_cons] at h
    cases hf : f a with
    | error e => rw [hf] at h; cases h
    | ok b =>
      rw [hf] at h
      simp only [Py_bind_ok] at h
      cases hm : l.mapM f with
      | error e => rw [hm] at h; cases h
      | ok r' =>
        rw [hm] at h
        injection h with h
        subst h
        exact .cons hf (ih hm)

theorem expand_many {α : Type} {l : List α} (n : ℕ) (h : l.length ≠ 1) :
    (PerAxis.many l).expand n = if l.length ≠ n then .error .value else .ok l := by
  match l with
  | [] => rfl
  | [a] => simp at h
  | a :: b :: l => rfl

theorem expand_usedFor {α : Type} (l : List α) (n : ℕ) (r : List α) :
    (PerAxis.many l).expand n = .ok r ↔ UsedFor l n r := by
  by_cases h1 : l.length = 1
  · match l with
    | [a] =>
      constructor
      · intro h; injection h with h; subst h; exact .same a n
      · intro h
        cases h with
        | same => rfl
        | each _ h => simp at h
  · rw [expand_many n h1]
    by_cases h : l.length = n
    · subst h
      rw [if_neg (by simp)]
      constructor
      · intro h; injection h with h; subst h; exact .each _ h1
      · intro h'
        cases h' with
        | same => simp at h1
        | each => rfl
    · rw [if_pos h]
      constructor
      · intro h; cases h
      · intro h'
        cases h' with
        | same => simp at h1
        | each => exact absurd rfl h

theorem expand_wrong {α : Type} {l : List α} {n : ℕ} (h1 : l.length ≠ 1) (hn : l.length ≠ n) :
    (PerAxis.many l).expand n = .error .value := by
  rw [expand_many n h1, if_pos hn]

theorem modesPerAxis_many (dunder : List String) {l : List ModeArg} (n : ℕ) (h : l.length ≠ 1) :
    modesPerAxis dunder (.many l) n =
      if l.length ≠ n then .error .value else l.mapM (modesFromObject dunder) := by
  match l with
  | [] => rfl
  | [a] => simp at h
  | a :: b :: l => rfl

theorem waveletsPerAxis_many (named : String → Py (NamedWavelet R)) {l : List (WaveletArg R)} (n : ℕ)
    (h : l.length ≠ 1) :
    waveletsPerAxis named (.many l) n =
      if l.length ≠ n then .error .value else l.mapM (asWavelet named) := by
  match l with
  | [] => rfl
  | [a] => simp at h
  | a :: b :: l => rfl

theorem prepAxes_count {shape : List ℕ} {axes : Option (List Int)} {r : List Int × List ℕ}
    (h : prepAxes shape axes = .ok r) : r.1.length = axesCount shape.length axes := by
  unfold prepAxes at h
  simp only at h
  split_ifs at h <;> try cases h
  cases hs : axesShapes shape (axes.getD (rangeAxes shape.length)) with
  | error e => rw [hs] at h; cases h
  | ok s =>
    rw [hs] at h
    injection h with h
    subst h
    unfold axesCount rangeAxes
    cases axes <;> simp

/-! ### Mode numbers -/

theorem code_range (m : Mode) : 0 ≤ m.code ∧ m.code < 9 := by cases m <;> decide

theorem modesAttribute_num {dunder : List String} {s : String} {z : ℤ}
    (h : modesAttribute dunder s = some (.num z)) : ∃ m : Mode, m.code = z := by
  unfold modesAttribute at h
  cases hl : modeAttrs.lookup s with
  | some m =>
    rw [hl] at h
    simp only [Option.some.injEq, ModeObj.num.injEq] at h
    exact ⟨m, h⟩
  | none =>
    rw [hl] at h
    simp only at h
    split_ifs at h
    simp at h

theorem modesFromObject_num {dunder : List String} {a : ModeArg} {z : ℤ}
    (h : modesFromObject dunder a = .ok (.num z)) : 0 ≤ z ∧ z < 9 := by
  cases a with
  | int y =>
    simp only [modesFromObject] at h
    split_ifs at h with h1
    simp only [Except.ok.injEq, ModeObj.num.injEq] at h
    subst h
    unfold modeInvalid modeMax at h1
    omega
  | str s =>
    simp only [modesFromObject] at h
    have key : ∃ m : Mode, m.code = z := by
      cases hg : modesGetattr dunder s with
      | none => rw [hg] at h; cases h
      | some o =>
        rw [hg] at h
        simp only [Except.ok.injEq] at h
        subst h
        unfold modesGetattr at hg
        cases ha : modesAttribute dunder s with
        | some o =>
          rw [ha] at hg
          simp only [Option.some.injEq] at hg
          subst hg
          exact modesAttribute_num ha
        | none =>
          rw [ha] at hg
          simp only at hg
          split_ifs at hg
          exact modesAttribute_num hg
    obtain ⟨m, rfl⟩ := key
    exact code_range m
  | other => cases h

theorem modesFromObject_int (dunder : List String) {z : ℤ} (h : 0 ≤ z ∧ z < 9) :
    modesFromObject dunder (.int z) = .ok (.num z) := by
  have h1 : ¬ (z ≤ modeInvalid ∨ z ≥ modeMax) := by unfold modeInvalid modeMax; omega
  simp only [modesFromObject, if_neg h1]

end Pywt
