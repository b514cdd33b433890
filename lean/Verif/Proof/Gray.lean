import Verif.Spec.Packet
import Mathlib.Data.List.Chain
import Mathlib.Data.List.Nodup

/-!
# `get_graycode_order`, and words in lexicographic order
-/

namespace Pywt

open Spec

variable {α : Type}

theorem mem_graycode {x y : α} {n : ℕ} {w : List α} :
    w ∈ graycode x y n ↔ w.length = n + 1 ∧ ∀ c ∈ w, c = x ∨ c = y := by
  induction n generalizing w with
  | zero =>
    simp only [graycode, List.mem_cons, List.not_mem_nil, or_false, zero_add]
    constructor
    · rintro (rfl | rfl) <;> simp
    · rintro ⟨h1, h2⟩
      obtain ⟨a, rfl⟩ := List.length_eq_one_iff.1 h1
      rcases h2 a (by simp) with rfl | rfl <;> simp
  | succ n ih =>
    simp only [graycode, List.mem_append, List.mem_map, List.mem_reverse]
    constructor
    · rintro (⟨v, hv, rfl⟩ | ⟨v, hv, rfl⟩)
      · obtain ⟨h1, h2⟩ := ih.1 hv
        refine ⟨by simp [h1], fun c hc => ?_⟩
        rcases List.mem_cons.1 hc with rfl | hc
        · exact .inl rfl
        · exact h2 c hc
      · obtain ⟨h1, h2⟩ := ih.1 hv
        refine ⟨by simp [h1], fun c hc => ?_⟩
        rcases List.mem_cons.1 hc with rfl | hc
        · exact .inr rfl
        · exact h2 c hc
    · rintro ⟨h1, h2⟩
      cases w with
      | nil => simp at h1
      | cons a v =>
        have hv := ih.2 ⟨by simpa using h1, fun c hc => h2 c (by simp [hc])⟩
        rcases h2 a (by simp) with rfl | rfl
        · exact .inl ⟨v, hv, rfl⟩
        · exact .inr ⟨v, hv, rfl⟩

theorem graycode_length (x y : α) (n : ℕ) : (graycode x y n).length = 2 ^ (n + 1) := by
  induction n with
  | zero => rfl
  | succ n ih => simp only [graycode, List.length_append, List.length_map, List.length_reverse, ih]; ring

theorem graycode_nodup {x y : α} (h : x ≠ y) (n : ℕ) : (graycode x y n).Nodup := by
  induction n with
  | zero => simp [graycode, h]
  | succ n ih =>
    simp only [graycode]
    refine List.Nodup.append (ih.map fun a b hab => by injection hab)
      ((List.nodup_reverse.2 ih).map fun a b hab => by injection hab) ?_
    intro w h1 h2
    obtain ⟨u, -, rfl⟩ := List.mem_map.1 h1
    obtain ⟨v, -, hv⟩ := List.mem_map.1 h2
    injection hv with hv
    exact h hv.symm

theorem DifferInOne.symm {u v : List α} : DifferInOne u v → DifferInOne v u := by
  rintro ⟨p, a, b, q, h1, h2, h3⟩
  exact ⟨p, b, a, q, h2, h1, h3.symm⟩

theorem DifferInOne.cons {u v : List α} (c : α) : DifferInOne u v → DifferInOne (c :: u) (c :: v) := by
  rintro ⟨p, a, b, q, rfl, rfl, h3⟩
  exact ⟨c :: p, a, b, q, rfl, rfl, h3⟩

theorem graycode_chain {x y : α} (h : x ≠ y) (n : ℕ) : (graycode x y n).IsChain DifferInOne := by
  induction n with
  | zero =>
    simp only [graycode, List.isChain_cons_cons, List.isChain_singleton, and_true]
    exact ⟨[], x, y, [], rfl, rfl, h⟩
  | succ n ih =>
    simp only [graycode]
    rw [List.isChain_append]
    refine ⟨?_, ?_, ?_⟩
    · rw [List.isChain_map]
      exact ih.imp fun a b hab => DifferInOne.cons x hab
    · rw [List.isChain_map, List.isChain_reverse]
      exact ih.imp fun a b hab => DifferInOne.cons y (DifferInOne.symm hab)
    · intro u hu v hv
      simp only [List.head?_map, List.head?_reverse, List.getLast?_map] at hu hv
      cases hl : (graycode x y n).getLast? with
      | none => rw [hl] at hu; simp at hu
      | some l =>
        rw [hl] at hu hv
        simp only [Option.map_some, Option.mem_def, Option.some.injEq] at hu hv
        subst hu hv
        exact ⟨[], x, y, l, rfl, rfl, h⟩

theorem mem_wordsOf {L : List α} {n : ℕ} {w : List α} :
    w ∈ wordsOf L n ↔ w.length = n ∧ ∀ c ∈ w, c ∈ L := by
  induction n generalizing w with
  | zero =>
    simp only [wordsOf, List.mem_singleton, List.length_eq_zero_iff]
    constructor
    · rintro rfl; simp
    · exact fun h => h.1
  | succ n ih =>
    simp only [wordsOf, List.mem_flatMap, List.mem_map]
    constructor
    · rintro ⟨q, hq, v, hv, rfl⟩
      obtain ⟨h1, h2⟩ := ih.1 hv
      refine ⟨by simp [h1], fun c hc => ?_⟩
      rcases List.mem_cons.1 hc with rfl | hc
      · exact hq
      · exact h2 c hc
    · rintro ⟨h1, h2⟩
      cases w with
      | nil => simp at h1
      | cons a v =>
        exact ⟨a, h2 a (by simp), v, ih.2 ⟨by simpa using h1, fun c hc => h2 c (by simp [hc])⟩, rfl⟩

theorem wordsOf_length (L : List α) (n : ℕ) : (wordsOf L n).length = L.length ^ n := by
  induction n with
  | zero => rfl
  | succ n ih => simp [wordsOf, List.length_flatMap, ih, pow_succ, mul_comm]

/-- The words come in lexicographic order of the positions of their letters. -/
theorem wordsOf_sorted {r : α → α → Prop} {L : List α} (hL : L.Pairwise r) (n : ℕ) :
    (wordsOf L n).Pairwise (List.Lex r) := by
  induction n with
  | zero => simp [wordsOf]
  | succ n ih =>
    simp only [wordsOf]
    rw [List.pairwise_flatMap]
    refine ⟨fun q _ => ?_, ?_⟩
    · rw [List.pairwise_map]
      exact ih.imp fun h => List.Lex.cons h
    · refine hL.imp fun {a b} hab => ?_
      intro u hu v hv
      obtain ⟨u', -, rfl⟩ := List.mem_map.1 hu
      obtain ⟨v', -, rfl⟩ := List.mem_map.1 hv
      exact List.Lex.rel hab

theorem wordsOf_nodup {L : List α} (hL : L.Nodup) (n : ℕ) : (wordsOf L n).Nodup := by
  induction n with
  | zero => simp [wordsOf]
  | succ n ih =>
    simp only [wordsOf]
    rw [List.nodup_flatMap]
    refine ⟨fun q _ => ih.map fun a b hab => by injection hab, ?_⟩
    refine hL.imp fun {a b} hab => ?_
    intro w h1 h2
    obtain ⟨u, -, rfl⟩ := List.mem_map.1 h1
    obtain ⟨v, -, hv⟩ := List.mem_map.1 h2
    injection hv with hv
    exact hab hv.symm


/-! ### The frequency order in two dimensions -/

theorem expand_join (r c : List Char) (hl : r.length = c.length) (hr : ∀ a ∈ r, a = 'l' ∨ a = 'h')
    (hc : ∀ a ∈ c, a = 'l' ∨ a = 'h') : expand2dPath (List.zipWith joinLetter r c) = (r, c) := by
  induction r generalizing c with
  | nil =>
    cases c with
    | nil => rfl
    | cons _ _ => simp at hl
  | cons a r ih =>
    cases c with
    | nil => simp at hl
    | cons b c =>
      have := ih c (by simpa using hl) (fun x hx => hr x (by simp [hx])) fun x hx => hc x (by simp [hx])
      unfold expand2dPath at this ⊢
      injection this with h1 h2
      simp only [List.zipWith_cons_cons, List.map_cons, h1, h2]
      rcases hr a (by simp) with rfl | rfl <;> rcases hc b (by simp) with rfl | rfl <;> rfl

theorem join_expand (p : List Char) (hp : ∀ a ∈ p, a ∈ ['a', 'h', 'v', 'd']) :
    List.zipWith joinLetter (expand2dPath p).1 (expand2dPath p).2 = p := by
  induction p with
  | nil => rfl
  | cons a p ih =>
    have := ih fun x hx => hp x (by simp [hx])
    unfold expand2dPath at this ⊢
    simp only [List.map_cons, List.zipWith_cons_cons, this]
    have ha := hp a (by simp)
    simp only [List.mem_cons, List.not_mem_nil, or_false] at ha
    rcases ha with rfl | rfl | rfl | rfl <;> rfl

theorem joinLetter_mem (a b : Char) : joinLetter a b ∈ ['a', 'h', 'v', 'd'] := by
  unfold joinLetter
  split_ifs <;> simp

theorem find?_unique {l : List α} {f : α → Bool} {p : α} (hp : p ∈ l) (hf : f p = true)
    (hu : ∀ q ∈ l, f q = true → q = p) : l.find? f = some p := by
  cases h : l.find? f with
  | none =>
    rw [List.find?_eq_none] at h
    exact absurd hf (h p hp)
  | some q =>
    rw [hu q (List.mem_of_find?_eq_some h) (List.find?_some h)]

theorem freqGrid_words {n : ℕ} (hn : 1 ≤ n) :
    freqGrid (n : ℤ) (wordsOf ['a', 'h', 'v', 'd'] n) =
      (getGraycodeOrder (n : ℤ) 'l' 'h').map fun r =>
        (getGraycodeOrder (n : ℤ) 'l' 'h').map fun c => List.zipWith joinLetter r c := by
  obtain ⟨m, rfl⟩ : ∃ m, n = m + 1 := ⟨n - 1, by omega⟩
  have e : ((m + 1 : ℕ) - 1 : ℤ).toNat = m := by omega
  unfold freqGrid getGraycodeOrder
  simp only [e]
  have key : ∀ r ∈ graycode 'l' 'h' m, ∀ c ∈ graycode 'l' 'h' m,
      (wordsOf ['a', 'h', 'v', 'd'] (m + 1)).reverse.find? (fun p => decide (expand2dPath p = (r, c))) =
        some (List.zipWith joinLetter r c) := by
    intro r hr c hc
    obtain ⟨r1, r2⟩ := mem_graycode.1 hr
    obtain ⟨c1, c2⟩ := mem_graycode.1 hc
    apply find?_unique
    · rw [List.mem_reverse, mem_wordsOf]
      refine ⟨by simp [r1, c1], fun a ha => ?_⟩
      obtain ⟨i, hi, rfl⟩ := List.mem_iff_getElem.1 ha
      rw [List.getElem_zipWith]
      exact joinLetter_mem _ _
    · rw [decide_eq_true_eq]
      exact expand_join r c (by omega) r2 c2
    · intro q hq hqe
      rw [decide_eq_true_eq] at hqe
      rw [List.mem_reverse, mem_wordsOf] at hq
      rw [← join_expand q hq.2, hqe]
  have hfilter : (graycode 'l' 'h' m).filter (fun r =>
      (wordsOf ['a', 'h', 'v', 'd'] (m + 1)).any fun p => decide ((expand2dPath p).1 = r)) =
      graycode 'l' 'h' m := by
    rw [List.filter_eq_self]
    intro r hr
    obtain ⟨r1, r2⟩ := mem_graycode.1 hr
    rw [List.any_eq_true]
    have h1 := key r hr r hr
    refine ⟨_, List.mem_reverse.1 (List.mem_of_find?_eq_some h1), ?_⟩
    rw [decide_eq_true_eq, expand_join r r rfl r2 r2]
  rw [hfilter]
  apply List.map_congr_left
  intro r hr
  have : ∀ l : List (List Char), (∀ c ∈ l, c ∈ graycode 'l' 'h' m) → l.filterMap (fun c =>
      (wordsOf ['a', 'h', 'v', 'd'] (m + 1)).reverse.find? (fun p => decide (expand2dPath p = (r, c)))) =
      l.map fun c => List.zipWith joinLetter r c := by
    intro l hl
    induction l with
    | nil => rfl
    | cons c l ih =>
      rw [List.filterMap_cons, key r hr c (hl c (by simp)), List.map_cons,
        ih fun c hc => hl c (by simp [hc])]
  exact this _ fun c hc => hc

end Pywt
