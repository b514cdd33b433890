import Verif.Model.ContWave
import Verif.Proof.Dwt
import Verif.Spec.ContWave
import Mathlib.Data.List.GetD

/-!
# Names of continuous wavelets and their sampling grids
-/

namespace Pywt

open Spec

set_option linter.unusedSectionVars false

/-! ### Reading the parameters -/

theorem digitsVal_eq (l : List Char) : digitsVal l = numeral l := by
  unfold digitsVal numeral
  induction l using List.reverseRecOn with
  | nil => rfl
  | append_singleton l c ih =>
    rw [List.foldl_append, ih]
    simp only [List.foldl_cons, List.foldl_nil, List.reverse_append, List.reverse_cons, List.reverse_nil, List.nil_append,
      List.singleton_append, List.map_cons, Nat.ofDigits_cons]
    rw [show '0'.toNat = 48 from rfl]
    ring

theorem dot_not_digit : ¬ ('.').isDigit = true := by decide

theorem takeWhile_stop {α : Type} {p : α → Bool} {l r : List α} (hl : ∀ a ∈ l, p a = true)
    (hr : ∀ a, r.head? = some a → p a = false) : (l ++ r).takeWhile p = l ∧ (l ++ r).dropWhile p = r := by
  have h : r.takeWhile p = [] ∧ r.dropWhile p = r := by
    cases r with
    | nil => simp
    | cons a r => simp [hr a rfl]
  rw [List.takeWhile_append_of_pos hl, List.dropWhile_append_of_pos hl, h.1, h.2, List.append_nil]
  exact ⟨rfl, rfl⟩

/-- The text after a number neither continues it nor is a dot. -/
def Stops (rest : List Char) : Prop := ∀ c, rest.head? = some c → c.isDigit = false ∧ c ≠ '.'

theorem Spec.IsDecimal.ne_nil {s : List Char} {v : ℚ} (h : IsDecimal s v) : s ≠ [] := by
  cases h with
  | int hne _ => exact hne
  | frac hne _ _ => simp

theorem Spec.IsDecimal.head {s : List Char} {v : ℚ} (h : IsDecimal s v) : ∃ c t, s = c :: t ∧ c.isDigit = true := by
  cases h with
  | int hne hd =>
    cases s with
    | nil => exact absurd rfl hne
    | cons c t => exact ⟨c, t, rfl, hd c (by simp)⟩
  | @frac d e hne hd _ =>
    cases d with
    | nil => exact absurd rfl hne
    | cons c t => exact ⟨c, t ++ '.' :: e, rfl, hd c (by simp)⟩

theorem pyFloat_decimal {s : List Char} {v : ℚ} (h : IsDecimal s v) : pyFloat s = .ok v := by
  cases h with
  | int hne hd =>
    have := takeWhile_stop (p := Char.isDigit) (l := s) (r := []) hd (by simp)
    rw [List.append_nil] at this
    unfold pyFloat
    simp only [this.1, this.2, digitsVal_eq]
  | @frac d e hne hd he =>
    have := takeWhile_stop (p := Char.isDigit) (l := d) (r := '.' :: e) hd (by
      intro a ha
      simp only [List.head?_cons, Option.some.injEq] at ha
      subst ha
      decide)
    unfold pyFloat
    simp only [this.1, this.2, digitsVal_eq]
    rw [if_pos]
    simpa using he

theorem findFreqs_step {fuel : ℕ} {p s rest : List Char} {v : ℚ} (hp : p ≠ []) (hpd : ∀ c ∈ p, c.isDigit = false)
    (hs : IsDecimal s v) (hr : Stops rest) :
    findFreqs (fuel + 1) (p ++ s ++ rest) = s :: findFreqs fuel rest := by
  cases p with
  | nil => exact absurd rfl hp
  | cons c p =>
    have hc : c.isDigit = false := hpd c (by simp)
    obtain ⟨a, t, hst, ha⟩ := hs.head
    have hskip : (p ++ s ++ rest).dropWhile (fun c => decide ¬ c.isDigit = true) = s ++ rest := by
      rw [List.append_assoc]
      refine (takeWhile_stop ?_ ?_).2
      · intro c' h'
        simp [hpd c' (by simp [h'])]
      · intro c' h'
        rw [hst] at h'
        simp only [List.cons_append, List.head?_cons, Option.some.injEq] at h'
        subst h'
        simp [ha]
    have hrd : ∀ a, rest.head? = some a → a.isDigit = false := fun a h => (hr a h).1
    have hdot : ∀ a, rest.head? = some a → (decide (a = '.')) = false := fun a h => by simp [(hr a h).2]
    have key : ∀ d dots e, s = d ++ dots ++ e → (s ++ rest).takeWhile Char.isDigit = d →
        (s ++ rest).dropWhile Char.isDigit = dots ++ e ++ rest →
        (dots ++ e ++ rest).takeWhile (fun c => decide (c = '.')) = dots →
        (dots ++ e ++ rest).dropWhile (fun c => decide (c = '.')) = e ++ rest →
        (e ++ rest).takeWhile Char.isDigit = e → (e ++ rest).dropWhile Char.isDigit = rest →
        findFreqs (fuel + 1) (c :: p ++ s ++ rest) = s :: findFreqs fuel rest := by
      intro d dots e h0 h1 h2 h3 h4 h5 h6
      simp only [List.cons_append, findFreqs, hc, Bool.false_eq_true, if_false]
      rw [hskip]
      have : ∃ x y, s ++ rest = x :: y := ⟨a, t ++ rest, by rw [hst]; rfl⟩
      obtain ⟨x, y, hxy⟩ := this
      split
      · rename_i heq
        rw [hxy] at heq
        exact absurd heq (by simp)
      · rw [h1, h2, h3, h4, h5, h6, ← h0]
    cases hs with
    | int hne hd =>
      have h1 := takeWhile_stop (p := Char.isDigit) hd hrd
      have h3 := takeWhile_stop (p := fun c => decide (c = '.')) (l := []) (r := rest) (by simp) hdot
      have h5 := takeWhile_stop (p := Char.isDigit) (l := []) (r := rest) (by simp) hrd
      exact key s [] [] (by simp) h1.1 h1.2 h3.1 h3.2 h5.1 h5.2
    | @frac d e hne hd he =>
      have h1 := takeWhile_stop (p := Char.isDigit) (l := d) (r := ['.'] ++ e ++ rest) hd (by
        intro a ha
        simp only [List.cons_append, List.head?_cons, Option.some.injEq] at ha
        subst ha
        decide)
      have h3 := takeWhile_stop (p := fun c => decide (c = '.')) (l := ['.']) (r := e ++ rest) (by simp) (by
        intro a' h'
        cases e with
        | nil => exact hdot a' h'
        | cons b e =>
          simp only [List.cons_append, List.head?_cons, Option.some.injEq] at h'
          subst h'
          have := he b (by simp)
          simp only [decide_eq_false_iff_not]
          rintro rfl
          exact absurd this (by decide))
      have h5 := takeWhile_stop (p := Char.isDigit) he hrd
      refine key d ['.'] e (by simp) ?_ ?_ ?_ ?_ h5.1 h5.2
      · simpa using h1.1
      · simpa using h1.2
      · simpa using h3.1
      · simpa using h3.2

theorem findFreqs_none {fuel : ℕ} {p : List Char} (hpd : ∀ c ∈ p, c.isDigit = false) : findFreqs fuel p = [] := by
  cases fuel with
  | zero => rfl
  | succ fuel =>
    cases p with
    | nil => rfl
    | cons c p =>
      have hc : c.isDigit = false := hpd c (by simp)
      simp only [findFreqs, hc, Bool.false_eq_true, if_false]
      have : p.dropWhile (fun c => decide ¬ c.isDigit = true) = [] := by
        have := takeWhile_stop (p := fun c : Char => decide ¬ c.isDigit = true) (l := p) (r := [])
          (fun x hx => by simp [hpd x (by simp [hx])]) (by simp)
        rw [List.append_nil] at this
        exact this.2
      rw [this]

/-! ### Grids -/

theorem linspace_grid (lo hi : ℚ) (N : ℕ) : Grid lo hi N ((linspace lo hi N).map fun q : ℚ => (q : ℝ)) := by
  unfold Grid linspace
  by_cases h1 : N = 1
  · subst h1
    simp
  · rw [if_neg h1, List.map_map]
    have hg : ∀ i, i < N → ((List.range N).map ((fun q : ℚ => (q : ℝ)) ∘
        fun i : ℕ => lo + i * ((hi - lo) / ((N - 1 : ℕ) : ℚ)))).getD i 0 =
        ((lo + i * ((hi - lo) / ((N - 1 : ℕ) : ℚ)) : ℚ) : ℝ) := by
      intro i hi'
      rw [List.getD_eq_getElem _ _ (by simpa using hi')]
      simp
    refine ⟨by simp, ?_, ?_, ?_⟩
    · intro h0
      rw [hg 0 h0]
      simp
    · intro h
      rw [hg (N - 1) (by omega)]
      have : ((N - 1 : ℕ) : ℚ) ≠ 0 := by
        have : N - 1 ≠ 0 := by omega
        exact_mod_cast this
      rw [mul_div_cancel₀ _ this]
      simp
    · intro i hi'
      rw [hg (i + 1) hi', hg i (by omega)]
      push_cast
      ring

theorem linspace_length (lo hi : ℚ) (N : ℕ) : (linspace lo hi N).length = N := by
  unfold linspace
  split_ifs with h <;> simp [h]

theorem evalInto_self {V : Type} [Zero V] (f : ℝ → V) (data : List ℝ) : evalInto f data data.length = .ok (data.map f) := by
  simp [evalInto]

/-! ### Creating objects -/

theorem baseName_prefix {base r : List Char} (hb : base = "cmor".toList ∨ base = "shan".toList ∨ base = "fbsp".toList) :
    baseName (base ++ r) = base ∧ (r ≠ [] → base ≠ base ++ r) := by
  have hl : base.length = 4 := by rcases hb with rfl | rfl | rfl <;> rfl
  have ht : (base ++ r).take 4 = base := by rw [← hl, List.take_left]
  refine ⟨?_, fun hr h => hr ?_⟩
  · unfold baseName
    rw [if_pos, ht]
    rw [ht]
    refine ⟨by simp [hl], ?_⟩
    rcases hb with rfl | rfl | rfl <;> simp
  · have := congrArg List.length h
    simp only [List.length_append] at this
    exact List.length_eq_zero_iff.mp (by omega)

/-- The objects of the three families before their parameters are read. -/
def blankParam (base : List Char) : ContWavelet :=
  if base = "cmor".toList then
    ⟨"", 0, .cmor, .asymmetric, "Complex Morlet wavelets", "cmor", false, false, true, -8, 8, 1 / 2, 1, 0⟩
  else if base = "shan".toList then
    ⟨"", 0, .shan, .asymmetric, "Shannon wavelets", "shan", false, false, true, -20, 20, 1, 1 / 2, 0⟩
  else ⟨"", 0, .fbsp, .asymmetric, "Frequency B-Spline wavelets", "fbsp", false, false, true, -20, 20, 1 / 2, 1, 2⟩

theorem param_lookup {base : List Char} (hb : base = "cmor".toList ∨ base = "shan".toList ∨ base = "fbsp".toList) :
    ∃ f, wnameLookup (String.ofList base) = .ok (f, 0) ∧ continuousWavelet f 0 = some (blankParam base) := by
  rcases hb with rfl | rfl | rfl
  · exact ⟨.cmor, by decide +kernel, by decide +kernel⟩
  · exact ⟨.shan, by decide +kernel, by decide +kernel⟩
  · exact ⟨.fbsp, by decide +kernel, by decide +kernel⟩

theorem named_two {name : String} {base r : List Char} (hb : base = "cmor".toList ∨ base = "shan".toList)
    (hn : lowerName name = base ++ r) (hr : r ≠ []) :
    contWaveletNamed name = match findFreqs ((base ++ r).length + 1) (base ++ r) with
      | [b, c] => do
        let b ← pyFloat b
        let c ← pyFloat c
        pure { blankParam base with name := String.ofList (base ++ r), bandwidth := b, center := c }
      | _ => throw .value := by
  have hb' : base = "cmor".toList ∨ base = "shan".toList ∨ base = "fbsp".toList := by
    rcases hb with h | h
    · exact Or.inl h
    · exact Or.inr (Or.inl h)
  obtain ⟨f, h1, h2⟩ := param_lookup hb'
  have h3 := baseName_prefix (r := r) hb'
  unfold contWaveletNamed
  unfold lowerName at hn
  simp only [hn, h3.1, h1, h2, Py_bind_ok, if_neg (h3.2 hr), if_pos (Or.comm.mp hb)]
  rfl

theorem named_three {name : String} {r : List Char} (hn : lowerName name = "fbsp".toList ++ r) (hr : r ≠ []) :
    contWaveletNamed name = match findFreqs (("fbsp".toList ++ r).length + 1) ("fbsp".toList ++ r) with
      | [m, b, c] => do
        let m ← pyFloat m
        let b ← pyFloat b
        let c ← pyFloat c
        if m < 1 ∨ m.den ≠ 1 then throw .value
        if 2 ^ 32 ≤ m then throw .overflow
        pure { blankParam "fbsp".toList with
          name := String.ofList ("fbsp".toList ++ r), bandwidth := b, center := c, fbspOrder := m.num.toNat }
      | _ => throw .value := by
  have hb' : "fbsp".toList = "cmor".toList ∨ "fbsp".toList = "shan".toList ∨ "fbsp".toList = "fbsp".toList :=
    Or.inr (Or.inr rfl)
  obtain ⟨f, h1, h2⟩ := param_lookup hb'
  have h3 := baseName_prefix (r := r) hb'
  have h4 : ¬ ("fbsp".toList = "shan".toList ∨ "fbsp".toList = "cmor".toList) := by decide
  unfold contWaveletNamed
  unfold lowerName at hn
  simp only [hn, h3.1, h1, h2, Py_bind_ok, if_neg (h3.2 hr), if_neg h4, if_true]
  rfl

theorem named_bare {name : String} {base : List Char}
    (hb : base = "cmor".toList ∨ base = "shan".toList ∨ base = "fbsp".toList) (hn : lowerName name = base) :
    contWaveletNamed name = .ok { blankParam base with name := String.ofList base } := by
  obtain ⟨f, h1, h2⟩ := param_lookup hb
  have h3 := (baseName_prefix (r := []) hb).1
  rw [List.append_nil] at h3
  unfold contWaveletNamed
  unfold lowerName at hn
  simp only [hn, h3, h1, h2, Py_bind_ok, if_true]
  rfl

theorem base_nondigit {base : List Char} (hb : base = "cmor".toList ∨ base = "shan".toList ∨ base = "fbsp".toList) :
    base ≠ [] ∧ ∀ c ∈ base, c.isDigit = false := by
  rcases hb with rfl | rfl | rfl <;> decide

theorem stops_append {j r : List Char} (hj : j ≠ []) (hjd : ∀ c ∈ j, c.isDigit = false) (hd : j.head? ≠ some '.') :
    Stops (j ++ r) := by
  cases j with
  | nil => exact absurd rfl hj
  | cons c j =>
    intro c' h
    simp only [List.cons_append, List.head?_cons, Option.some.injEq] at h
    subst h
    exact ⟨hjd _ (by simp), fun e => hd (by simp [e])⟩

theorem stops_last {j : List Char} (hjd : ∀ c ∈ j, c.isDigit = false) (hd : j.head? ≠ some '.') : Stops j := by
  intro c h
  refine ⟨hjd c (List.mem_of_mem_head? h), fun e => hd (by rw [h, e])⟩

/-- Names with two numbers. -/
theorem named_two_ok {name : String} {base j1 bs j2 cs j3 : List Char} {B C : ℚ}
    (hb : base = "cmor".toList ∨ base = "shan".toList)
    (hn : lowerName name = base ++ j1 ++ bs ++ j2 ++ cs ++ j3) (h1 : ∀ c ∈ j1, c.isDigit = false)
    (hB : IsDecimal bs B) (h2n : j2 ≠ []) (h2 : ∀ c ∈ j2, c.isDigit = false) (h2d : j2.head? ≠ some '.')
    (hC : IsDecimal cs C) (h3 : ∀ c ∈ j3, c.isDigit = false) (h3d : j3.head? ≠ some '.') :
    contWaveletNamed name =
      .ok { blankParam base with name := String.ofList (lowerName name), bandwidth := B, center := C } := by
  have hb' : base = "cmor".toList ∨ base = "shan".toList ∨ base = "fbsp".toList := by
    rcases hb with h | h
    · exact Or.inl h
    · exact Or.inr (Or.inl h)
  obtain ⟨hbn, hbd⟩ := base_nondigit hb'
  have e : base ++ j1 ++ bs ++ j2 ++ cs ++ j3 = base ++ (j1 ++ bs ++ j2 ++ cs ++ j3) := by simp
  have hr : j1 ++ bs ++ j2 ++ cs ++ j3 ≠ [] := by
    have := hC.ne_nil
    simp [this]
  rw [named_two hb (hn.trans e) hr]
  have hl : 1 < (base ++ (j1 ++ bs ++ j2 ++ cs ++ j3)).length := by
    have : base.length = 4 := by rcases hb with rfl | rfl <;> rfl
    simp [this]
    omega
  obtain ⟨k, hk⟩ : ∃ k, (base ++ (j1 ++ bs ++ j2 ++ cs ++ j3)).length + 1 = k + 1 + 1 + 1 :=
    ⟨(base ++ (j1 ++ bs ++ j2 ++ cs ++ j3)).length - 2, by omega⟩
  rw [hk]
  have e1 : base ++ (j1 ++ bs ++ j2 ++ cs ++ j3) = (base ++ j1) ++ bs ++ (j2 ++ cs ++ j3) := by simp
  have f1 : findFreqs (k + 1 + 1 + 1) (base ++ (j1 ++ bs ++ j2 ++ cs ++ j3)) = [bs, cs] := by
    rw [e1, findFreqs_step (by simp [hbn]) (by
      intro c hc
      rcases List.mem_append.mp hc with h | h
      · exact hbd c h
      · exact h1 c h) hB (by rw [List.append_assoc]; exact stops_append h2n h2 h2d),
      findFreqs_step h2n h2 hC (stops_last h3 h3d), findFreqs_none h3]
  rw [f1]
  simp only [pyFloat_decimal hB, pyFloat_decimal hC, Py_bind_ok, hn]
  rw [e]
  rfl

/-- Names with three numbers. -/
theorem named_three_eq {name : String} {j1 ms j2 bs j3 cs j4 : List Char} {M B C : ℚ}
    (hn : lowerName name = "fbsp".toList ++ j1 ++ ms ++ j2 ++ bs ++ j3 ++ cs ++ j4)
    (h1 : ∀ c ∈ j1, c.isDigit = false) (hM : IsDecimal ms M) (h2n : j2 ≠ []) (h2 : ∀ c ∈ j2, c.isDigit = false)
    (h2d : j2.head? ≠ some '.') (hB : IsDecimal bs B) (h3n : j3 ≠ []) (h3 : ∀ c ∈ j3, c.isDigit = false)
    (h3d : j3.head? ≠ some '.') (hC : IsDecimal cs C) (h4 : ∀ c ∈ j4, c.isDigit = false) (h4d : j4.head? ≠ some '.') :
    contWaveletNamed name =
      if M < 1 ∨ M.den ≠ 1 then .error .value
      else if 2 ^ 32 ≤ M then .error .overflow
      else .ok { blankParam "fbsp".toList with
        name := String.ofList (lowerName name), bandwidth := B, center := C, fbspOrder := M.num.toNat } := by
  obtain ⟨hbn, hbd⟩ := base_nondigit (base := "fbsp".toList) (Or.inr (Or.inr rfl))
  have e : "fbsp".toList ++ j1 ++ ms ++ j2 ++ bs ++ j3 ++ cs ++ j4 =
    "fbsp".toList ++ (j1 ++ ms ++ j2 ++ bs ++ j3 ++ cs ++ j4) := by simp
  have hr : j1 ++ ms ++ j2 ++ bs ++ j3 ++ cs ++ j4 ≠ [] := by
    have := hC.ne_nil
    simp [this]
  rw [named_three (hn.trans e) hr]
  obtain ⟨k, hk⟩ : ∃ k, ("fbsp".toList ++ (j1 ++ ms ++ j2 ++ bs ++ j3 ++ cs ++ j4)).length + 1 = k + 1 + 1 + 1 + 1 := by
    have : ("fbsp".toList).length = 4 := rfl
    exact ⟨("fbsp".toList ++ (j1 ++ ms ++ j2 ++ bs ++ j3 ++ cs ++ j4)).length - 3, by rw [List.length_append]; omega⟩
  rw [hk]
  have e1 : "fbsp".toList ++ (j1 ++ ms ++ j2 ++ bs ++ j3 ++ cs ++ j4) =
    ("fbsp".toList ++ j1) ++ ms ++ (j2 ++ bs ++ (j3 ++ cs ++ j4)) := by simp
  have f1 : findFreqs (k + 1 + 1 + 1 + 1) ("fbsp".toList ++ (j1 ++ ms ++ j2 ++ bs ++ j3 ++ cs ++ j4)) = [ms, bs, cs] := by
    rw [e1, findFreqs_step (by rw [Ne, List.append_eq_nil_iff]; exact fun h => hbn h.1) (by
      intro c hc
      rcases List.mem_append.mp hc with h | h
      · exact hbd c h
      · exact h1 c h) hM (by rw [List.append_assoc]; exact stops_append h2n h2 h2d),
      findFreqs_step h2n h2 hB (by rw [List.append_assoc]; exact stops_append h3n h3 h3d),
      findFreqs_step h3n h3 hC (stops_last h4 h4d), findFreqs_none h4]
  rw [f1]
  simp only [pyFloat_decimal hM, pyFloat_decimal hB, pyFloat_decimal hC, Py_bind_ok]
  by_cases c1 : M < 1 ∨ M.den ≠ 1
  · rw [if_pos c1, if_pos c1]
    rfl
  · rw [if_neg c1, if_neg c1]
    by_cases c2 : 2 ^ 32 ≤ M
    · rw [if_pos c2, if_pos c2]
      rfl
    · rw [if_neg c2, if_neg c2, hn, e]
      rfl

/-! ### Names without parameters -/

theorem named_congr {a b : String} (h : lowerName a = lowerName b) : contWaveletNamed a = contWaveletNamed b := by
  unfold lowerName at h
  unfold contWaveletNamed
  simp only [h]

theorem toLower_idem (c : Char) : c.toLower.toLower = c.toLower := by
  by_cases h : c.val ≥ 'A'.val ∧ c.val ≤ 'Z'.val
  · have e : c.toLower.val = c.val + ('a'.val - 'A'.val) := by
      unfold Char.toLower
      rw [dif_pos h]
    have h2 : ¬ (c.toLower.val ≥ 'A'.val ∧ c.toLower.val ≤ 'Z'.val) := by
      rw [e]
      obtain ⟨a, b⟩ := h
      simp only [ge_iff_le, UInt32.le_iff_toNat_le] at a b ⊢
      have h1 : 'A'.val.toNat = 65 := rfl
      have h2 : 'Z'.val.toNat = 90 := rfl
      have h3 : ('a'.val - 'A'.val).toNat = 32 := rfl
      rw [UInt32.toNat_add, h3]
      omega
    generalize c.toLower = d at *
    unfold Char.toLower
    rw [dif_neg h2]
  · have e : c.toLower = c := by
      unfold Char.toLower
      rw [dif_neg h]
    rw [e, e]

theorem lowerName_lower (name : String) : lowerName (String.ofList (lowerName name)) = lowerName name := by
  unfold lowerName
  rw [String.toList_ofList, List.map_map]
  refine List.map_congr_left fun c _ => toLower_idem c

theorem named_name {name : String} {w : ContWavelet} (h : contWaveletNamed name = .ok w) :
    w.name = String.ofList (lowerName name) := by
  unfold contWaveletNamed at h
  cases h1 : wnameLookup (String.ofList (baseName (List.map Char.toLower name.toList))) with
  | error e =>
    simp only [h1] at h
    simp at h
  | ok v =>
    obtain ⟨fam, number⟩ := v
    simp only [h1, Py_bind_ok] at h
    cases h2 : continuousWavelet fam number with
    | none =>
      rw [h2] at h
      simp at h
    | some w0 =>
      rw [h2] at h
      simp only at h
      split_ifs at h with c1 c2 c3
      · simp only [Py_pure, Except.ok.injEq] at h
        rw [← h]
        rfl
      · split at h
        · rename_i b c _
          cases hb : pyFloat b with
          | error e => rw [hb] at h; simp at h
          | ok B =>
            cases hc : pyFloat c with
            | error e => rw [hb, hc] at h; simp at h
            | ok C =>
              rw [hb, hc] at h
              simp only [Py_bind_ok, Py_pure, Except.ok.injEq] at h
              rw [← h]
              rfl
        · simp at h
      · split at h
        · rename_i m b c _
          cases hm : pyFloat m with
          | error e => rw [hm] at h; simp at h
          | ok M =>
            cases hb : pyFloat b with
            | error e => rw [hm, hb] at h; simp at h
            | ok B =>
              cases hc : pyFloat c with
              | error e => rw [hm, hb, hc] at h; simp at h
              | ok C =>
                rw [hm, hb, hc] at h
                simp only [Py_bind_ok, Py_pure] at h
                by_cases k1 : M < 1 ∨ M.den ≠ 1
                · rw [if_pos k1] at h
                  simp at h
                · rw [if_neg k1] at h
                  by_cases k2 : 2 ^ 32 ≤ M
                  · rw [if_pos k2] at h
                    simp at h
                  · rw [if_neg k2] at h
                    simp only [Except.ok.injEq] at h
                    rw [← h]
                    rfl
        · simp at h

theorem named_unpickle {name : String} {w : ContWavelet} (h : contWaveletNamed name = .ok w) : w.unpickle = .ok w := by
  unfold ContWavelet.unpickle
  rw [named_name h, named_congr (lowerName_lower name), h]

/-- The names of the continuous wavelets that take no parameters. -/
def plainNames : List String :=
  ["gaus1", "gaus2", "gaus3", "gaus4", "gaus5", "gaus6", "gaus7", "gaus8", "mexh", "morl",
    "cgau1", "cgau2", "cgau3", "cgau4", "cgau5", "cgau6", "cgau7", "cgau8"]

theorem plain_ok : ∀ s ∈ plainNames, ∃ w, contWaveletNamed s = .ok w := by
  intro s hs
  have : ∀ s ∈ plainNames, (contWaveletNamed s).isOk := by decide +kernel
  have h := this s hs
  cases h2 : contWaveletNamed s with
  | ok w => exact ⟨w, rfl⟩
  | error e => rw [h2] at h; simp [Except.isOk, Except.toBool] at h

theorem ofList_take (s : String) (n : ℕ) : (s.take n).toString = String.ofList (s.toList.take n) := by
  have h : (s.take n).toString.toList = s.toList.take n := String.toList_copy_take
  rw [← h, String.ofList_toList]

theorem plain_rejects {name : String}
    (hp : (lowerName name).take 4 ∉ ["cmor".toList, "shan".toList, "fbsp".toList])
    (hn : ∀ s ∈ plainNames, lowerName name ≠ s.toList) : contWaveletNamed name = .error .value := by
  have hb : baseName (lowerName name) = lowerName name := by
    unfold baseName
    rw [if_neg (fun h => hp h.2)]
  have hl : wnameLookup (String.ofList (lowerName name)) =
      match wnameToCode.lookup (String.ofList (lowerName name)) with
      | some c => .ok c
      | none => .error .value := by
    unfold wnameLookup
    rw [if_neg]
    · rfl
    rintro ⟨-, h⟩
    rw [ofList_take, String.toList_ofList] at h
    apply hp
    simp only [List.mem_cons, List.not_mem_nil, or_false] at h ⊢
    rcases h with h | h | h
    · left; rw [← String.toList_ofList (l := (lowerName name).take 4), h]
    · right; left; rw [← String.toList_ofList (l := (lowerName name).take 4), h]
    · right; right; rw [← String.toList_ofList (l := (lowerName name).take 4), h]
  have e : lowerName name = List.map Char.toLower name.toList := rfl
  unfold contWaveletNamed
  simp only [← e, hb]
  rw [hl]
  cases h : wnameToCode.lookup (String.ofList (lowerName name)) with
  | none => rfl
  | some v =>
    obtain ⟨fam, number⟩ := v
    simp only [Py_bind_ok]
    have hmem : (String.ofList (lowerName name), fam, number) ∈ wnameToCode := by
      rw [List.lookup_eq_some_iff] at h
      obtain ⟨l1, l2, h1, -⟩ := h
      rw [h1]
      simp
    have htab : ∀ e ∈ wnameToCode, (continuousWavelet e.2.1 e.2.2).isSome = true →
        e.1 ∈ plainNames ∨ e.1.toList.take 4 ∈ ["cmor".toList, "shan".toList, "fbsp".toList] := by decide +kernel
    have := htab _ hmem
    cases h3 : continuousWavelet fam number with
    | none => rfl
    | some w =>
      exfalso
      rw [h3] at this
      rcases this rfl with h4 | h4
      · exact hn _ h4 (by rw [String.toList_ofList])
      · apply hp
        have e2 : (String.ofList (lowerName name)).toList = lowerName name := String.toList_ofList
        simp only [e2] at h4
        exact h4

/-! ### Names with a wrong number of parameters -/

theorem findFreqs_numbers {l : List (List Char)} {r : List Char} (h : Numbers l r) :
    ∀ {fuel : ℕ} {p : List Char}, p ≠ [] → (∀ c ∈ p, c.isDigit = false) → l.length ≤ fuel →
      findFreqs fuel (p ++ r) = l := by
  induction h with
  | nil =>
    intro fuel p _ hpd _
    rw [List.append_nil]
    exact findFreqs_none hpd
  | @last s j v h hj =>
    intro fuel p hp hpd hl
    obtain ⟨f, rfl⟩ : ∃ f, fuel = f + 1 := ⟨fuel - 1, by simp at hl; omega⟩
    rw [← List.append_assoc, findFreqs_step hp hpd h (stops_last hj.1 hj.2), findFreqs_none hj.1]
  | @cons s j r l v h hj hne hr ih =>
    intro fuel p hp hpd hl
    obtain ⟨f, rfl⟩ : ∃ f, fuel = f + 1 := ⟨fuel - 1, by simp at hl; omega⟩
    rw [List.append_assoc, ← List.append_assoc, findFreqs_step hp hpd h (stops_append hne hj.1 hj.2),
      ih hne hj.1 (by simp at hl; omega)]

theorem numbers_length {l : List (List Char)} {r : List Char} (h : Numbers l r) : l.length ≤ r.length := by
  induction h with
  | nil => exact le_refl _
  | last h _ =>
    have := List.length_pos_iff.mpr h.ne_nil
    simp
    omega
  | cons h _ _ _ ih =>
    have := List.length_pos_iff.mpr h.ne_nil
    simp only [List.length_cons, List.length_append]
    omega

/-- A name of a family with parameters that holds another number of them. -/
theorem named_wrong_count {name : String} {base j r : List Char} {l : List (List Char)}
    (hb : base = "cmor".toList ∨ base = "shan".toList ∨ base = "fbsp".toList)
    (hn : lowerName name = base ++ j ++ r) (hj : ∀ c ∈ j, c.isDigit = false) (hr : Numbers l r) (hne : j ++ r ≠ [])
    (hl : l.length ≠ if base = "fbsp".toList then 3 else 2) : contWaveletNamed name = .error .value := by
  obtain ⟨hbn, hbd⟩ := base_nondigit hb
  have hf : findFreqs ((base ++ (j ++ r)).length + 1) (base ++ (j ++ r)) = l := by
    rw [← List.append_assoc]
    refine findFreqs_numbers hr (by simp [hbn]) ?_ ?_
    · intro c hc
      rcases List.mem_append.mp hc with h | h
      · exact hbd c h
      · exact hj c h
    · have := numbers_length hr
      simp only [List.length_append]
      omega
  rw [List.append_assoc] at hn
  by_cases h3 : base = "fbsp".toList
  · subst h3
    rw [if_pos rfl] at hl
    rw [named_three hn hne, hf]
    split
    · simp at hl
    · rfl
  · rw [if_neg h3] at hl
    rw [named_two (by rcases hb with h | h | h; exacts [Or.inl h, Or.inr h, absurd h h3]) hn hne, hf]
    split
    · simp at hl
    · rfl

/-! ### Samples -/

theorem wavefun_eq (w : ContWavelet) {level : ℤ} {length : Option ℤ} {N : ℕ} (h : Samples level length N) :
    w.wavefun level length =
      (cwtPsiSingle ((linspace w.lower w.upper N).map fun q : ℚ => (q : ℝ)) w N >>= fun psi =>
        pure (psi, (linspace w.lower w.upper N).map fun q : ℚ => (q : ℝ))) := by
  have key : ∀ n : ℤ, n = N → (do
      if n < 0 then throw .value
      let x := (linspace w.lower w.upper n.toNat).map fun q : ℚ => (q : ℝ)
      let psi ← cwtPsiSingle x w n.toNat
      return (psi, x) : Py (Psi × List ℝ)) =
      (cwtPsiSingle ((linspace w.lower w.upper N).map fun q : ℚ => (q : ℝ)) w N >>= fun psi =>
        pure (psi, (linspace w.lower w.upper N).map fun q : ℚ => (q : ℝ))) := by
    rintro n rfl
    rw [if_neg (by omega)]
    rfl
  unfold ContWavelet.wavefun
  cases length with
  | none =>
    obtain ⟨h1, rfl⟩ := h
    refine key _ ?_
    simp only
    rw [if_neg (by omega)]
    push_cast
    rfl
  | some l => exact key _ h

theorem wavefun_zero (w : ContWavelet) {level : ℤ} {length : Option ℤ}
    (h : match length with | none => level < 0 | some l => l = 0) : w.wavefun level length = .error .runtime := by
  unfold ContWavelet.wavefun
  cases length with
  | none =>
    simp only at h
    simp only [if_pos h]
    rfl
  | some l =>
    simp only at h
    subst h
    rfl

theorem wavefun_negative (w : ContWavelet) (level : ℤ) {l : ℤ} (h : l < 0) :
    w.wavefun level (some l) = .error .value := by
  unfold ContWavelet.wavefun
  simp only [if_pos h]
  rfl

end Pywt
