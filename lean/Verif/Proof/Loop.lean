import Verif.Model.Conv

/-! Helper lemmas about the checked C monad: loop rules and the summation loops. -/

namespace Pywt

open Finset

section basic

@[simp] theorem C_bind_ok {α β : Type} (a : α) (g : α → C β) :
    ((Except.ok a : C α) >>= g) = g a := rfl

@[simp] theorem C_bind_error {α β : Type} (e : CErr) (g : α → C β) :
    ((Except.error e : C α) >>= g) = .error e := rfl

@[simp] theorem C_pure {α : Type} (a : α) : (pure a : C α) = .ok a := rfl

theorem rd_eq {α : Type} [Zero α] {a : List α} {i : Nat} (h : i < a.length) :
    rd a i = .ok (a.getD i 0) := by
  simp [rd, h]

theorem sub_eq {a b : Nat} (h : b ≤ a) : sub a b = .ok (a - b) := by simp [sub, h]

theorem wr_eq {α : Type} {a : List α} {i : Nat} (h : i < a.length) (v : α) :
    wr a i v = .ok (a.set i v) := by simp [wr, h]

theorem rdRev_eq {α : Type} [Zero α] {x : List α} {k : Nat} (h : k < x.length) :
    rdRev x k = .ok (x.getD (x.length - 1 - k) 0) := by
  unfold rdRev
  rw [sub_eq (by omega)]; simp only [C_bind_ok]
  rw [sub_eq (by omega)]; simp only [C_bind_ok]
  rw [rd_eq (by omega)]

variable {R M : Type} [Ring R] [AddCommGroup M] [Module R M]

theorem prod_eq {f : List R} {j : Nat} {x : List M} {k : Nat} (hj : j < f.length)
    (hk : k < x.length) : prod f j x k = .ok (f.getD j 0 • x.getD k 0) := by
  simp [prod, rd_eq hj, rd_eq hk]

theorem prodRev_eq {f : List R} {j : Nat} {x : List M} {k : Nat} (hj : j < f.length)
    (hk : k < x.length) :
    prodRev f j x k = .ok (f.getD j 0 • x.getD (x.length - 1 - k) 0) := by
  simp [prodRev, rd_eq hj, rdRev_eq hk]

theorem geN_eq {i N j : Nat} (hj : j ≤ i) : geN i N j = .ok (decide (j + N ≤ i)) := by
  have h : (N ≤ i - j) ↔ (j + N ≤ i) := by omega
  simp only [geN, sub_eq hj, C_bind_ok, C_pure, h]

theorem sub3_eq {i N j : Nat} (hj : j + N ≤ i) : sub3 i N j = .ok (i - N - j) := by
  have h1 : N ≤ i := by omega
  have h2 : j ≤ i - N := by omega
  simp only [sub3, sub_eq h1, C_bind_ok, sub_eq h2]

end basic

section loops

theorem loop_iter {σ : Type} {cond : σ → C Bool} {body : σ → C σ} (T : ℕ → σ) (n : ℕ)
    (hT : ∀ t < n, cond (T t) = .ok true ∧ body (T t) = .ok (T (t + 1)))
    (hend : cond (T n) = .ok false) {fuel : ℕ} (hf : n < fuel) :
    loop cond body fuel (T 0) = .ok (T n) := by
  induction n generalizing T fuel with
  | zero =>
    obtain ⟨m, rfl⟩ : ∃ m, fuel = m + 1 := ⟨fuel - 1, by omega⟩
    simp [loop, hend]
  | succ n ih =>
    obtain ⟨m, rfl⟩ : ∃ m, fuel = m + 1 := ⟨fuel - 1, by omega⟩
    have h0 := hT 0 (by omega)
    simp only [loop, h0.1, h0.2, C_bind_ok, if_true]
    exact ih (fun t => T (t + 1)) (fun t ht => hT (t + 1) (by omega)) hend (by omega)

/-- Invariant/variant rule for `loop`. -/
theorem loop_inv {σ : Type} {cond : σ → C Bool} {body : σ → C σ} (I Q : σ → Prop) (m : σ → ℕ)
    (h : ∀ s, I s → (cond s = .ok true ∧ ∃ s', body s = .ok s' ∧ I s' ∧ m s' < m s) ∨
      (cond s = .ok false ∧ Q s)) :
    ∀ (fuel : ℕ) (s : σ), I s → m s < fuel → ∃ s', loop cond body fuel s = .ok s' ∧ Q s' := by
  intro fuel
  induction fuel with
  | zero => intro s _ h; omega
  | succ n ih =>
    intro s hs hm
    rcases h s hs with ⟨hc, s', hb, hI, hlt⟩ | ⟨hc, hQ⟩
    · simp only [loop, hc, hb, C_bind_ok, if_true]
      exact ih s' hI (by omega)
    · refine ⟨s, ?_, hQ⟩
      simp [loop, hc]

variable {M : Type} [AddCommGroup M]

theorem forKJ_exists {fuel N k0 j0 B s : Nat} {more : Nat → C Bool} {term : Nat → Nat → C M}
    {g : Nat → M} {s0 : M} (hs : 0 < s)
    (hmore : ∀ t, (∀ u < t, j0 + s * u < B) → k0 + s * t < N →
      more (j0 + s * t) = .ok (decide (j0 + s * t < B)))
    (hterm : ∀ t, k0 + s * t < N → j0 + s * t < B →
      term (j0 + s * t) (k0 + s * t) = .ok (g (j0 + s * t)))
    (hfuel : N < fuel) :
    ∃ n, forKJ fuel N k0 s s more term (j0, s0) =
        .ok (j0 + s * n, s0 + ∑ t ∈ range n, g (j0 + s * t)) ∧
      (∀ t < n, k0 + s * t < N ∧ j0 + s * t < B) ∧
      (N ≤ k0 + s * n ∨ B ≤ j0 + s * n) := by
  classical
  have hex : ∃ n, (N ≤ k0 + s * n ∨ B ≤ j0 + s * n) := ⟨N, Or.inl (by nlinarith)⟩
  refine ⟨Nat.find hex, ?_, ?_, Nat.find_spec hex⟩
  · have hlt : ∀ t < Nat.find hex, k0 + s * t < N ∧ j0 + s * t < B := by
      intro t ht
      have := Nat.find_min hex ht
      omega
    have hle : Nat.find hex ≤ N := Nat.find_min' hex (Or.inl (by nlinarith))
    have key := loop_iter (cond := fun s : Nat × Nat × M => if s.1 < N then more s.2.1 else pure false)
      (body := fun q : Nat × Nat × M => do
        let v ← term q.2.1 q.1
        pure (q.1 + s, q.2.1 + s, q.2.2 + v))
      (fun t => (k0 + s * t, j0 + s * t, s0 + ∑ u ∈ range t, g (j0 + s * u)))
      (Nat.find hex) (fuel := fuel) (by
        intro t ht
        have h1 := hlt t ht
        constructor
        · simp only [h1.1, if_true]
          rw [hmore t (fun u hu => (hlt u (by omega)).2) h1.1]
          simp [h1.2]
        · simp only [hterm t h1.1 h1.2, C_bind_ok, C_pure]
          refine congrArg Except.ok (Prod.ext (by simp; ring) (Prod.ext (by simp; ring) ?_))
          simp only
          rw [sum_range_succ, add_assoc]) (by
        simp only
        split
        · rename_i h
          rw [hmore _ (fun u hu => (hlt u hu).2) h]
          have := Nat.find_spec hex
          have h2 : ¬ (j0 + s * Nat.find hex < B) := by omega
          simp [h2]
        · rfl) (by omega)
    unfold forKJ
    simp only [mul_zero, add_zero, range_zero, sum_empty] at key
    rw [key]
    simp
  · intro t ht
    have := Nat.find_min hex ht
    omega

/-- The unit-stride summation loop, as an equation. -/
theorem forKJ_eq {fuel N k0 j0 B : Nat} {more : Nat → C Bool} {term : Nat → Nat → C M}
    {g : Nat → M} {s0 : M} (hj : j0 ≤ B)
    (hmore : ∀ j ≤ B, more j = .ok (decide (j < B)))
    (hterm : ∀ t, k0 + t < N → j0 + t < B → term (j0 + t) (k0 + t) = .ok (g (j0 + t)))
    (hs0 : s0 = ∑ l ∈ range j0, g l)
    (hfuel : N < fuel) :
    forKJ fuel N k0 1 1 more term (j0, s0) =
      .ok (min (j0 + (N - k0)) B, ∑ l ∈ range (min (j0 + (N - k0)) B), g l) := by
  obtain ⟨n, h1, h2, h3⟩ := forKJ_exists (s := 1) (s0 := s0) (g := g) (fuel := fuel) (N := N)
    (k0 := k0) (j0 := j0) (B := B) (more := more) (term := term) Nat.one_pos
    (by
      intro t ht _
      apply hmore
      rcases Nat.eq_zero_or_pos t with h | h
      · subst h; omega
      · have := ht (t - 1) (by omega); omega)
    (by intro t ha hb; simpa using hterm t (by omega) (by omega)) hfuel
  have hn : min (j0 + (N - k0)) B = j0 + n := by
    rcases Nat.eq_zero_or_pos n with h | h
    · subst h; omega
    · have := h2 (n - 1) (by omega); omega
  rw [h1, hn, hs0]
  simp only [one_mul]
  rw [sum_range_add]

/-- Single-variable summation loop, general stride. -/
theorem forJ_exists {fuel j0 B s : Nat} {more : Nat → C Bool} {term : Nat → C M}
    {g : Nat → M} {s0 : M} (hs : 0 < s)
    (hmore : ∀ t, (∀ u < t, j0 + s * u < B) → more (j0 + s * t) = .ok (decide (j0 + s * t < B)))
    (hterm : ∀ t, j0 + s * t < B → term (j0 + s * t) = .ok (g (j0 + s * t)))
    (hfuel : B < fuel) :
    ∃ n, forJ fuel s more term (j0, s0) =
        .ok (j0 + s * n, s0 + ∑ t ∈ range n, g (j0 + s * t)) ∧
      (∀ t < n, j0 + s * t < B) ∧ B ≤ j0 + s * n := by
  classical
  have hex : ∃ n, B ≤ j0 + s * n := ⟨B, by nlinarith⟩
  have hlt : ∀ t < Nat.find hex, j0 + s * t < B := by
    intro t ht
    have := Nat.find_min hex ht
    omega
  refine ⟨Nat.find hex, ?_, hlt, Nat.find_spec hex⟩
  have hle : Nat.find hex ≤ B := Nat.find_min' hex (by nlinarith)
  have key := loop_iter (cond := fun s : Nat × M => more s.1)
    (body := fun q : Nat × M => do
      let v ← term q.1
      pure (q.1 + s, q.2 + v))
    (fun t => (j0 + s * t, s0 + ∑ u ∈ range t, g (j0 + s * u)))
    (Nat.find hex) (fuel := fuel) (by
      intro t ht
      have h1 := hlt t ht
      constructor
      · simp only
        rw [hmore t (fun u hu => hlt u (by omega))]
        simp [h1]
      · simp only [hterm t h1, C_bind_ok, C_pure]
        refine congrArg Except.ok (Prod.ext (by simp; ring) ?_)
        simp only
        rw [sum_range_succ, add_assoc]) (by
      simp only
      rw [hmore _ (fun u hu => hlt u hu)]
      have := Nat.find_spec hex
      have h2 : ¬ (j0 + s * Nat.find hex < B) := by omega
      simp [h2]) (by omega)
  simp only [mul_zero, add_zero, range_zero, sum_empty] at key
  unfold forJ
  exact key

theorem forJ_eq {fuel j0 B : Nat} {more : Nat → C Bool} {term : Nat → C M}
    {g : Nat → M} {s0 : M}
    (hmore : ∀ j ≤ max j0 B, more j = .ok (decide (j < B)))
    (hterm : ∀ j, j0 ≤ j → j < B → term j = .ok (g j))
    (hs0 : s0 = ∑ l ∈ range j0, g l) (hfuel : B < fuel) :
    forJ fuel 1 more term (j0, s0) = .ok (max j0 B, ∑ l ∈ range (max j0 B), g l) := by
  obtain ⟨n, h1, h2, h3⟩ := forJ_exists (s := 1) (s0 := s0) (g := g) (fuel := fuel)
    (j0 := j0) (B := B) (more := more) (term := term) Nat.one_pos
    (by
      intro t ht
      apply hmore
      rcases Nat.eq_zero_or_pos t with h | h
      · subst h; omega
      · have := ht (t - 1) (by omega); omega)
    (by intro t ha; simpa using hterm (j0 + t) (by omega) (by omega)) hfuel
  have hn : max j0 B = j0 + n := by
    rcases Nat.eq_zero_or_pos n with h | h
    · subst h; omega
    · have := h2 (n - 1) (by omega); omega
  rw [h1, hn, hs0]
  simp only [one_mul]
  rw [sum_range_add]

/-- A `while (j < B)` loop each round of which advances `j` by `P` (or stops at `B`), summing `g`. -/
theorem while_rounds {fuel j0 B P : Nat} {cond : Nat × M → C Bool} {body : Nat × M → C (Nat × M)}
    {g : Nat → M} (hP : 0 < P) (hj : j0 ≤ B)
    (hcond : ∀ j s, j ≤ B → cond (j, s) = .ok (decide (j < B)))
    (hbody : ∀ t, j0 + P * t < B → body (j0 + P * t, ∑ l ∈ range (j0 + P * t), g l) =
      .ok (min (j0 + P * (t + 1)) B, ∑ l ∈ range (min (j0 + P * (t + 1)) B), g l))
    (hfuel : B < fuel) :
    loop cond body fuel (j0, ∑ l ∈ range j0, g l) = .ok (B, ∑ l ∈ range B, g l) := by
  have key := loop_inv (cond := cond) (body := body)
    (fun s => s = (B, ∑ l ∈ range B, g l) ∨
      ∃ t, j0 + P * t < B ∧ s = (j0 + P * t, ∑ l ∈ range (j0 + P * t), g l))
    (fun s => s = (B, ∑ l ∈ range B, g l)) (fun s => B - s.1) (by
      rintro s (rfl | ⟨t, ht, rfl⟩)
      · right
        rw [hcond _ _ le_rfl]; simp
      · left
        refine ⟨by rw [hcond _ _ ht.le]; simp [ht], _, hbody t ht, ?_, ?_⟩
        · rcases le_total (j0 + P * (t + 1)) B with h | h
          · rcases h.eq_or_lt with h' | h'
            · left; rw [h']; simp
            · right; exact ⟨t + 1, h', by rw [min_eq_left h]⟩
          · left; rw [min_eq_right h]
        · simp only
          have : P * (t + 1) = P * t + P := by ring
          omega) fuel (j0, ∑ l ∈ range j0, g l) (by
      rcases hj.eq_or_lt with h | h
      · left; rw [h]
      · right; exact ⟨0, by simpa using h, by simp⟩) (by simp only; omega)
  obtain ⟨s', h1, rfl⟩ := key
  exact h1

/-- `while (more j) { for(k = k0; k < N1 && …) …; for(k = k0; k < N2 && …) …; }` -/
theorem while_two {fuel N1 N2 k0 j0 B P : Nat} {cond : Nat × M → C Bool} {more : Nat → C Bool}
    {term1 term2 : Nat → Nat → C M} {g : Nat → M}
    (hP : P = (N1 - k0) + (N2 - k0)) (hP0 : 0 < P) (hj : j0 ≤ B)
    (hcond : ∀ j s, j ≤ B → cond (j, s) = .ok (decide (j < B)))
    (hmore : ∀ j ≤ B, more j = .ok (decide (j < B)))
    (h1 : ∀ t u, k0 + u < N1 → j0 + P * t + u < B →
      term1 (j0 + P * t + u) (k0 + u) = .ok (g (j0 + P * t + u)))
    (h2 : ∀ t u, k0 + u < N2 → j0 + P * t + (N1 - k0) + u < B →
      term2 (j0 + P * t + (N1 - k0) + u) (k0 + u) = .ok (g (j0 + P * t + (N1 - k0) + u)))
    (hfuel : B < fuel) (hf1 : N1 < fuel) (hf2 : N2 < fuel) :
    loop cond (fun s => do
        let s ← forKJ fuel N1 k0 1 1 more term1 s
        forKJ fuel N2 k0 1 1 more term2 s) fuel (j0, ∑ l ∈ range j0, g l) =
      .ok (B, ∑ l ∈ range B, g l) := by
  apply while_rounds (P := P) (g := g) hP0 hj hcond _ hfuel
  intro t ht
  rw [forKJ_eq (B := B) (g := g) ht.le hmore (fun u a b => h1 t u a b) rfl hf1]
  simp only [C_bind_ok]
  have e : P * (t + 1) = P * t + P := by ring
  rcases le_total (j0 + P * t + (N1 - k0)) B with h | h
  · rw [min_eq_left h]
    rw [forKJ_eq (B := B) (g := g) h hmore (fun u a b => h2 t u a b) rfl hf2]
    have : j0 + P * t + (N1 - k0) + (N2 - k0) = j0 + P * (t + 1) := by omega
    rw [this]
  · rw [min_eq_right h]
    rw [forKJ_eq (B := B) (g := g) le_rfl hmore (fun u a b => by omega) rfl hf2]
    rw [min_eq_right (by omega), min_eq_right (by omega)]

/-- `while (more j) { for(k = k0; k < N && …) …; }` -/
theorem while_one {fuel N k0 j0 B P : Nat} {cond : Nat × M → C Bool} {more : Nat → C Bool}
    {term : Nat → Nat → C M} {g : Nat → M}
    (hP : P = N - k0) (hP0 : 0 < P) (hj : j0 ≤ B)
    (hcond : ∀ j s, j ≤ B → cond (j, s) = .ok (decide (j < B)))
    (hmore : ∀ j ≤ B, more j = .ok (decide (j < B)))
    (h1 : ∀ t u, k0 + u < N → j0 + P * t + u < B →
      term (j0 + P * t + u) (k0 + u) = .ok (g (j0 + P * t + u)))
    (hfuel : B < fuel) (hf1 : N < fuel) :
    loop cond (fun s => forKJ fuel N k0 1 1 more term s) fuel (j0, ∑ l ∈ range j0, g l) =
      .ok (B, ∑ l ∈ range B, g l) := by
  apply while_rounds (P := P) (g := g) hP0 hj hcond _ hfuel
  intro t ht
  rw [forKJ_eq (B := B) (g := g) ht.le hmore (fun u a b => h1 t u a b) rfl hf1]
  have e : P * (t + 1) = P * t + P := by ring
  rw [show j0 + P * t + (N - k0) = j0 + P * (t + 1) by omega]

end loops

end Pywt
