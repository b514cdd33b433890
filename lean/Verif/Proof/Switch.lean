import Verif.Proof.Ext

/-! The two `switch(mode)` blocks of `downsampling_convolution` compute the sums over the part of
the filter that overhangs the signal. -/

namespace Pywt

open Finset Spec

variable {R M : Type} [Ring R] [AddCommGroup M] [Module R M]

/-- Which signals the kernel can process in a given mode without looping forever or reading out of
bounds. -/
def KernelOK (mode : Mode) (N : ℕ) : Prop :=
  1 ≤ N ∧ (mode = .reflect ∨ mode = .antireflect ∨ mode = .smooth → 2 ≤ N)

theorem ltF_eq (F j : ℕ) : ltF F j = .ok (decide (j < F)) := rfl

theorem forTmp_eq {fuel N j0 B : ℕ} {more : ℕ → C Bool} {val : ℕ → C M} {idx : ℕ → C ℕ}
    {f : List R} {g v : ℕ → M} {tmp0 s0 : M} (hN : 1 ≤ N) (hj : j0 ≤ B)
    (hmore : ∀ j ≤ B, more j = .ok (decide (j < B)))
    (hval : ∀ t, 1 + t < N → j0 + t < B → val (1 + t) = .ok (v (j0 + t)))
    (hidx : ∀ t, 1 + t < N → j0 + t < B → ∃ l, idx (j0 + t) = .ok l ∧ l < f.length ∧
      f.getD l 0 • v (j0 + t) = g (j0 + t))
    (hs0 : s0 = ∑ l ∈ range j0, g l) (hfuel : N < fuel) :
    forTmp fuel N more val idx f (j0, tmp0, s0) =
      .ok (min (j0 + (N - 1)) B,
        if min (j0 + (N - 1)) B = j0 then tmp0 else v (min (j0 + (N - 1)) B - 1),
        ∑ l ∈ range (min (j0 + (N - 1)) B), g l) := by
  set n := min (N - 1) (B - j0) with hn
  have hn' : min (j0 + (N - 1)) B = j0 + n := by omega
  have key := loop_iter
    (cond := fun s : ℕ × ℕ × M × M => if s.1 < N then more s.2.1 else pure false)
    (body := fun s : ℕ × ℕ × M × M => do
      let tmp ← val s.1
      let l ← idx s.2.1
      let a ← rd f l
      pure (s.1 + 1, s.2.1 + 1, tmp, s.2.2.2 + a • tmp))
    (fun t => (1 + t, j0 + t, (if t = 0 then tmp0 else v (j0 + t - 1)),
      ∑ l ∈ range (j0 + t), g l)) n (fuel := fuel) (by
      intro t ht
      constructor
      · have h1 : 1 + t < N := by omega
        simp only [h1, if_true]
        rw [hmore _ (by omega)]
        have : j0 + t < B := by omega
        simp [this]
      · obtain ⟨l, h1, h2, h3⟩ := hidx t (by omega) (by omega)
        simp only [hval t (by omega) (by omega), h1, rd_eq h2, C_bind_ok, C_pure]
        refine congrArg Except.ok (Prod.ext (by simp; omega) (Prod.ext (by simp; omega)
          (Prod.ext ?_ ?_)))
        · simp
        · simp only
          rw [h3, ← add_assoc, sum_range_succ]) (by
      simp only
      split
      · rw [hmore _ (by omega)]
        have : ¬ (j0 + n < B) := by omega
        simp [this]
      · rfl) (by omega)
  unfold forTmp
  simp only [add_zero, if_true, ← hs0] at key
  rw [key]
  simp only [C_bind_ok, C_pure, hn']
  by_cases h0 : n = 0 <;> simp [h0]

/-- The MODE_ANTIREFLECT `while` loop: `w j` is the value at the current edge. -/
theorem anti_rounds {fuel N j0 B P : ℕ} {more : ℕ → C Bool} {val1 val2 : M → ℕ → C M}
    {idx : ℕ → C ℕ} {f : List R} {g v w : ℕ → M} {tmp0 : M} (hN : 2 ≤ N) (hP : P = 2 * (N - 1))
    (hj : j0 ≤ B) (hw : ∀ l, w (l + 1) = v l)
    (hmore : ∀ j ≤ B, more j = .ok (decide (j < B)))
    (hval1 : ∀ t u, 1 + u < N → j0 + P * t + u < B →
      val1 (w (j0 + P * t)) (1 + u) = .ok (v (j0 + P * t + u)))
    (hval2 : ∀ t u, 1 + u < N → j0 + P * t + (N - 1) + u < B →
      val2 (w (j0 + P * t + (N - 1))) (1 + u) = .ok (v (j0 + P * t + (N - 1) + u)))
    (hidx : ∀ j, j < B → ∃ l, idx j = .ok l ∧ l < f.length ∧ f.getD l 0 • v j = g j)
    (hfuel : B < fuel) (hf1 : N < fuel) :
    ∃ s', loop (σ := ℕ × M × M × M) (fun s => more s.1) (fun s => do
        let (j, le, tmp, sum) := s
        let (j, tmp, sum) ← forTmp fuel N more (val1 le) idx f (j, tmp, sum)
        let le := tmp
        let (j, tmp, sum) ← forTmp fuel N more (val2 le) idx f (j, tmp, sum)
        let le := tmp
        pure (j, le, tmp, sum)) fuel (j0, w j0, tmp0, ∑ l ∈ range j0, g l) = .ok s' ∧
      (s'.1 = B ∧ s'.2.2.2 = ∑ l ∈ range B, g l) := by
  have hv : ∀ j, 0 < j → v (j - 1) = w j := by
    intro j hj
    obtain ⟨l, rfl⟩ : ∃ l, j = l + 1 := ⟨j - 1, by omega⟩
    simp [hw]
  refine loop_inv (σ := ℕ × M × M × M) (I := fun s => (s.1 = B ∧ s.2.2.2 = ∑ l ∈ range B, g l) ∨
      ∃ t, s.1 = j0 + P * t ∧ j0 + P * t < B ∧ s.2.1 = w (j0 + P * t) ∧
        s.2.2.2 = ∑ l ∈ range (j0 + P * t), g l)
    (Q := fun s => s.1 = B ∧ s.2.2.2 = ∑ l ∈ range B, g l) (fun s => B - s.1) ?_ fuel _ ?_ ?_
  · rintro ⟨j, le, tmp, sum⟩ (⟨h1, h2⟩ | ⟨t, h1, h2, h3, h4⟩)
    · right
      simp only at h1 h2
      subst h1 h2
      refine ⟨by simp only; rw [hmore _ le_rfl]; simp, rfl, rfl⟩
    · left
      simp only at h1 h3 h4
      subst h1 h3
      refine ⟨by simp only; rw [hmore _ h2.le]; simp [h2], ?_⟩
      have e : P * (t + 1) = P * t + P := by ring
      simp only
      rw [forTmp_eq (B := B) (v := v) (g := g) (by omega) h2.le hmore (fun u a b => hval1 t u a b)
        (fun u _ b => hidx _ b) h4 hf1]
      simp only [C_bind_ok]
      rcases le_total (j0 + P * t + (N - 1)) B with h | h
      · rw [min_eq_left h, if_neg (by omega), hv _ (by omega)]
        rw [forTmp_eq (B := B) (v := v) (g := g) (by omega) h hmore (fun u a b => hval2 t u a b)
          (fun u _ b => hidx _ b) rfl hf1]
        simp only [C_bind_ok, C_pure]
        refine ⟨_, rfl, ?_, by simp only; omega⟩
        rcases lt_or_ge (j0 + P * (t + 1)) B with h' | h'
        · right
          have hm : min (j0 + P * t + (N - 1) + (N - 1)) B = j0 + P * (t + 1) := by omega
          rw [hm, if_neg (by omega)]
          exact ⟨t + 1, rfl, h', hv _ (by omega), rfl⟩
        · left
          have hm : min (j0 + P * t + (N - 1) + (N - 1)) B = B := by omega
          rw [hm]
          exact ⟨rfl, rfl⟩
      · rw [min_eq_right h, if_neg (by omega)]
        rw [forTmp_eq (B := B) (v := v) (g := g) (by omega) le_rfl hmore
          (fun u a b => by omega) (fun u _ b => hidx _ b) rfl hf1]
        simp only [C_bind_ok, C_pure]
        refine ⟨_, rfl, ?_, by simp only; omega⟩
        left
        have hm : min (B + (N - 1)) B = B := by omega
        rw [hm]
        exact ⟨rfl, rfl⟩
  · rcases hj.eq_or_lt with h | h
    · left; subst h; exact ⟨rfl, rfl⟩
    · right; exact ⟨0, by simp, by simpa using h, by simp, by simp⟩
  · simp only; omega

/-- Sum over the left overhang: starting with the filter taps `l ≤ i` already summed. -/
theorem leftSwitch_eq {fuel : ℕ} {mode : Mode} {x : List M} {f : List R} {i : ℕ}
    (hmode : mode ≠ .periodization) (hok : KernelOK mode x.length) (hi : i < f.length)
    (hfuel : x.length + f.length < fuel) :
    ∃ j', leftSwitch fuel mode x f
        (i + 1, ∑ l ∈ range (i + 1), f.getD l 0 • ext mode x ((i : ℤ) - l)) =
      .ok (j', ∑ l ∈ range f.length, f.getD l 0 • ext mode x ((i : ℤ) - l)) := by
  obtain ⟨hN, hN2⟩ := hok
  cases mode with
  | zero =>
    refine ⟨i + 1, ?_⟩
    simp only [leftSwitch, C_pure]
    congr 2
    obtain ⟨d, hd⟩ : ∃ d, f.length = (i + 1) + d := ⟨f.length - (i + 1), by omega⟩
    rw [hd, sum_range_add _ (i + 1) d, eq_comm, add_eq_left]
    apply sum_eq_zero
    intro t _
    rw [ext_zero_out _ (by left; push_cast; omega), smul_zero]
  | constant =>
    refine ⟨max (i + 1) f.length, ?_⟩
    simp only [leftSwitch]
    rw [forJ_eq (B := f.length) (g := fun l => f.getD l 0 • ext .constant x ((i : ℤ) - l))
      (fun j _ => ltF_eq _ _) _ rfl (by omega)]
    · rw [max_eq_right (by omega)]
    · intro j h1 h2
      rw [prod_eq h2 (by omega), ext_const_neg _ (by omega)]
  | symmetric =>
    refine ⟨f.length, while_two (P := 2 * x.length)
      (g := fun l => f.getD l 0 • ext .symmetric x ((i : ℤ) - l))
      (by omega) (by omega) (by omega) (fun j s _ => ltF_eq _ _) (fun j _ => ltF_eq _ _) ?_ ?_
      (by omega) (by omega) (by omega)⟩
    · intro t u h1 h2
      rw [prod_eq h2 (by omega), ext_symm_hi x (q := -t - 1) (k := 0 + u) (by omega)
        (by push_cast; ring)]
    · intro t u h1 h2
      rw [prodRev_eq h2 (by omega),
        ext_symm_lo x (q := -t - 1) (k := x.length - 1 - (0 + u)) (by omega)
          (by rw [show ((x.length - 1 - (0 + u) : ℕ) : ℤ) = x.length - 1 - u by omega,
                show x.length - 0 = x.length by omega]; push_cast; ring)]
  | antisymmetric =>
    refine ⟨f.length, while_two (P := 2 * x.length)
      (g := fun l => f.getD l 0 • ext .antisymmetric x ((i : ℤ) - l))
      (by omega) (by omega) (by omega) (fun j s _ => ltF_eq _ _) (fun j _ => ltF_eq _ _) ?_ ?_
      (by omega) (by omega) (by omega)⟩
    · intro t u h1 h2
      rw [prod_eq h2 (by omega), ext_asym_hi x (q := -t - 1) (k := 0 + u) (by omega)
        (by push_cast; ring)]
      simp
    · intro t u h1 h2
      rw [prodRev_eq h2 (by omega),
        ext_asym_lo x (q := -t - 1) (k := x.length - 1 - (0 + u)) (by omega)
          (by rw [show ((x.length - 1 - (0 + u) : ℕ) : ℤ) = x.length - 1 - u by omega,
                show x.length - 0 = x.length by omega]; push_cast; ring)]
  | reflect =>
    have hN2 : 2 ≤ x.length := hN2 (by simp)
    refine ⟨f.length, while_two (P := 2 * (x.length - 1))
      (g := fun l => f.getD l 0 • ext .reflect x ((i : ℤ) - l))
      (by omega) (by omega) (by omega) (fun j s _ => ltF_eq _ _) (fun j _ => ltF_eq _ _) ?_ ?_
      (by omega) (by omega) (by omega)⟩
    · intro t u h1 h2
      rw [prod_eq h2 (by omega), ext_refl_hi x (q := -t - 1) (k := 1 + u) (by omega) (by omega)
        (by omega) (by push_cast [Nat.cast_sub hN]; ring)]
    · intro t u h1 h2
      rw [prodRev_eq h2 (by omega),
        ext_refl_lo x (q := -t - 1) (k := x.length - 1 - (1 + u)) (by omega) (by omega)
          (by rw [show ((x.length - 1 - (1 + u) : ℕ) : ℤ) = x.length - 1 - 1 - u by omega]
              push_cast [Nat.cast_sub hN]; ring)]
  | periodic =>
    refine ⟨f.length, while_one (P := x.length)
      (g := fun l => f.getD l 0 • ext .periodic x ((i : ℤ) - l))
      (by omega) (by omega) (by omega) (fun j s _ => ltF_eq _ _) (fun j _ => ltF_eq _ _) ?_
      (by omega) (by omega)⟩
    intro t u h1 h2
    rw [prodRev_eq h2 (by omega), ext_per x (q := -t - 1) (k := x.length - 1 - (0 + u)) (by omega)
      (by rw [show ((x.length - 1 - (0 + u) : ℕ) : ℤ) = x.length - 1 - u by omega]
          push_cast; ring)]
  | smooth =>
    have hN2 : 2 ≤ x.length := hN2 (by simp)
    refine ⟨f.length, ?_⟩
    simp only [leftSwitch]
    have key := loop_iter (cond := fun s : ℕ × ℕ × M => ltF f.length s.2.1)
      (body := fun s : ℕ × ℕ × M => do
        let a ← rd f s.2.1
        let x0 ← rd x 0
        let x1 ← rd x 1
        pure (s.1 + 1, s.2.1 + 1, s.2.2 + a • (x0 + s.1 • (x0 - x1))))
      (fun t => (1 + t, i + 1 + t,
        ∑ l ∈ range (i + 1 + t), f.getD l 0 • ext .smooth x ((i : ℤ) - l)))
      (f.length - (i + 1)) (fuel := fuel) (by
        intro t ht
        constructor
        · have : i + 1 + t < f.length := by omega
          simp [ltF, this]
        · simp only [rd_eq (show i + 1 + t < f.length by omega),
            rd_eq (show 0 < x.length by omega), rd_eq (show 1 < x.length by omega),
            C_bind_ok, C_pure]
          refine congrArg Except.ok (Prod.ext (by simp; omega) (Prod.ext (by simp; omega) ?_))
          simp only
          rw [← add_assoc, sum_range_succ _ (i + 1 + t)]
          congr 1
          rw [ext_smooth_neg x (k := 1 + t) hN2 (by omega) (by push_cast; ring)]) (by
        have : ¬ (i + 1 + (f.length - (i + 1)) < f.length) := by omega
        simp [ltF, this]) (by omega)
    simp only [add_zero] at key
    rw [key]
    have : i + 1 + (f.length - (i + 1)) = f.length := by omega
    simp only [this, C_bind_ok, C_pure]
  | antireflect =>
    have hN2 : 2 ≤ x.length := hN2 (by simp)
    refine ⟨f.length, ?_⟩
    simp only [leftSwitch, rd_eq (show 0 < x.length by omega), C_bind_ok]
    obtain ⟨s', h1, h2, h3⟩ := anti_rounds (fuel := fuel) (N := x.length) (j0 := i + 1)
      (B := f.length) (P := 2 * (x.length - 1)) (more := ltF f.length)
      (val1 := fun le k => do
            let b ← rd x k
            let c ← rd x 0
            pure (le - (b - c)))
      (val2 := fun le k => do
            let b ← rdRev x k
            let c ← rdRev x 0
            pure (le + (b - c))) (idx := fun j => pure j) (f := f)
      (g := fun l => f.getD l 0 • ext .antireflect x ((i : ℤ) - l))
      (v := fun l => ext .antireflect x ((i : ℤ) - l))
      (w := fun l => ext .antireflect x ((i : ℤ) + 1 - l)) (tmp0 := 0) hN2 rfl (by omega)
      (by intro l; congr 1; push_cast; ring) (fun j _ => ltF_eq _ _) (by
        intro t u a b
        simp only [rd_eq (show 1 + u < x.length by omega), rd_eq (show 0 < x.length by omega),
          C_bind_ok, C_pure]
        rw [ext_arefl_hi x (p := (i : ℤ) - ((i + 1 + 2 * (x.length - 1) * t + u : ℕ) : ℤ))
            (q := -t - 1) (k := 1 + u) (by omega) (by omega)
            (by omega) (by push_cast [Nat.cast_sub hN]; ring),
          ext_arefl_lo x (p := (i : ℤ) + 1 - ((i + 1 + 2 * (x.length - 1) * t : ℕ) : ℤ))
            (q := -t) (k := 0) (by omega) (by omega) (by push_cast [Nat.cast_sub hN]; ring)]
        congr 1
        module) (by
        intro t u a b
        simp only [rdRev_eq (show 1 + u < x.length by omega),
          rdRev_eq (show 0 < x.length by omega), C_bind_ok, C_pure]
        rw [ext_arefl_lo x
            (p := (i : ℤ) + 1 - ((i + 1 + 2 * (x.length - 1) * t + (x.length - 1) : ℕ) : ℤ))
            (q := -t - 1) (k := x.length - 1) (by omega)
            (by omega) (by push_cast [Nat.cast_sub hN]; ring),
          ext_arefl_lo x
            (p := (i : ℤ) - ((i + 1 + 2 * (x.length - 1) * t + (x.length - 1) + u : ℕ) : ℤ))
            (q := -t - 1) (k := x.length - 1 - (1 + u)) (by omega) (by omega)
           (by rw [show ((x.length - 1 - (1 + u) : ℕ) : ℤ) = x.length - 1 - 1 - u by omega]
               push_cast [Nat.cast_sub hN]; ring)]
        congr 1
        simp only [Nat.sub_zero]
        module) (fun j hj => ⟨j, rfl, hj, rfl⟩) (by omega) (by omega)
    have hw0 : ext .antireflect x ((i : ℤ) + 1 - ((i + 1 : ℕ) : ℤ)) = x.getD 0 0 := by
      rw [show ((i : ℤ) + 1 - ((i + 1 : ℕ) : ℤ)) = ((0 : ℕ) : ℤ) by push_cast; ring]
      exact ext_in x _ (by omega)
    simp only [hw0, rd_eq (show 0 < x.length by omega), C_bind_ok] at h1
    rw [h1]
    simp only [C_bind_ok, C_pure, h2, h3]
  | periodization => exact absurd rfl hmode

theorem geN_lt {i N : ℕ} (hN : 1 ≤ N) (hi : N ≤ i) : ∀ j ≤ i + 1 - N,
    geN i N j = .ok (decide (j < i + 1 - N)) := by
  intro j hj
  rw [geN_eq (by omega)]
  have : (j + N ≤ i) ↔ (j < i + 1 - N) := by omega
  simp only [this]

theorem sum_flip {f : List R} {e : ℤ → M} {i N : ℕ} (hi : N ≤ i) :
    ∑ t ∈ range (i + 1 - N), f.getD (i - N - t) 0 • e ((N : ℤ) + t) =
      ∑ l ∈ range (i + 1 - N), f.getD l 0 • e ((i : ℤ) - l) := by
  rw [← sum_range_reflect]
  apply sum_congr rfl
  intro l hl
  have hl' : l < i + 1 - N := by simpa using hl
  have h1 : i - N - (i + 1 - N - 1 - l) = l := by omega
  have h2 : (N : ℤ) + ((i + 1 - N - 1 - l : ℕ) : ℤ) = (i : ℤ) - l := by omega
  rw [h1, h2]

/-- Sum over the right overhang: the taps `l ≤ i - N`. -/
theorem rightSwitch_eq {fuel : ℕ} {mode : Mode} {x : List M} {f : List R} {i : ℕ}
    (hmode : mode ≠ .periodization) (hok : KernelOK mode x.length)
    (hi : x.length ≤ i) (hi2 : i < x.length + f.length) (hfuel : x.length + f.length < fuel) :
    rightSwitch fuel mode x f i =
      .ok (i + 1 - x.length,
        ∑ l ∈ range (i + 1 - x.length), f.getD l 0 • ext mode x ((i : ℤ) - l)) := by
  obtain ⟨hN, hN2⟩ := hok
  have hmore := geN_lt hN hi
  cases mode with
  | zero =>
    simp only [rightSwitch, sub_eq hi, C_bind_ok, C_pure]
    congr 2
    · omega
    · symm
      apply sum_eq_zero
      intro l hl
      have hl' : l < i + 1 - x.length := by simpa using hl
      rw [ext_zero_out _ (by right; omega), smul_zero]
  | constant =>
    simp only [rightSwitch]
    rw [forJ_eq (B := i + 1 - x.length)
      (g := fun l => f.getD l 0 • ext .constant x ((i : ℤ) - l)) _ _ (by simp) (by omega)]
    · rw [max_eq_right (by omega)]
    · intro j hj; exact hmore j (by omega)
    · intro j h1 h2
      rw [prodRev_eq (by omega) (by omega), ext_const_hi _ (by omega) (by omega)]
      simp
  | symmetric =>
    rw [← sum_flip hi]
    exact while_two (P := 2 * x.length)
      (g := fun t => f.getD (i - x.length - t) 0 • ext .symmetric x ((x.length : ℤ) + t))
      (by omega) (by omega) (by omega) (fun j s h => hmore j h) hmore (by
        intro t u h1 h2
        rw [sub3_eq (by omega), C_bind_ok, prodRev_eq (by omega) (by omega),
          ext_symm_hi x (q := t) (k := x.length - 1 - (0 + u)) (by omega)
            (by rw [show ((x.length - 1 - (0 + u) : ℕ) : ℤ) = x.length - 1 - u by omega]
                push_cast; ring)]) (by
        intro t u h1 h2
        rw [sub3_eq (by omega), C_bind_ok, prod_eq (by omega) (by omega),
          ext_symm_lo x (q := t + 1) (k := 0 + u) (by omega) (by rw [Nat.sub_zero]; push_cast; ring)])
      (by omega) (by omega) (by omega)
  | antisymmetric =>
    rw [← sum_flip hi]
    exact while_two (P := 2 * x.length)
      (g := fun t => f.getD (i - x.length - t) 0 • ext .antisymmetric x ((x.length : ℤ) + t))
      (by omega) (by omega) (by omega) (fun j s h => hmore j h) hmore (by
        intro t u h1 h2
        simp only [sub3_eq (show 0 + 2 * x.length * t + u + x.length ≤ i by omega), C_bind_ok]
        rw [prodRev_eq (by omega) (by omega),
          ext_asym_hi x (q := t) (k := x.length - 1 - (0 + u)) (by omega)
            (by rw [show ((x.length - 1 - (0 + u) : ℕ) : ℤ) = x.length - 1 - u by omega]
                push_cast; ring)]
        simp) (by
        intro t u h1 h2
        rw [sub3_eq (by omega), C_bind_ok, prod_eq (by omega) (by omega),
          ext_asym_lo x (q := t + 1) (k := 0 + u) (by omega) (by rw [Nat.sub_zero]; push_cast; ring)])
      (by omega) (by omega) (by omega)
  | reflect =>
    have hN2 : 2 ≤ x.length := hN2 (by simp)
    rw [← sum_flip hi]
    exact while_two (P := 2 * (x.length - 1))
      (g := fun t => f.getD (i - x.length - t) 0 • ext .reflect x ((x.length : ℤ) + t))
      (by omega) (by omega) (by omega) (fun j s h => hmore j h) hmore (by
        intro t u h1 h2
        rw [sub3_eq (by omega), C_bind_ok, prodRev_eq (by omega) (by omega)]
        by_cases hu : 1 + u = x.length - 1
        · rw [ext_refl_lo x (q := t + 1) (k := x.length - 1 - (1 + u)) (by omega) (by omega)
            (by have hu' : (u : ℤ) = x.length - 2 := by omega
                rw [show ((x.length - 1 - (1 + u) : ℕ) : ℤ) = 0 by omega]
                push_cast [Nat.cast_sub hN]; rw [hu']; ring)]
        · rw [ext_refl_hi x (q := t) (k := x.length - 1 - (1 + u)) (by omega) (by omega) (by omega)
            (by rw [show ((x.length - 1 - (1 + u) : ℕ) : ℤ) = x.length - 1 - 1 - u by omega]
                push_cast [Nat.cast_sub hN]; ring)]) (by
        intro t u h1 h2
        rw [sub3_eq (by omega), C_bind_ok, prod_eq (by omega) (by omega),
          ext_refl_lo x (q := t + 1) (k := 1 + u) (by omega) (by omega)
            (by push_cast [Nat.cast_sub hN]; ring)])
      (by omega) (by omega) (by omega)
  | periodic =>
    rw [← sum_flip hi]
    exact while_one (P := x.length)
      (g := fun t => f.getD (i - x.length - t) 0 • ext .periodic x ((x.length : ℤ) + t))
      (by omega) (by omega) (by omega) (fun j s h => hmore j h) hmore (by
        intro t u h1 h2
        rw [sub3_eq (by omega), C_bind_ok, prod_eq (by omega) (by omega),
          ext_per x (q := t + 1) (k := 0 + u) (by omega) (by push_cast; ring)])
      (by omega) (by omega)
  | smooth =>
    have hN2 : 2 ≤ x.length := hN2 (by simp)
    simp only [rightSwitch, sub_eq hi, C_bind_ok]
    have key := loop_iter (cond := fun s : ℕ × ℕ × M => geN i x.length s.2.1)
      (body := fun s : ℕ × ℕ × M => do
        let a ← rd f s.2.1
        let x1 ← rdRev x 0
        let x2 ← rdRev x 1
        let k' ← sub s.1 1
        pure (k', s.2.1 + 1, s.2.2 + a • (x1 + s.1 • (x1 - x2))))
      (fun t => (i - x.length + 1 - t, t,
        ∑ l ∈ range t, f.getD l 0 • ext .smooth x ((i : ℤ) - l)))
      (i + 1 - x.length) (fuel := fuel) (by
        intro t ht
        constructor
        · simp only; rw [hmore t (by omega)]; simp [ht]
        · simp only [rd_eq (show t < f.length by omega),
            rdRev_eq (show 0 < x.length by omega), rdRev_eq (show 1 < x.length by omega),
            sub_eq (show 1 ≤ i - x.length + 1 - t by omega), C_bind_ok, C_pure]
          refine congrArg Except.ok (Prod.ext (by simp; omega) (Prod.ext (by simp) ?_))
          simp only
          rw [sum_range_succ]
          congr 1
          rw [ext_smooth_hi x (k := i - x.length + 1 - t) hN2 (by omega) (by omega)]
          rw [show x.length - 1 - 0 = x.length - 1 by omega,
            show x.length - 1 - 1 = x.length - 2 by omega]) (by
        simp only; rw [hmore _ le_rfl]; simp) (by omega)
    simp only [Nat.sub_zero, range_zero, sum_empty] at key
    rw [key]
    simp only [C_bind_ok, C_pure]
  | antireflect =>
    have hN2 : 2 ≤ x.length := hN2 (by simp)
    rw [← sum_flip hi]
    simp only [rightSwitch, rdRev_eq (show 0 < x.length by omega), C_bind_ok]
    obtain ⟨s', h1, h2, h3⟩ := anti_rounds (fuel := fuel) (N := x.length) (j0 := 0)
      (B := i + 1 - x.length) (P := 2 * (x.length - 1)) (more := geN i x.length)
      (val1 := fun le k => do
            let b ← rdRev x k
            let c ← rdRev x 0
            pure (le - (b - c)))
      (val2 := fun le k => do
            let b ← rd x k
            let c ← rd x 0
            pure (le + (b - c))) (idx := fun j => sub3 i x.length j) (f := f)
      (g := fun t => f.getD (i - x.length - t) 0 • ext .antireflect x ((x.length : ℤ) + t))
      (v := fun t => ext .antireflect x ((x.length : ℤ) + t))
      (w := fun t => ext .antireflect x ((x.length : ℤ) + t - 1)) (tmp0 := 0) hN2 rfl (by omega)
      (by intro l; congr 1; push_cast; ring) hmore (by
        intro t u a b
        simp only [rdRev_eq (show 1 + u < x.length by omega),
          rdRev_eq (show 0 < x.length by omega), C_bind_ok, C_pure]
        rw [ext_arefl_lo x (p := (x.length : ℤ) + ((0 + 2 * (x.length - 1) * t : ℕ) : ℤ) - 1)
            (q := t) (k := x.length - 1) (by omega) (by omega)
            (by push_cast [Nat.cast_sub hN]; ring)]
        by_cases hu : 1 + u = x.length - 1
        · rw [ext_arefl_lo x
            (p := (x.length : ℤ) + ((0 + 2 * (x.length - 1) * t + u : ℕ) : ℤ))
            (q := t + 1) (k := 0) (by omega) (by omega)
            (by have hu' : (u : ℤ) = x.length - 2 := by omega
                push_cast [Nat.cast_sub hN]; rw [hu']; ring)]
          congr 1
          rw [show x.length - 1 - (1 + u) = 0 by omega, Nat.sub_zero]
          module
        · rw [ext_arefl_hi x
            (p := (x.length : ℤ) + ((0 + 2 * (x.length - 1) * t + u : ℕ) : ℤ))
            (q := t) (k := x.length - 1 - (1 + u)) (by omega) (by omega) (by omega)
            (by rw [show ((x.length - 1 - (1 + u) : ℕ) : ℤ) = x.length - 1 - 1 - u by omega]
                push_cast [Nat.cast_sub hN]; ring)]
          congr 1
          rw [Nat.sub_zero]
          module) (by
        intro t u a b
        simp only [rd_eq (show 1 + u < x.length by omega),
          rd_eq (show 0 < x.length by omega), C_bind_ok, C_pure]
        rw [ext_arefl_lo x
            (p := (x.length : ℤ) + ((0 + 2 * (x.length - 1) * t + (x.length - 1) : ℕ) : ℤ) - 1)
            (q := t + 1) (k := 0) (by omega) (by omega)
            (by push_cast [Nat.cast_sub hN]; ring),
          ext_arefl_lo x
            (p := (x.length : ℤ) + ((0 + 2 * (x.length - 1) * t + (x.length - 1) + u : ℕ) : ℤ))
            (q := t + 1) (k := 1 + u) (by omega) (by omega)
            (by push_cast [Nat.cast_sub hN]; ring)]
        congr 1
        module)
      (fun j hj => ⟨i - x.length - j, sub3_eq (by omega), by omega, rfl⟩) (by omega) (by omega)
    have hw0 : ext .antireflect x ((x.length : ℤ) + ((0 : ℕ) : ℤ) - 1) =
        x.getD (x.length - 1) 0 := by
      rw [show ((x.length : ℤ) + ((0 : ℕ) : ℤ) - 1) = ((x.length - 1 : ℕ) : ℤ) by omega]
      exact ext_in x _ (by omega)
    simp only [hw0, rdRev_eq (show 0 < x.length by omega), C_bind_ok, range_zero, sum_empty] at h1
    rw [Nat.sub_zero] at h1 ⊢
    rw [h1]
    simp only [C_bind_ok, C_pure, h2, h3]
  | periodization => exact absurd rfl hmode

end Pywt
