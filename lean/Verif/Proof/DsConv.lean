import Verif.Proof.Switch

/-! `downsampling_convolution` (all modes except periodization) refines filtering of the extended
signal. -/

namespace Pywt

open Finset Spec

set_option linter.unusedSectionVars false

variable {R M : Type} [Ring R] [AddCommGroup M] [Module R M]

/-- State of the output loops: position `base + step*o`, first `o` outputs written. -/
def OutInv (base step L : ℕ) (h : ℕ → M) (o : ℕ) (s : ℕ × ℕ × List M) : Prop :=
  s.1 = base + step * o ∧ s.2.1 = o ∧ s.2.2.length = L ∧ o ≤ L ∧
    ∀ q < o, s.2.2[q]? = some (h q)

theorem forOut_inv {fuel base step L : ℕ} {cond : ℕ → Bool} {sumAt : ℕ → C M} {h : ℕ → M}
    {o0 : ℕ} {s : ℕ × ℕ × List M} (hI : OutInv base step L h o0 s)
    (hstep : ∀ o ≥ o0, cond (base + step * o) = true →
      o < L ∧ sumAt (base + step * o) = .ok (h o))
    (hfuel : L < fuel) :
    ∃ s' o', forOut fuel step cond sumAt s = .ok s' ∧ OutInv base step L h o' s' ∧ o0 ≤ o' ∧
      cond (base + step * o') = false := by
  have key := loop_inv (σ := ℕ × ℕ × List M) (cond := fun s => pure (cond s.1))
    (body := fun s => do
      let sum ← sumAt s.1
      let out ← wr s.2.2 s.2.1 sum
      pure (s.1 + step, s.2.1 + 1, out))
    (fun s => ∃ o, o0 ≤ o ∧ OutInv base step L h o s)
    (fun s => ∃ o, o0 ≤ o ∧ OutInv base step L h o s ∧ cond (base + step * o) = false)
    (fun s => L - s.2.1) (by
      rintro ⟨i, o', out⟩ ⟨o, ho, h1, h2, h3, h4, h5⟩
      simp only at h1 h2 h3 h5
      subst h1 h2
      by_cases hc : cond (base + step * o') = true
      · left
        obtain ⟨ha, hb⟩ := hstep o' ho hc
        refine ⟨by simp [hc], _, by
          simp only [hb, C_bind_ok, wr_eq (show o' < out.length by omega)]; rfl, ?_, ?_⟩
        · refine ⟨o' + 1, by omega, by simp; ring, rfl, by simp [h3], by omega, ?_⟩
          intro q hq
          simp only
          rw [List.getElem?_set]
          split
          · rename_i hqe; subst hqe; simp [h3, ha]
          · exact h5 q (by omega)
        · simp only; omega
      · right
        simp only [Bool.not_eq_true] at hc
        exact ⟨by simp [hc], o', ho, ⟨rfl, rfl, h3, h4, h5⟩, hc⟩) fuel s ⟨o0, le_rfl, hI⟩ (by
      have := hI.2.1
      omega)
  obtain ⟨s', h1, o', h2, h3, h4⟩ := key
  exact ⟨s', o', h1, h3, h2, h4⟩

theorem OutInv.final {base step L : ℕ} {h : ℕ → M} {s : ℕ × ℕ × List M} {o : ℕ}
    (hI : OutInv base step L h o s) (ho : o = L) : s.2.2 = (List.range L).map h := by
  obtain ⟨_, _, h3, _, h5⟩ := hI
  subst ho
  apply List.ext_getElem?
  intro q
  by_cases hq : q < o
  · rw [h5 q hq]; simp [hq]
  · rw [List.getElem?_eq_none (by omega), List.getElem?_eq_none (by simp; omega)]

/-- The direct part of the sums, all taps for which `0 ≤ i - j < N`. -/
theorem direct_eq {fuel : ℕ} {x : List M} {f : List R} {e : ℤ → M} {i B j0 : ℕ}
    {more : ℕ → C Bool} {s0 : M}
    (he : ∀ k, k < x.length → e (k : ℤ) = x.getD k 0)
    (hmore : ∀ j ≤ max j0 B, more j = .ok (decide (j < B)))
    (hB : B ≤ f.length) (hBi : B ≤ i + 1) (hj0 : i < j0 + x.length)
    (hs0 : s0 = ∑ l ∈ range j0, f.getD l 0 • e ((i : ℤ) - l)) (hfuel : B < fuel) :
    forJ fuel 1 more (fun j => do prod f j x (← sub i j)) (j0, s0) =
      .ok (max j0 B, ∑ l ∈ range (max j0 B), f.getD l 0 • e ((i : ℤ) - l)) := by
  apply forJ_eq (g := fun l => f.getD l 0 • e ((i : ℤ) - l)) hmore _ hs0 hfuel
  intro j h1 h2
  rw [sub_eq (by omega), C_bind_ok, prod_eq (by omega) (by omega),
    show (i : ℤ) - j = ((i - j : ℕ) : ℤ) by omega, he _ (by omega)]

/-- The mode the kernel effectively uses (L142-143). -/
theorem ext_smooth_short {x : List M} (h : x.length < 2) (p : ℤ) (hx : 1 ≤ x.length) :
    ext .constant x p = ext .smooth x p := by
  have h1 : (x.length : ℤ) < 2 := by omega
  have h2 : (x.length : ℤ) = 1 := by omega
  unfold Spec.ext
  simp only [h2]
  rw [if_pos (show (1 : ℤ) < 2 by norm_num)]
  split
  · rfl
  · split
    · rw [show p = 0 by omega]
    · rfl

theorem dsConvBody_eq {fuel : ℕ} {mode : Mode} {x : List M} {f : List R} {out : List M}
    {step : ℕ} (hmode : mode ≠ .periodization) (hN : 1 ≤ x.length)
    (hN2 : mode = .reflect ∨ mode = .antireflect → 2 ≤ x.length)
    (hF : 1 ≤ f.length) (hstep : 1 ≤ step)
    (hout : out.length = (x.length + f.length - 1) / step)
    (hfuel : x.length + f.length < fuel) :
    dsConvBody fuel x f out step mode =
      .ok ((List.range ((x.length + f.length - 1) / step)).map fun o : ℕ =>
        conv f (ext mode x) ((step : ℤ) * o + (step - 1))) := by
  set m := if mode = .smooth ∧ x.length < 2 then Mode.constant else mode with hm
  have hm1 : m ≠ .periodization := by
    rw [hm]; split <;> simp_all
  have hm2 : KernelOK m x.length := by
    refine ⟨hN, ?_⟩
    rw [hm]
    split
    · simp
    · rename_i h
      intro h'
      rcases h' with h' | h' | h'
      · exact hN2 (Or.inl h')
      · exact hN2 (Or.inr h')
      · simp only [h', true_and, not_lt] at h; exact h
  have hext : ext mode x = ext m x := by
    rw [hm]
    split
    · rename_i h
      funext p
      rw [ext_smooth_short h.2 p hN, h.1]
    · rfl
  have he : ∀ k, k < x.length → ext m x (k : ℤ) = x.getD k 0 := fun k hk => ext_in x m hk
  set L := (x.length + f.length - 1) / step with hL
  set h : ℕ → M := fun o => conv f (ext m x) ((step : ℤ) * o + (step - 1)) with hh
  have hcast : ∀ o : ℕ, ((step - 1 + step * o : ℕ) : ℤ) = (step : ℤ) * o + (step - 1) := by
    intro o; push_cast [Nat.cast_sub hstep]; ring
  have hLt : ∀ o, step - 1 + step * o < x.length + f.length - 1 → o < L := by
    intro o ho
    rw [hL, Nat.lt_div_iff_mul_lt (by omega)]
    have : o * step = step * o := mul_comm _ _
    omega
  have hLe : ∀ o, ¬ (step - 1 + step * o < x.length + f.length - 1) → L ≤ o := by
    intro o ho
    by_contra hc
    rw [not_le, hL, Nat.lt_div_iff_mul_lt (by omega)] at hc
    have : o * step = step * o := mul_comm _ _
    omega
  have hle : ∀ (o : ℕ), h o = ∑ l ∈ range f.length,
      f.getD l 0 • ext m x (((step - 1 + step * o : ℕ) : ℤ) - l) := by
    intro o; simp only [hh, conv, hcast]
  unfold dsConvBody
  simp only [sub_eq hstep, C_bind_ok]
  rw [← hm]
  -- left overhang
  obtain ⟨s1, o1, e1, i1, -, c1⟩ := forOut_inv (fuel := fuel) (base := step - 1) (step := step)
    (L := L) (h := h) (o0 := 0)
    (s := (step - 1, 0, out)) (cond := fun i => decide (i < f.length) && decide (i < x.length))
    (sumAt := fun i => do
      let s ← forJ fuel 1 (fun j => pure (decide (j ≤ i)))
        (fun j => do prod f j x (← sub i j)) (0, (0 : M))
      let s ← leftSwitch fuel m x f s
      pure s.2)
    ⟨by simp, rfl, hout, by omega, by simp⟩ (by
      intro o _ hc
      simp only [Bool.and_eq_true, decide_eq_true_eq] at hc
      refine ⟨hLt o (by omega), ?_⟩
      rw [direct_eq (B := step - 1 + step * o + 1) (e := ext m x) he
        (by intro j _; simp) (by omega) le_rfl (by omega) (by simp) (by omega)]
      simp only [C_bind_ok, Nat.zero_max]
      obtain ⟨j', hj'⟩ := leftSwitch_eq (fuel := fuel) (i := step - 1 + step * o) hm1 hm2
        hc.1 hfuel
      rw [hj', hle o]; rfl) (by
      rw [hL]
      have := Nat.div_le_self (x.length + f.length - 1) step
      omega)
  rw [e1]
  simp only [C_bind_ok]
  simp only [Bool.and_eq_false_iff, decide_eq_false_iff_not] at c1
  -- centre, N ≥ F
  obtain ⟨s2, o2, e2, i2, l2, c2⟩ := forOut_inv (fuel := fuel) (base := step - 1) (step := step)
    (L := L) (h := h) (o0 := o1)
    (s := s1) (cond := fun i => decide (i < x.length))
    (sumAt := fun i => do
      let s ← forJ fuel 1 (ltF f.length) (fun j => do prod f j x (← sub i j)) (0, (0 : M))
      pure s.2)
    i1 (by
      intro o ho hc
      simp only [decide_eq_true_eq] at hc
      have hmono : step * o1 ≤ step * o := Nat.mul_le_mul_left _ ho
      refine ⟨hLt o (by omega), ?_⟩
      rw [direct_eq (B := f.length) (e := ext m x) he
        (fun j _ => ltF_eq _ _) le_rfl (by omega) (by omega) (by simp) (by omega)]
      simp only [C_bind_ok, Nat.zero_max]
      rw [hle o]; rfl) (by
      rw [hL]
      have := Nat.div_le_self (x.length + f.length - 1) step
      omega)
  rw [e2]
  simp only [C_bind_ok]
  simp only [decide_eq_false_iff_not] at c2
  -- centre, F > N
  obtain ⟨s3, o3, e3, i3, l3, c3⟩ := forOut_inv (fuel := fuel) (base := step - 1) (step := step)
    (L := L) (h := h) (o0 := o2)
    (s := s2) (cond := fun i => decide (i < f.length))
    (sumAt := fun i => do
      let s ← rightSwitch fuel m x f i
      let s ← forJ fuel 1 (fun j => pure (decide (j ≤ i))) (fun j => do prod f j x (← sub i j)) s
      let s ← leftSwitch fuel m x f s
      pure s.2)
    i2 (by
      intro o ho hc
      simp only [decide_eq_true_eq] at hc
      have hmono : step * o2 ≤ step * o := Nat.mul_le_mul_left _ ho
      refine ⟨hLt o (by omega), ?_⟩
      rw [rightSwitch_eq hm1 hm2 (by omega) (by omega) hfuel]
      simp only [C_bind_ok]
      rw [direct_eq (B := step - 1 + step * o + 1) (e := ext m x) he
        (by intro j _; simp) (by omega) le_rfl (by omega) rfl (by omega)]
      simp only [C_bind_ok]
      rw [max_eq_right (by omega)]
      obtain ⟨j', hj'⟩ := leftSwitch_eq (fuel := fuel) (i := step - 1 + step * o) hm1 hm2
        hc hfuel
      rw [hj', hle o]; rfl) (by
      rw [hL]
      have := Nat.div_le_self (x.length + f.length - 1) step
      omega)
  rw [e3]
  simp only [C_bind_ok]
  simp only [decide_eq_false_iff_not] at c3
  rw [sub_eq (by omega)]
  simp only [C_bind_ok]
  -- right overhang
  obtain ⟨s4, o4, e4, i4, l4, c4⟩ := forOut_inv (fuel := fuel) (base := step - 1) (step := step)
    (L := L) (h := h) (o0 := o3)
    (s := s3) (cond := fun i => decide (i < x.length + f.length - 1))
    (sumAt := fun i => do
      let s ← rightSwitch fuel m x f i
      let s ← forJ fuel 1 (ltF f.length) (fun j => do prod f j x (← sub i j)) s
      pure s.2)
    i3 (by
      intro o ho hc
      simp only [decide_eq_true_eq] at hc
      have hmono : step * o3 ≤ step * o := Nat.mul_le_mul_left _ ho
      have hmono2 : step * o2 ≤ step * o3 := Nat.mul_le_mul_left _ l3
      refine ⟨hLt o (by omega), ?_⟩
      rw [rightSwitch_eq hm1 hm2 (by omega) (by omega) hfuel]
      simp only [C_bind_ok]
      rw [direct_eq (B := f.length) (e := ext m x) he
        (fun j _ => ltF_eq _ _) le_rfl (by omega) (by omega) rfl (by omega)]
      simp only [C_bind_ok]
      rw [max_eq_right (by omega), hle o]; rfl) (by
      rw [hL]
      have := Nat.div_le_self (x.length + f.length - 1) step
      omega)
  rw [e4]
  simp only [C_bind_ok, C_pure]
  simp only [decide_eq_false_iff_not] at c4
  rw [i4.final (le_antisymm i4.2.2.2.1 (hLe _ c4)), hext]

end Pywt
