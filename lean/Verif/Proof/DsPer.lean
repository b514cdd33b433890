import Verif.Proof.DsConv

/-! `downsampling_convolution_periodization` refines circular filtering, both for the decimated
transform (`fstep = 1`, padding to a multiple of `step`) and for the stationary transform
(`step = 1`, zero-upsampled filter visited with stride `fstep`). -/

namespace Pywt

open Finset Spec

set_option linter.unusedSectionVars false

variable {R M : Type} [Ring R] [AddCommGroup M] [Module R M]

/-- Circular extension of `x` followed by `pd` copies of its last sample. -/
def perExt (pd : ℕ) (x : List M) (p : ℤ) : M :=
  (x ++ List.replicate pd (x.getD (x.length - 1) 0)).getD (p % ((x.length + pd : ℕ) : ℤ)).toNat 0

theorem perExt_of {pd : ℕ} {x : List M} {p q : ℤ} {k : ℕ} (hk : k < x.length)
    (hp : p = ((x.length + pd : ℕ) : ℤ) * q + k) : perExt pd x p = x.getD k 0 := by
  have hr : p % ((x.length + pd : ℕ) : ℤ) = k := emod_of hp (by omega) (by push_cast; omega)
  rw [perExt, hr, Int.toNat_natCast, List.getD_append _ _ _ _ hk]

theorem perExt_pad {pd : ℕ} {x : List M} {p q : ℤ} {k : ℕ} (hk : k < pd)
    (hp : p = ((x.length + pd : ℕ) : ℤ) * q + (x.length + k : ℕ)) :
    perExt pd x p = x.getD (x.length - 1) 0 := by
  have hr : p % ((x.length + pd : ℕ) : ℤ) = (x.length + k : ℕ) :=
    emod_of hp (by omega) (by push_cast; omega)
  rw [perExt, hr, Int.toNat_natCast, List.getD_append_right _ _ _ _ (by omega)]
  simp [hk]

theorem sum_stride {G : ℕ → M} {s j0 : ℕ} (hs : 0 < s) (hj : s ∣ j0)
    (hG : ∀ l, ¬ s ∣ l → G l = 0) (n : ℕ) :
    ∑ l ∈ range j0, G l + ∑ t ∈ range n, G (j0 + s * t) = ∑ l ∈ range (j0 + s * n), G l := by
  induction n with
  | zero => simp
  | succ n ih =>
    rw [sum_range_succ, ← add_assoc, ih]
    have : j0 + s * (n + 1) = (j0 + s * n) + s := by ring
    rw [this, sum_range_add _ (j0 + s * n) s]
    congr 1
    obtain ⟨m, rfl⟩ : ∃ m, s = m + 1 := ⟨s - 1, by omega⟩
    rw [sum_range_succ', sum_eq_zero, zero_add, add_zero]
    intro u hu
    apply hG
    intro hd
    have h1 : (m + 1) ∣ j0 + (m + 1) * n := Dvd.dvd.add hj (dvd_mul_right _ _)
    have h2 := (Nat.dvd_add_right h1).mp hd
    have := Nat.le_of_dvd (by omega) h2
    simp only [mem_range] at hu
    omega

theorem sum_tail {G : ℕ → M} {F j : ℕ} (hG : ∀ l, F ≤ l → G l = 0) (hj : F ≤ j) :
    ∑ l ∈ range j, G l = ∑ l ∈ range F, G l := by
  obtain ⟨m, rfl⟩ : ∃ m, j = F + m := ⟨j - F, by omega⟩
  rw [sum_range_add, sum_eq_zero (s := range m), add_zero]
  intro u _
  exact hG _ (by omega)

/-- When the kernel may be used with stride `fstep` over the filter. -/
def StrideOK (f : List R) (N padding fstep : ℕ) : Prop :=
  fstep = 1 ∨ (padding = 0 ∧ 1 < fstep ∧ fstep ∣ N ∧ ∀ l, ¬ fstep ∣ l → f.getD l 0 = 0)

theorem StrideOK.pos {f : List R} {N padding fstep : ℕ} (h : StrideOK f N padding fstep) :
    0 < fstep := by rcases h with h | h <;> omega

theorem StrideOK.zero {f : List R} {N padding fstep : ℕ} (h : StrideOK f N padding fstep)
    {l : ℕ} (hl : ¬ fstep ∣ l) : f.getD l 0 = 0 := by
  rcases h with h | h
  · subst h; simp at hl
  · exact h.2.2.2 l hl

/-- Strided direct part of the sums. -/
theorem direct_stride {fuel : ℕ} {x : List M} {f : List R} {e : ℤ → M} {i B j0 s : ℕ}
    {more : ℕ → C Bool} {s0 : M} (hs : 0 < s) (hdvd : s ∣ j0)
    (hz : ∀ l, ¬ s ∣ l → f.getD l 0 = 0)
    (he : ∀ k, k < x.length → e (k : ℤ) = x.getD k 0)
    (hmore : ∀ j, more j = .ok (decide (j < B)))
    (hB : B ≤ f.length) (hBi : B ≤ i + 1) (hj0 : i < j0 + x.length)
    (hs0 : s0 = ∑ l ∈ range j0, f.getD l 0 • e ((i : ℤ) - l)) (hfuel : B < fuel) :
    ∃ j1, forJ fuel s more (fun j => do prod f j x (← sub i j)) (j0, s0) =
      .ok (j1, ∑ l ∈ range j1, f.getD l 0 • e ((i : ℤ) - l)) ∧ s ∣ j1 ∧ B ≤ j1 ∧
      (j1 = j0 ∨ j1 < B + s) := by
  obtain ⟨n, h1, h2, h3⟩ := forJ_exists (fuel := fuel) (j0 := j0) (B := B) (s := s)
    (more := more) (term := fun j => do prod f j x (← sub i j))
    (g := fun l => f.getD l 0 • e ((i : ℤ) - l)) (s0 := s0) hs (fun t _ => hmore _) (by
      intro t ht
      rw [sub_eq (by omega), C_bind_ok, prod_eq (by omega) (by omega),
        show (i : ℤ) - ((j0 + s * t : ℕ) : ℤ) = ((i - (j0 + s * t) : ℕ) : ℤ) by omega,
        he _ (by omega)]) hfuel
  refine ⟨j0 + s * n, ?_, Dvd.dvd.add hdvd (dvd_mul_right _ _), h3, ?_⟩
  · rw [h1, hs0, sum_stride hs hdvd]
    intro l hl
    rw [hz l hl, zero_smul]
  · rcases Nat.eq_zero_or_pos n with h | h
    · left; subst h; simp
    · right
      have := h2 (n - 1) (by omega)
      have e : s * n = s * (n - 1) + s := by
        obtain ⟨m, rfl⟩ : ∃ m, n = m + 1 := ⟨n - 1, by omega⟩
        simp only [Nat.add_sub_cancel]; ring
      omega

theorem perLeft_eq {fuel padding fstep : ℕ} {x : List M} {f : List R} {i j1 : ℕ}
    (hok : StrideOK f x.length padding fstep) (hN : 1 ≤ x.length) (hi : i < f.length)
    (hj1 : fstep ∣ j1) (hj2 : i + 1 ≤ j1) (hj3 : j1 < i + 1 + fstep)
    (hfuel : x.length + f.length + padding < fuel) :
    ∃ j2, perLeft fuel padding fstep (j1 - (i + 1)) x f
        (j1, ∑ l ∈ range j1, f.getD l 0 • perExt padding x ((i : ℤ) - l)) =
      .ok (j2, ∑ l ∈ range f.length, f.getD l 0 • perExt padding x ((i : ℤ) - l)) := by
  have hGF : ∀ l, f.length ≤ l → f.getD l 0 • perExt padding x ((i : ℤ) - l) = 0 := by
    intro l hl
    rw [List.getD_eq_default _ _ hl, zero_smul]
  rcases hok with rfl | ⟨rfl, hf1, ⟨m, hm⟩, hz⟩
  · have : j1 = i + 1 := by omega
    subst this
    refine ⟨f.length, ?_⟩
    simp only [Nat.sub_self]
    refine while_two (P := padding + x.length) (by omega) (by omega) (by omega)
      (fun j s _ => ltF_eq _ _) (fun j _ => ltF_eq _ _) ?_ ?_ (by omega) (by omega) (by omega)
    · intro t u h1 h2
      rw [prodRev_eq h2 (by omega), perExt_pad (k := padding - 1 - u) (q := -t - 1) (by omega) (by
        rw [show ((x.length + (padding - 1 - u) : ℕ) : ℤ) = x.length + padding - 1 - u by omega]
        push_cast; ring)]
      simp
    · intro t u h1 h2
      rw [prodRev_eq h2 (by omega), perExt_of (k := x.length - 1 - (0 + u)) (q := -t - 1)
        (by omega) (by
        rw [show ((x.length - 1 - (0 + u) : ℕ) : ℤ) = x.length - 1 - u by omega]
        simp only [Nat.sub_zero]
        push_cast; ring)]
  · set G : ℕ → M := fun l => f.getD l 0 • perExt 0 x ((i : ℤ) - l) with hG
    have hGz : ∀ l, ¬ fstep ∣ l → G l = 0 := by
      intro l hl; simp only [hG, hz l hl, zero_smul]
    have key := loop_inv (σ := ℕ × M) (cond := fun s => ltF f.length s.1)
      (body := fun s => do
        let s ← forKJ fuel 0 (j1 - (i + 1)) fstep fstep (ltF f.length)
          (fun j _ => prodRev f j x 0) s
        forKJ fuel x.length (j1 - (i + 1)) fstep fstep (ltF f.length)
          (fun j k => prodRev f j x k) s)
      (fun s => (∃ j, f.length ≤ j ∧ s = (j, ∑ l ∈ range j, G l)) ∨
        ∃ t, s = (j1 + x.length * t, ∑ l ∈ range (j1 + x.length * t), G l))
      (fun s => ∃ j2, s = (j2, ∑ l ∈ range f.length, G l)) (fun s => f.length - s.1) (by
        rintro s hs
        by_cases hc : s.1 < f.length
        · left
          rcases hs with ⟨j, hj, rfl⟩ | ⟨t, rfl⟩
          · simp only at hc; omega
          · simp only at hc
            refine ⟨by simp [ltF, hc], ?_⟩
            obtain ⟨n0, e0, c0, -⟩ := forKJ_exists (fuel := fuel) (N := 0) (k0 := j1 - (i + 1))
              (j0 := j1 + x.length * t) (B := f.length) (s := fstep) (more := ltF f.length)
              (term := fun j _ => prodRev f j x 0) (g := G)
              (s0 := ∑ l ∈ range (j1 + x.length * t), G l) (by omega)
              (by intro t _ h; omega) (by intro t h; omega) (by omega)
            have hn0 : n0 = 0 := by
              by_contra h
              have := c0 0 (by omega)
              omega
            subst hn0
            simp only [mul_zero, add_zero, range_zero, sum_empty] at e0
            simp only [e0, C_bind_ok]
            have hdv : fstep ∣ j1 + x.length * t :=
              Dvd.dvd.add hj1 (Dvd.dvd.mul_right ⟨m, hm⟩ t)
            obtain ⟨n, e1, c1, d1⟩ := forKJ_exists (fuel := fuel) (N := x.length)
              (k0 := j1 - (i + 1))
              (j0 := j1 + x.length * t) (B := f.length) (s := fstep) (more := ltF f.length)
              (term := fun j k => prodRev f j x k) (g := G)
              (s0 := ∑ l ∈ range (j1 + x.length * t), G l) (by omega)
              (by intro t _ h; rfl) (by
                intro u h1 h2
                simp only [hG]
                rw [prodRev_eq h2 h1, perExt_of (k := x.length - 1 - (j1 - (i + 1) + fstep * u))
                  (q := -t - 1) (by omega) (by
                  rw [show ((x.length - 1 - (j1 - (i + 1) + fstep * u) : ℕ) : ℤ) =
                    x.length - 1 - (j1 - (i + 1) + fstep * u) by
                      rw [Nat.cast_sub (by omega), Nat.cast_add, Nat.cast_sub (by omega),
                        Nat.cast_sub hj2]
                      push_cast; ring]
                  push_cast; ring)]) (by omega)
            rw [e1, sum_stride (by omega) hdv hGz]
            have hnpos : 0 < n := by
              rcases Nat.eq_zero_or_pos n with h | h
              · subst h
                have : 1 ≤ m := by
                  rcases Nat.eq_zero_or_pos m with h | h
                  · subst h; omega
                  · exact h
                have : fstep * 1 ≤ fstep * m := Nat.mul_le_mul_left _ this
                omega
              · exact h
            refine ⟨_, rfl, ?_, ?_⟩
            · rcases d1 with d1 | d1
              · right
                have hnm : n = m := by
                  have h1 := c1 (n - 1) (by omega)
                  have h2 : n - 1 < m := by
                    have : fstep * (n - 1) < fstep * m := by omega
                    exact lt_of_mul_lt_mul_left this (Nat.zero_le _)
                  have h3 : m < n + 1 := by
                    have : fstep * m < fstep * (n + 1) := by
                      have : fstep * (n + 1) = fstep * n + fstep := by ring
                      omega
                    exact lt_of_mul_lt_mul_left this (Nat.zero_le _)
                  omega
                refine ⟨t + 1, ?_⟩
                have : j1 + x.length * t + fstep * n = j1 + x.length * (t + 1) := by
                  rw [hnm, ← hm]; ring
                rw [this]
              · left; exact ⟨_, d1, rfl⟩
            · simp only
              have : 0 < fstep * n := Nat.mul_pos (by omega) hnpos
              omega
        · right
          refine ⟨by simp [ltF, hc], s.1, ?_⟩
          rcases hs with ⟨j, hj, rfl⟩ | ⟨t, rfl⟩
          · simp only at hc ⊢; rw [sum_tail hGF (by omega)]
          · simp only at hc ⊢; rw [sum_tail hGF (by omega)])
      fuel (j1, ∑ l ∈ range j1, G l) (Or.inr ⟨0, by simp⟩) (by simp only; omega)
    obtain ⟨s', h1, j2, rfl⟩ := key
    exact ⟨j2, h1⟩

theorem perRight_eq {fuel padding : ℕ} {x : List M} {f : List R} {i : ℕ}
    (hN : 1 ≤ x.length) (hi : x.length ≤ i) (hi2 : i < x.length + f.length)
    (hfuel : x.length + f.length + padding < fuel) :
    perRight fuel padding x f i =
      .ok (i + 1 - x.length,
        ∑ l ∈ range (i + 1 - x.length), f.getD l 0 • perExt padding x ((i : ℤ) - l)) := by
  have hmore := geN_lt hN hi
  rw [← sum_flip hi]
  unfold perRight
  refine while_two (P := padding + x.length)
      (g := fun t => f.getD (i - x.length - t) 0 • perExt padding x ((x.length : ℤ) + t))
      (j0 := 0)
      (by omega) (by omega) (by omega) (fun j s h => hmore j h) hmore ?_ ?_
      (by omega) (by omega) (by omega)
  · intro t u h1 h2
    rw [sub3_eq (by omega), C_bind_ok, prodRev_eq (by omega) (by omega),
          perExt_pad (q := t) (k := 0 + u) (by omega) (by push_cast; ring)]
    simp
  · intro t u h1 h2
    rw [sub3_eq (by omega), C_bind_ok, prod_eq (by omega) (by omega),
          perExt_of (q := t + 1) (k := 0 + u) (by omega) (by
            rw [Nat.sub_zero]; push_cast; ring)]

theorem perAlign_eq {fstep j : ℕ} {G : ℕ → M} (hs : 0 < fstep) (hG : ∀ l, ¬ fstep ∣ l → G l = 0) :
    ∃ j', perAlign fstep (j, ∑ l ∈ range j, G l) = .ok (j', ∑ l ∈ range j', G l) ∧
      fstep ∣ j' ∧ j ≤ j' ∧ j' < j + fstep := by
  unfold perAlign
  have hlt := Nat.mod_lt j hs
  by_cases h1 : 1 < fstep
  · simp only [h1, if_true]
    rw [sub_eq hlt.le]
    simp only [C_bind_ok, C_pure]
    by_cases h0 : j % fstep = 0
    · refine ⟨j, ?_, Nat.dvd_of_mod_eq_zero h0, le_rfl, by omega⟩
      rw [h0]; simp
    · have hm : (fstep - j % fstep) % fstep = fstep - j % fstep := Nat.mod_eq_of_lt (by omega)
      rw [hm]
      refine ⟨j + (fstep - j % fstep), ?_, ?_, by omega, by omega⟩
      · rw [sum_range_add]
        rw [sum_eq_zero (s := range (fstep - j % fstep)), add_zero]
        intro u hu
        simp only [mem_range] at hu
        apply hG
        intro hd
        have h2 : (j + u) % fstep = 0 := Nat.mod_eq_zero_of_dvd hd
        have h3 : (j + u) % fstep = j % fstep + u := by
          rw [Nat.add_mod, Nat.mod_eq_of_lt (show u < fstep by omega),
            Nat.mod_eq_of_lt (by omega)]
        omega
      · have h4 := Nat.div_add_mod j fstep
        refine ⟨j / fstep + 1, ?_⟩
        rw [mul_add, mul_one]
        omega
  · have : fstep = 1 := by omega
    subst this
    exact ⟨j, by simp, one_dvd _, le_rfl, by omega⟩

theorem perKStart_eq {fstep i j : ℕ} (hs : 0 < fstep) (h1 : i + 1 ≤ j) (h2 : j < i + 1 + fstep) :
    perKStart fstep i j = .ok (j - (i + 1)) := by
  unfold perKStart
  split
  · rw [sub_eq h1]
  · rw [show j - (i + 1) = 0 by omega]; rfl

theorem dsConvPer_eq {fuel : ℕ} {x : List M} {f : List R} {out : List M} {step fstep padding : ℕ}
    (hN : 1 ≤ x.length) (hF : 1 ≤ f.length) (hstep : 1 ≤ step)
    (hpd : padding = (step - x.length % step) % step)
    (hok : StrideOK f x.length padding fstep)
    (hout : out.length = (x.length + step - 1) / step)
    (hfuel : x.length + f.length + step < fuel) :
    dsConvPer fuel x f out step fstep =
      .ok ((List.range ((x.length + step - 1) / step)).map fun o : ℕ =>
        conv f (perExt padding x) (((f.length / 2 : ℕ) : ℤ) + step * o)) := by
  have hs := hok.pos
  have hpdlt : padding < step := by rw [hpd]; exact Nat.mod_lt _ (by omega)
  have he : ∀ k, k < x.length → perExt padding x (k : ℤ) = x.getD k 0 :=
    fun k hk => perExt_of (q := 0) hk (by ring)
  have hz : ∀ l, ¬ fstep ∣ l → f.getD l 0 = 0 := fun l hl => hok.zero hl
  have hfs : fstep ≤ x.length := by
    rcases hok with h | h
    · omega
    · exact Nat.le_of_dvd hN h.2.2.1
  set L := (x.length + step - 1) / step with hL
  set h : ℕ → M := fun o => conv f (perExt padding x) (((f.length / 2 : ℕ) : ℤ) + step * o) with hh
  have hLt : ∀ o, f.length / 2 + step * o < x.length + f.length / 2 → o < L := by
    intro o ho
    rw [hL, Nat.lt_div_iff_mul_lt (by omega)]
    have : o * step = step * o := mul_comm _ _
    omega
  have hLe : ∀ o, ¬ (f.length / 2 + step * o < x.length + f.length / 2) → L ≤ o := by
    intro o ho
    by_contra hc
    rw [not_le, hL, Nat.lt_div_iff_mul_lt (by omega)] at hc
    have : o * step = step * o := mul_comm _ _
    omega
  have hLf : L < fuel := by
    rw [hL]
    have := Nat.div_le_self (x.length + step - 1) step
    omega
  have hle : ∀ (o : ℕ), h o = ∑ l ∈ range f.length,
      f.getD l 0 • perExt padding x (((f.length / 2 + step * o : ℕ) : ℤ) - l) := by
    intro o; simp only [hh, conv]; push_cast; rfl
  unfold dsConvPer
  have hmod : x.length % step ≤ step := (Nat.mod_lt _ (by omega)).le
  simp only [sub_eq hmod, C_bind_ok]
  rw [← hpd]
  obtain ⟨s1, o1, e1, i1, -, c1⟩ := forOut_inv (fuel := fuel) (base := f.length / 2) (step := step)
    (L := L) (h := h) (o0 := 0)
    (s := (f.length / 2, 0, out)) (cond := fun i => decide (i < f.length) && decide (i < x.length))
    (sumAt := fun i => do
      let s ← forJ fuel fstep (fun j => pure (decide (j ≤ i)))
        (fun j => do prod f j x (← sub i j)) (0, (0 : M))
      let kStart ← perKStart fstep i s.1
      let s ← perLeft fuel padding fstep kStart x f s
      pure s.2)
    ⟨by simp, rfl, hout, by omega, by simp⟩ (by
      intro o _ hc
      simp only [Bool.and_eq_true, decide_eq_true_eq] at hc
      refine ⟨hLt o (by omega), ?_⟩
      obtain ⟨j1, a1, a2, a3, a4⟩ := direct_stride (fuel := fuel) (j0 := 0) (s0 := 0)
        (more := fun j => pure (decide (j ≤ f.length / 2 + step * o)))
        (B := f.length / 2 + step * o + 1) (i := f.length / 2 + step * o) hs
        (dvd_zero _) hz he (by intro j; simp) (by omega) le_rfl (by omega)
        (by simp) (by omega)
      rw [a1]
      simp only [C_bind_ok]
      rw [perKStart_eq hs a3 (by omega)]
      simp only [C_bind_ok]
      obtain ⟨j2, b⟩ := perLeft_eq hok hN hc.1 a2 a3 (by omega)
        (show x.length + f.length + padding < fuel by omega)
      rw [b, hle o]; rfl) hLf
  rw [e1]
  simp only [C_bind_ok]
  simp only [Bool.and_eq_false_iff, decide_eq_false_iff_not] at c1
  obtain ⟨s2, o2, e2, i2, l2, c2⟩ := forOut_inv (fuel := fuel) (base := f.length / 2) (step := step)
    (L := L) (h := h) (o0 := o1)
    (s := s1) (cond := fun i => decide (i < x.length))
    (sumAt := fun i => do
      let s ← forJ fuel fstep (ltF f.length) (fun j => do prod f j x (← sub i j)) (0, (0 : M))
      pure s.2)
    i1 (by
      intro o ho hc
      simp only [decide_eq_true_eq] at hc
      have hmono : step * o1 ≤ step * o := Nat.mul_le_mul_left _ ho
      refine ⟨hLt o (by omega), ?_⟩
      obtain ⟨j1, a1, a2, a3, a4⟩ := direct_stride (fuel := fuel) (j0 := 0) (s0 := 0)
        (more := ltF f.length)
        (B := f.length) (i := f.length / 2 + step * o) hs
        (dvd_zero _) hz he (by intro j; rfl) le_rfl (by omega) (by omega)
        (by simp) (by omega)
      rw [a1]
      simp only [C_bind_ok]
      rw [hle o, sum_tail _ a3]
      · rfl
      · intro l hl
        rw [List.getD_eq_default _ _ hl, zero_smul]) hLf
  rw [e2]
  simp only [C_bind_ok]
  simp only [decide_eq_false_iff_not] at c2
  obtain ⟨s3, o3, e3, i3, l3, c3⟩ := forOut_inv (fuel := fuel) (base := f.length / 2) (step := step)
    (L := L) (h := h) (o0 := o2)
    (s := s2) (cond := fun i => decide (i < f.length) && decide (i < x.length + f.length / 2))
    (sumAt := fun i => do
      let s ← perRight fuel padding x f i
      let s ← perAlign fstep s
      let s ← forJ fuel fstep (fun j => pure (decide (j ≤ i)))
        (fun j => do prod f j x (← sub i j)) s
      let kStart ← perKStart fstep i s.1
      let s ← perLeft fuel padding fstep kStart x f s
      pure s.2)
    i2 (by
      intro o ho hc
      simp only [Bool.and_eq_true, decide_eq_true_eq] at hc
      have hmono : step * o2 ≤ step * o := Nat.mul_le_mul_left _ ho
      refine ⟨hLt o (by omega), ?_⟩
      rw [perRight_eq hN (by omega) (by omega) (by omega)]
      simp only [C_bind_ok]
      obtain ⟨j0, p1, p2, p3, p4⟩ := perAlign_eq (j := f.length / 2 + step * o + 1 - x.length)
        (G := fun l => f.getD l 0 • perExt padding x (((f.length / 2 + step * o : ℕ) : ℤ) - l)) hs
        (by intro l hl; rw [hz l hl, zero_smul])
      rw [p1]
      simp only [C_bind_ok]
      obtain ⟨j1, a1, a2, a3, a4⟩ := direct_stride (fuel := fuel) (j0 := j0)
        (more := fun j => pure (decide (j ≤ f.length / 2 + step * o)))
        (B := f.length / 2 + step * o + 1) (i := f.length / 2 + step * o) hs
        p2 hz he (by intro j; simp) (by omega) le_rfl (by omega)
        rfl (by omega)
      rw [a1]
      simp only [C_bind_ok]
      rw [perKStart_eq hs a3 (by omega)]
      simp only [C_bind_ok]
      obtain ⟨j2, b⟩ := perLeft_eq hok hN hc.1 a2 a3 (by omega)
        (show x.length + f.length + padding < fuel by omega)
      rw [b, hle o]; rfl) hLf
  rw [e3]
  simp only [C_bind_ok]
  simp only [Bool.and_eq_false_iff, decide_eq_false_iff_not] at c3
  obtain ⟨s4, o4, e4, i4, l4, c4⟩ := forOut_inv (fuel := fuel) (base := f.length / 2) (step := step)
    (L := L) (h := h) (o0 := o3)
    (s := s3) (cond := fun i => decide (i < x.length + f.length / 2))
    (sumAt := fun i => do
      let s ← perRight fuel padding x f i
      let s ← perAlign fstep s
      let s ← forJ fuel fstep (ltF f.length) (fun j => do prod f j x (← sub i j)) s
      pure s.2)
    i3 (by
      intro o ho hc
      simp only [decide_eq_true_eq] at hc
      have hmono : step * o3 ≤ step * o := Nat.mul_le_mul_left _ ho
      have hmono2 : step * o2 ≤ step * o3 := Nat.mul_le_mul_left _ l3
      refine ⟨hLt o (by omega), ?_⟩
      rw [perRight_eq hN (by omega) (by omega) (by omega)]
      simp only [C_bind_ok]
      obtain ⟨j0, p1, p2, p3, p4⟩ := perAlign_eq (j := f.length / 2 + step * o + 1 - x.length)
        (G := fun l => f.getD l 0 • perExt padding x (((f.length / 2 + step * o : ℕ) : ℤ) - l)) hs
        (by intro l hl; rw [hz l hl, zero_smul])
      rw [p1]
      simp only [C_bind_ok]
      obtain ⟨j1, a1, a2, a3, a4⟩ := direct_stride (fuel := fuel) (j0 := j0)
        (more := ltF f.length)
        (B := f.length) (i := f.length / 2 + step * o) hs
        p2 hz he (by intro j; rfl) le_rfl (by omega) (by omega)
        rfl (by omega)
      rw [a1]
      simp only [C_bind_ok]
      rw [hle o, sum_tail _ a3]
      · rfl
      · intro l hl
        rw [List.getD_eq_default _ _ hl, zero_smul]) hLf
  rw [e4]
  simp only [C_bind_ok, C_pure]
  simp only [decide_eq_false_iff_not] at c4
  rw [i4.final (le_antisymm i4.2.2.2.1 (hLe _ c4))]

theorem perExt_two (x : List M) (hN : 1 ≤ x.length) :
    perExt ((2 - x.length % 2) % 2) x = ext .periodization x := by
  funext p
  unfold perExt Spec.ext
  simp only [evenPad]
  rcases Nat.mod_two_eq_zero_or_one x.length with h | h
  · simp [h, at']
  · simp [h, at']

theorem perExt_zero (x : List M) : perExt 0 x = ext .periodic x := by
  funext p
  simp [perExt, Spec.ext, at']

/-- The decimating kernel, every mode: it returns the analysis of the extended signal. -/
theorem dsConv_two_eq {fuel : ℕ} {mode : Mode} {x : List M} {f : List R} {out : List M}
    (hN : 1 ≤ x.length)
    (hN2 : mode = .reflect ∨ mode = .antireflect → 2 ≤ x.length)
    (hF : 1 ≤ f.length) (hout : out.length = (analysis mode f x).length)
    (hfuel : x.length + f.length + 2 < fuel) :
    dsConv fuel x f out 2 mode = .ok (analysis mode f x) := by
  unfold dsConv
  by_cases hm : mode = .periodization
  · subst hm
    simp only [if_true]
    simp only [analysis, List.length_map, List.length_range] at hout
    rw [dsConvPer_eq (padding := (2 - x.length % 2) % 2) hN hF (by omega) rfl (Or.inl rfl)
      (by rw [hout]; congr 1) hfuel, perExt_two x hN]
    simp [analysis]
  · rw [if_neg hm]
    have ha : analysis mode f x = (List.range ((x.length + f.length - 1) / 2)).map fun o : ℕ =>
        conv f (Spec.ext mode x) (2 * (o : ℤ) + 1) := by
      cases mode <;> first | rfl | exact absurd rfl hm
    rw [ha] at hout ⊢
    rw [dsConvBody_eq hm hN hN2 hF (by omega) (by simpa using hout) (by omega)]
    simp

/-- The stationary kernel. -/
theorem dsConvPer_one_eq {fuel : ℕ} {x : List M} {f : List R} {out : List M} {fstep : ℕ}
    (hN : 1 ≤ x.length) (hF : 1 ≤ f.length)
    (hok : StrideOK f x.length 0 fstep)
    (hout : out.length = x.length)
    (hfuel : x.length + f.length + 1 < fuel) :
    dsConvPer fuel x f out 1 fstep =
      .ok ((List.range x.length).map fun o : ℕ =>
        conv f (ext .periodic x) (((f.length / 2 : ℕ) : ℤ) + o)) := by
  have := dsConvPer_eq (fuel := fuel) (x := x) (f := f) (out := out) (step := 1) (fstep := fstep)
    (padding := 0) hN hF le_rfl (by simp [Nat.mod_one]) hok (by simpa using hout) hfuel
  rw [this, perExt_zero]
  simp

end Pywt
