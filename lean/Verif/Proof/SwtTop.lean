import Verif.Proof.Energy

/-! The Python-level `swt`/`iswt`. -/

namespace Pywt

open Finset Spec

set_option linter.unusedSectionVars false

variable {R M : Type} [Ring R] [AddCommGroup M] [Module R M]

theorem Wavelet.Ok.rescale {w : Wavelet R} (hw : w.Ok) (sf : R) : (w.rescale sf).Ok := by
  simpa [Wavelet.Ok, Wavelet.rescale] using hw

theorem Wavelet.Ok.normed {w : Wavelet R} (hw : w.Ok) (norm : Option R) : (w.normed norm).Ok := by
  cases norm with
  | none => exact hw
  | some sf => exact hw.rescale sf

/-- The arrays `swt` returns, in the two conventions. -/
def swtResult (w : Wavelet R) (m l : ℕ) (trim : Bool) (x : List M) : SwtCoeffs (List M) :=
  if trim then
    .trimmed (swtApprox w.dec_lo m x l ::
      ((List.range l).map fun j => swtDetail w.dec_lo w.dec_hi m x j).reverse)
  else
    .pairs ((List.range l).map fun j =>
      (swtApprox w.dec_lo m x (j + 1), swtDetail w.dec_lo w.dec_hi m x j)).reverse

theorem swtC_eq {w : Wavelet R} (hw : w.Ok) (l m : ℕ) (trim : Bool) (x : List M) :
    swtC w x l m trim =
      if 1 ≤ l ∧ 1 ≤ x.length ∧ 2 ^ (m + l) ∣ x.length then .ok (swtResult w m l trim x)
      else .error .value := by
  by_cases h : 1 ≤ l ∧ 1 ≤ x.length ∧ 2 ^ (m + l) ∣ x.length
  · obtain ⟨h1, h2, h3⟩ := h
    have hle := (le_swtMaxLevelC h2).mpr h3
    have hev : x.length % 2 = 0 := by
      apply Nat.mod_eq_zero_of_dvd
      exact (dvd_pow_self 2 (by omega)).trans h3
    have hloop := swtLoop_eq hw m l 0 x [] h2 (by simpa using h3)
    simp only [add_zero, swtApprox, zero_add, List.nil_append] at hloop
    rw [if_pos (show 1 ≤ l ∧ 1 ≤ x.length ∧ 2 ^ (m + l) ∣ x.length from ⟨h1, h2, h3⟩)]
    have hne : x ≠ [] := by rintro rfl; simp at h2
    have e1 : ¬ x.length % 2 ≠ 0 := by omega
    have e2 : ¬ x.length < 1 := by omega
    have e3 : ¬ l < 1 := by omega
    have e4 : ¬ m ≥ swtMaxLevelC x.length := by omega
    have e5 : ¬ m + l > swtMaxLevelC x.length := by omega
    simp only [swtC, if_neg e1, if_neg e2, if_neg e3, if_neg e4, if_neg e5, swtBufferLength,
      Py_pure]
    rw [hloop]
    simp only [Py_bind_ok]
    cases trim with
    | false => simp [swtResult, swtApprox, hne]
    | true =>
      obtain ⟨k, rfl⟩ : ∃ k, l = k + 1 := ⟨l - 1, by omega⟩
      simp only [if_true, swtResult, List.getLast?_map, List.getLast?_range]
      simp [Function.comp_def, swtApprox, hne]
  · rw [if_neg h]
    by_cases e1 : x.length % 2 ≠ 0
    · simp only [swtC, if_pos e1]; cases trim <;> rfl
    by_cases e2 : x.length < 1
    · simp only [swtC, if_neg e1, if_pos e2]; cases trim <;> rfl
    by_cases e3 : l < 1
    · simp only [swtC, if_neg e1, if_neg e2, if_pos e3]; cases trim <;> rfl
    by_cases e4 : m ≥ swtMaxLevelC x.length
    · simp only [swtC, if_neg e1, if_neg e2, if_neg e3, if_pos e4]; cases trim <;> rfl
    have e5 : m + l > swtMaxLevelC x.length := by
      by_contra h5
      exact h ⟨by omega, by omega, (le_swtMaxLevelC (by omega)).mp (by omega)⟩
    simp only [swtC, if_neg e1, if_neg e2, if_neg e3, if_neg e4, if_pos e5]; cases trim <;> rfl

theorem swt_eq {w : Wavelet R} (hw : w.Ok) (l m : ℕ) (trim : Bool) (norm : Option R)
    (x : List M) :
    swt w (some (l : ℤ)) (m : ℤ) trim norm x =
      if 1 ≤ l ∧ 1 ≤ x.length ∧ 2 ^ (m + l) ∣ x.length then
        .ok (swtResult (w.normed norm) m l trim x)
      else .error .value := by
  unfold swt
  simp only [show ¬ ((l : ℤ) < 0) by omega, show ¬ ((m : ℤ) < 0) by omega, if_false, Py_pure,
    Py_bind_ok, Int.toNat_natCast]
  exact swtC_eq (hw.normed norm) l m trim x

theorem swt_none_eq {w : Wavelet R} (m : ℕ) (trim : Bool) (norm : Option R)
    {x : List M} (hx : 1 ≤ x.length) :
    swt w none (m : ℤ) trim norm x =
      swt w (some (swtMaxLevelC x.length : ℤ)) (m : ℤ) trim norm x := by
  have : swtMaxLevel x.length = .ok (swtMaxLevelC x.length) := by
    unfold swtMaxLevel
    rw [if_neg (by omega)]
  unfold swt
  rw [this]
  simp only [Py_bind_ok, show ¬ ((swtMaxLevelC x.length : ℤ) < 0) by omega, if_false, Py_pure,
    Int.toNat_natCast]

/-! ### Shifts -/

theorem shift_length (c : ℤ) (x : List M) : (Spec.shift c x).length = x.length := by
  simp [Spec.shift]

theorem at'_shift {c : ℤ} {x : List M} (hx : 1 ≤ x.length) (p : ℤ) :
    at' (Spec.shift c x) (p % x.length) = at' x ((p - c) % x.length) := by
  have h0 := Int.emod_nonneg p (show (x.length : ℤ) ≠ 0 by omega)
  have h1 := Int.emod_lt_of_pos p (show (0 : ℤ) < x.length by omega)
  unfold at'
  rw [List.getD_eq_getElem (hn := by rw [shift_length]; omega)]
  simp only [Spec.shift, List.getElem_map, List.getElem_range]
  rw [Int.toNat_of_nonneg h0, at', Int.emod_sub_emod]

theorem atrous_shift (f : List R) (s : ℕ) (c : ℤ) (x : List M) :
    atrous f s (Spec.shift c x) = Spec.shift c (atrous f s x) := by
  apply List.ext_getElem
  · simp [atrous, Spec.shift]
  intro n h1 h2
  have hn : n < x.length := by simpa [Spec.shift] using h2
  simp only [atrous, List.getElem_map, List.getElem_range, Spec.shift,
    List.length_map, List.length_range]
  have h0 := Int.emod_nonneg ((n : ℤ) - c) (show (x.length : ℤ) ≠ 0 by omega)
  have h1 := Int.emod_lt_of_pos ((n : ℤ) - c) (show (0 : ℤ) < x.length by omega)
  conv_rhs => rw [at', List.getD_eq_getElem (hn := by simp; omega)]
  simp only [List.getElem_map, List.getElem_range]
  apply sum_congr rfl
  intro l _
  congr 1
  have := at'_shift (c := c) (x := x) (by omega) ((n : ℤ) + s * ((f.length / 2 : ℕ) - l))
  unfold Spec.shift at this
  rw [this, Int.toNat_of_nonneg h0, Int.emod_add_emod]
  congr 2
  ring

theorem swtApprox_shift (lo : List R) (m : ℕ) (c : ℤ) (x : List M) (j : ℕ) :
    swtApprox lo m (Spec.shift c x) j = Spec.shift c (swtApprox lo m x j) := by
  induction j with
  | zero => rfl
  | succ j ih => simp only [swtApprox, ih, atrous_shift]

theorem swtDetail_shift (lo hi : List R) (m : ℕ) (c : ℤ) (x : List M) (j : ℕ) :
    swtDetail lo hi m (Spec.shift c x) j = Spec.shift c (swtDetail lo hi m x j) := by
  simp only [swtDetail, swtApprox_shift, atrous_shift]

/-! ### Rescaled banks -/

section Comm
variable {R : Type} [CommRing R]

theorem getD_map_mul (f : List R) (s : R) (i : ℕ) :
    (f.map (· * s)).getD i 0 = f.getD i 0 * s := by
  rw [show (0 : R) = 0 * s by simp, List.getD_map]
  simp

theorem parityCoeff_scale (f g : List R) (s s' : R) (p k : ℕ) :
    parityCoeff (f.map (· * s')) (g.map (· * s)) p k = parityCoeff f g p k * (s * s') := by
  unfold parityCoeff
  simp only [List.length_map, sum_mul]
  apply sum_congr rfl; intro t _
  apply sum_congr rfl; intro l _
  rw [getD_map_mul, getD_map_mul]
  split
  · ring
  · simp

theorem PR_scale {a b c d : List R} (h : PR a b c d) {s s' : R} (hs : s * s' = 1) :
    PR (a.map (· * s)) (b.map (· * s)) (c.map (· * s')) (d.map (· * s')) := by
  intro p hp k
  rw [parityCoeff_scale, parityCoeff_scale, ← add_mul, h p hp k, hs, mul_one, List.length_map]

theorem atrous_scale (f : List R) (sf : R) (s : ℕ) (x : List R) :
    atrous (f.map (· * sf)) s x = (atrous f s x).map (· * sf) := by
  simp only [atrous, List.map_map, List.length_map]
  apply List.map_congr_left
  intro n _
  simp only [Function.comp, sum_mul]
  apply sum_congr rfl; intro l _
  rw [getD_map_mul]
  simp only [smul_eq_mul]
  ring

theorem energy_scale (x : List R) (sf : R) :
    ((x.map (· * sf)).map fun v => v * v).sum = sf * sf * (x.map fun v => v * v).sum := by
  induction x with
  | nil => simp
  | cons a x ih =>
    simp only [List.map_cons, List.sum_cons, ih]
    ring

theorem swt_energy {lo hi : List R} (hpr : PR lo hi lo.reverse hi.reverse)
    (hl : hi.length = lo.length) (h0 : 1 ≤ lo.length) {sf : R} (hsf : 2 * (sf * sf) = 1) (m : ℕ)
    (x : List R) (n : ℕ) :
    ((swtApprox (lo.map (· * sf)) m x n).map fun v => v * v).sum +
      ((List.range n).map fun j => ((swtDetail (lo.map (· * sf)) (hi.map (· * sf)) m x j).map
        fun v => v * v).sum).sum = (x.map fun v => v * v).sum := by
  induction n with
  | zero => simp [swtApprox]
  | succ n ih =>
    rw [← ih, List.range_succ, List.map_append, List.sum_append]
    simp only [List.map_cons, List.map_nil, List.sum_cons, List.sum_nil, add_zero, swtApprox,
      swtDetail, atrous_scale, energy_scale]
    have h := atrous_energy hpr hl h0 (2 ^ (m + n)) (swtApprox (lo.map (· * sf)) m x n)
    have h' := congrArg (sf * sf * ·) h
    rw [mul_add, ← mul_assoc (sf * sf) 2, mul_comm (sf * sf) 2, hsf, one_mul] at h'
    rw [← h']
    ring

end Comm

end Pywt
