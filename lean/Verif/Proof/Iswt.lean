import Verif.Proof.Swt
import Verif.Proof.Lin

/-! The inverse stationary transform of arbitrary coefficients. -/

namespace Pywt

open Finset Spec

set_option linter.unusedSectionVars false

variable {R M : Type} [Ring R] [AddCommGroup M] [Module R M] [Invertible (2 : R)]

theorem iswtStep_length (lo hi : List R) (s : ℕ) {a d : List M} (h : d.length = a.length) :
    (iswtStep lo hi s a d).length = a.length := by
  simp [iswtStep, atrousInv, h]

theorem iswtStep_getD {lo hi : List R} {s : ℕ} {a d : List M} (h : d.length = a.length) {n : ℕ}
    (hn : n < a.length) :
    (iswtStep lo hi s a d).getD n 0 = (⅟2 : R) •
      ((∑ l ∈ range lo.length,
        lo.getD l 0 • at' a (((n : ℤ) + s * (((lo.length / 2 : ℕ) : ℤ) - 1 - l)) % a.length)) +
      (∑ l ∈ range hi.length,
        hi.getD l 0 • at' d (((n : ℤ) + s * (((hi.length / 2 : ℕ) : ℤ) - 1 - l)) % d.length))) := by
  rw [List.getD_eq_getElem (hn := by rw [iswtStep_length _ _ _ h]; exact hn)]
  simp [iswtStep, atrousInv]

theorem evens_at {u : List M} {m : ℕ} (hm : 1 ≤ m) (hu : u.length = 2 * m) (p : ℤ)
    (hp : p % 2 = 0) :
    Spec.ext .periodic ((List.range m).map fun k => u.getD (2 * k) 0) (p / 2) =
      at' u (p % u.length) := by
  have h0 := Int.emod_nonneg (p / 2) (show (m : ℤ) ≠ 0 by omega)
  have h1 := Int.emod_lt_of_pos (p / 2) (show (0 : ℤ) < m by omega)
  obtain ⟨k, hk⟩ : ∃ k : ℕ, (p / 2) % m = k := ⟨((p / 2) % m).toNat, by omega⟩
  have hp2 : p = 2 * (p / 2) := by omega
  have : p % u.length = 2 * k := by
    rw [hu, hp2]
    push_cast
    rw [Int.mul_emod_mul_of_pos _ _ (by norm_num)]
    have : 2 * (p / 2) / 2 = p / 2 := by omega
    omega
  simp only [Spec.ext, List.length_map, List.length_range]
  rw [hk, at'_nat, this, List.getD_eq_getElem (hn := by simp; omega)]
  simp only [List.getElem_map, List.getElem_range]
  rw [show (2 * (k : ℤ)) = ((2 * k : ℕ) : ℤ) by push_cast; ring, at'_nat]

theorem odds_at {u : List M} {m : ℕ} (hm : 1 ≤ m) (hu : u.length = 2 * m) (p : ℤ)
    (hp : p % 2 = 0) :
    Spec.ext .periodic ((List.range m).map fun k => u.getD (2 * k + 1) 0) (p / 2) =
      at' u ((p + 1) % u.length) := by
  have h0 := Int.emod_nonneg (p / 2) (show (m : ℤ) ≠ 0 by omega)
  have h1 := Int.emod_lt_of_pos (p / 2) (show (0 : ℤ) < m by omega)
  obtain ⟨k, hk⟩ : ∃ k : ℕ, (p / 2) % m = k := ⟨((p / 2) % m).toNat, by omega⟩
  have hp2 : p = 2 * (p / 2) := by omega
  have h2 : p % (2 * m : ℤ) = 2 * k := by
    rw [hp2, Int.mul_emod_mul_of_pos _ _ (by norm_num)]
    have : 2 * (p / 2) / 2 = p / 2 := by omega
    omega
  have : (p + 1) % u.length = 2 * k + 1 := by
    rw [hu]
    push_cast
    rw [← Int.emod_add_emod, h2, Int.emod_eq_of_lt (by omega) (by omega)]
  simp only [Spec.ext, List.length_map, List.length_range]
  rw [hk, at'_nat, this, List.getD_eq_getElem (hn := by simp; omega)]
  simp only [List.getElem_map, List.getElem_range]
  rw [show (2 * (k : ℤ) + 1) = ((2 * k + 1 : ℕ) : ℤ) by push_cast; ring, at'_nat]

/-- The part of a filtered phase that the even (`q = 0`) or odd (`q = 1`) samples contribute. -/
def phasePart (f : List R) (c : ℤ) (q : ℤ) (u : List M) (k : ℤ) : M :=
  ∑ l ∈ range f.length, if (k + c - l) % 2 = q then f.getD l 0 • at' u ((k + c - l) % u.length) else 0

theorem phasePart_add (f : List R) (c : ℤ) (u : List M) (k : ℤ) :
    phasePart f c 0 u k + phasePart f c 1 u k =
      ∑ l ∈ range f.length, f.getD l 0 • at' u ((k + c - l) % u.length) := by
  unfold phasePart
  rw [← sum_add_distrib]
  apply sum_congr rfl
  intro l _
  rcases Int.emod_two_eq_zero_or_one (k + c - l) with h | h <;> simp [h]

theorem conv_evens (f : List R) {u : List M} {m : ℕ} (hm : 1 ≤ m) (hu : u.length = 2 * m) (k c : ℤ) :
    conv f (upsample (Spec.ext .periodic ((List.range m).map fun k => u.getD (2 * k) 0))) (k + c) =
      phasePart f c 0 u k := by
  unfold conv phasePart upsample
  apply sum_congr rfl
  intro l _
  by_cases h : (k + c - l) % 2 = 0
  · rw [if_pos h, if_pos h, evens_at hm hu _ h]
  · rw [if_neg h, if_neg h, smul_zero]

theorem conv_odds (f : List R) {u : List M} {m : ℕ} (hm : 1 ≤ m) (hu : u.length = 2 * m) (k c : ℤ) :
    conv f (upsample (Spec.ext .periodic ((List.range m).map fun k => u.getD (2 * k + 1) 0))) (k + c) =
      phasePart f c 1 u (k + 1) := by
  unfold conv phasePart upsample
  apply sum_congr rfl
  intro l _
  by_cases h : (k + c - l) % 2 = 0
  · rw [if_pos h, if_pos (by omega), odds_at hm hu _ h]
    congr 3
    ring
  · rw [if_neg h, if_neg (by omega), smul_zero]

theorem phasePart_period (f : List R) (c q : ℤ) {u : List M} {m : ℕ} (hu : u.length = 2 * m) :
    phasePart f c q u ((2 * m : ℕ) : ℤ) = phasePart f c q u ((0 : ℕ) : ℤ) := by
  unfold phasePart
  apply sum_congr rfl
  intro l _
  have h1 : (((2 * m : ℕ) : ℤ) + c - l) % 2 = (((0 : ℕ) : ℤ) + c - l) % 2 := by push_cast; omega
  have h2 : (((2 * m : ℕ) : ℤ) + c - l) % u.length = (((0 : ℕ) : ℤ) + c - l) % u.length := by
    rw [hu, show ((2 * m : ℕ) : ℤ) + c - l = (c - l) + ((2 * m : ℕ) : ℤ) by ring,
      Int.add_emod_right]
    congr 1
    push_cast
    ring
  rw [h1, h2]

theorem iswtPhase_gen {w : Wavelet R} (hw : w.Ok) {A D : List M} {s m first : ℕ} (hs : first < s)
    (hm : 1 ≤ m) (hN : A.length = s * (2 * m)) (hD : D.length = A.length) :
    iswtPhase w s D (mix (iswtStep w.rec_lo w.rec_hi s A D) A s first) first =
      .ok (mix (iswtStep w.rec_lo w.rec_hi s A D) A s (first + 1)) := by
  obtain ⟨h1, h2, h3, h4, h5⟩ := hw
  have hw : w.Ok := ⟨h1, h2, h3, h4, h5⟩
  have hF : w.rec_len = w.rec_lo.length := rfl
  have hF2 : w.rec_hi.length = w.rec_lo.length := by omega
  set B := iswtStep w.rec_lo w.rec_hi s A D with hB
  have hBl : B.length = A.length := iswtStep_length _ _ _ hD
  have hbound : ∀ k < 2 * m, first + k * s < A.length := by
    intro k hk
    have : (k + 1) * s ≤ (2 * m) * s := Nat.mul_le_mul_right _ hk
    rw [add_mul, one_mul] at this
    rw [hN, mul_comm s]
    omega
  have hmod : ∀ k, (first + k * s) % s = first := fun k => by
    rw [Nat.add_mul_mod_self_right, Nat.mod_eq_of_lt hs]
  set u : List M := (List.range (2 * m)).map fun k => A.getD (first + k * s) 0 with hu
  set v : List M := (List.range (2 * m)).map fun k => D.getD (first + k * s) 0 with hv
  have hul : u.length = 2 * m := by simp [hu]
  have hvl : v.length = 2 * m := by simp [hv]
  have hue : ∀ k < 2 * m, u.getD k 0 = A.getD (first + k * s) 0 := by
    intro k hk
    rw [List.getD_eq_getElem (hn := by omega)]
    simp [hu]
  have hve : ∀ k < 2 * m, v.getD k 0 = D.getD (first + k * s) 0 := by
    intro k hk
    rw [List.getD_eq_getElem (hn := by omega)]
    simp [hv]
  have hmix : ∀ k, k < 2 * m → (mix B A s first).getD (first + k * s) 0 =
      A.getD (first + k * s) 0 := by
    intro k hk
    rw [mix, List.getD_eq_getElem (hn := by simpa [hBl] using hbound k hk)]
    simp only [List.getElem_map, List.getElem_range, hmod, lt_irrefl, if_false]
  have hml : (mix B A s first).length = A.length := by simp [mix, hBl]
  have hg1 : ∀ (b : List M), b.length = A.length → gather b ((List.range m).map fun k => first + 2 * k * s) =
      .ok ((List.range m).map fun k => b.getD (first + 2 * k * s) 0) := by
    intro b hb
    rw [gather_eq, List.map_map]
    · rfl
    · intro i hi
      simp only [List.mem_map, List.mem_range] at hi
      obtain ⟨k, hk, rfl⟩ := hi
      rw [hb]
      exact hbound _ (by omega)
  have hg2 : ∀ (b : List M), b.length = A.length → gather b ((List.range m).map fun k => first + (2 * k + 1) * s) =
      .ok ((List.range m).map fun k => b.getD (first + (2 * k + 1) * s) 0) := by
    intro b hb
    rw [gather_eq, List.map_map]
    · rfl
    · intro i hi
      simp only [List.mem_map, List.mem_range] at hi
      obtain ⟨k, hk, rfl⟩ := hi
      rw [hb]
      exact hbound _ (by omega)
  have e1 : (List.range m).map (fun k => (mix B A s first).getD (first + 2 * k * s) 0) =
      (List.range m).map (fun k => u.getD (2 * k) 0) := by
    apply List.map_congr_left
    intro k hk
    rw [List.mem_range] at hk
    rw [hmix _ (by omega), hue _ (by omega)]
  have e2 : (List.range m).map (fun k => (mix B A s first).getD (first + (2 * k + 1) * s) 0) =
      (List.range m).map (fun k => u.getD (2 * k + 1) 0) := by
    apply List.map_congr_left
    intro k hk
    rw [List.mem_range] at hk
    rw [hmix _ (by omega), hue _ (by omega)]
  have e3 : (List.range m).map (fun k => D.getD (first + 2 * k * s) 0) =
      (List.range m).map (fun k => v.getD (2 * k) 0) := by
    apply List.map_congr_left
    intro k hk
    rw [List.mem_range] at hk
    rw [hve _ (by omega)]
  have e4 : (List.range m).map (fun k => D.getD (first + (2 * k + 1) * s) 0) =
      (List.range m).map (fun k => v.getD (2 * k + 1) 0) := by
    apply List.map_congr_left
    intro k hk
    rw [List.mem_range] at hk
    rw [hve _ (by omega)]
  have hid : ∀ g h : ℕ → M, idwtSingle w .periodization ((List.range m).map g) ((List.range m).map h) =
      .ok (synthesis .periodization w.rec_lo w.rec_hi ((List.range m).map g)
        ((List.range m).map h)) := by
    intro g h
    exact idwt_ok hw (mode := .periodization) (a := (List.range m).map g) (d := (List.range m).map h)
      (by simp) (by simp only [synthLen, if_true, List.length_map, List.length_range]; omega)
  set c : ℤ := ((w.rec_lo.length / 2 : ℕ) : ℤ) - 1 with hc
  unfold iswtPhase
  simp only [half_eq]
  rw [hD, hN, arange_eq hs]
  simp only [evens_map_range, odds_map_range]
  rw [hg1 _ hml, hg1 _ hD, hg2 _ hml, hg2 _ hD, e1, e2, e3, e4]
  simp only [Py_bind_ok]
  rw [hid, hid]
  simp only [Py_bind_ok, synthesis, List.length_map, List.length_range, conv_evens _ hm hul,
    conv_evens _ hm hvl, conv_odds _ hm hul, conv_odds _ hm hvl]
  have hroll := roll1_map_range (fun k : ℕ => phasePart w.rec_lo c 1 u (k : ℤ) +
    phasePart w.rec_hi c 1 v (k : ℤ)) (2 * m)
    (by simp only [phasePart_period _ _ _ hul, phasePart_period _ _ _ hvl])
  simp only [Nat.cast_add, Nat.cast_one] at hroll
  rw [hroll]
  rw [if_neg (by simp)]
  have havg : List.zipWith (fun p q => (⅟2 : R) • (p + q))
      ((List.range (2 * m)).map fun n : ℕ => phasePart w.rec_lo c 0 u (n : ℤ) +
        phasePart w.rec_hi c 0 v (n : ℤ))
      ((List.range (2 * m)).map fun n : ℕ => phasePart w.rec_lo c 1 u (n : ℤ) +
        phasePart w.rec_hi c 1 v (n : ℤ)) =
      (List.range (2 * m)).map fun k => B.getD (first + k * s) 0 := by
    rw [List.zipWith_map, List.zipWith_self]
    apply List.map_congr_left
    intro k hk
    rw [List.mem_range] at hk
    rw [iswtStep_getD hD (hbound k hk)]
    congr 1
    rw [add_add_add_comm, phasePart_add, phasePart_add]
    congr 1
    · apply sum_congr rfl
      intro l _
      have := phase_at (a := A) (K := 2 * m) hs (by omega) hN ((k : ℤ) + c - l)
      rw [hul, ← this]
      congr 3
      rw [hc]
      push_cast
      ring
    · rw [hF2]
      apply sum_congr rfl
      intro l _
      have := phase_at (a := D) (K := 2 * m) hs (by omega) (hD.trans hN) ((k : ℤ) + c - l)
      rw [hvl, ← this]
      congr 3
      rw [hc]
      push_cast
      ring
  rw [havg, if_neg (by simp)]
  simp only [Py_pure]
  rw [scatter_eq]
  congr 1
  apply List.ext_getElem?
  intro i
  by_cases hi : i < A.length
  · have hiB : i < B.length := by omega
    rw [setStride_getElem? hs _ _ _ (by simpa [mix] using hiB)]
    simp only [mix]
    rw [List.getElem?_eq_getElem (by simpa using hiB), List.getElem?_eq_getElem (by simpa using hiB)]
    simp only [List.getElem_map, List.getElem_range]
    have hdm := Nat.div_add_mod i s
    have hdiv : i / s < 2 * m := by
      rw [Nat.div_lt_iff_lt_mul (by omega), mul_comm, ← hN]; exact hi
    by_cases h : i % s = first
    · rw [if_pos ⟨h, hdiv⟩, if_pos (by omega), ← h, mul_comm (i / s) s, add_comm, hdm]
    · rw [if_neg (fun hh => h hh.1)]
      by_cases h' : i % s < first
      · rw [if_pos h', if_pos (by omega)]
      · rw [if_neg h', if_neg (by omega)]
  · rw [List.getElem?_eq_none (by simpa [mix, hBl] using hi),
      List.getElem?_eq_none (by simpa [mix, hBl] using hi)]

theorem iswt_level_gen {w : Wavelet R} (hw : w.Ok) {A D : List M} {s : ℕ} (hd : 2 * s ∣ A.length)
    (ha : 1 ≤ A.length) (hD : D.length = A.length) :
    (List.range s).foldlM (iswtPhase w s D) A = .ok (iswtStep w.rec_lo w.rec_hi s A D) := by
  obtain ⟨m, hm⟩ := hd
  have hBl : (iswtStep w.rec_lo w.rec_hi s A D).length = A.length := iswtStep_length _ _ _ hD
  have hs0 : 0 < s := by
    rcases Nat.eq_zero_or_pos s with h | h
    · subst h; omega
    · exact h
  have hm1 : 1 ≤ m := by
    rcases Nat.eq_zero_or_pos m with h | h
    · subst h; omega
    · exact h
  have hN : A.length = s * (2 * m) := by rw [hm]; ring
  have key : ∀ n ≤ s, (List.range n).foldlM (iswtPhase w s D) A =
      .ok (mix (iswtStep w.rec_lo w.rec_hi s A D) A s n) := by
    intro n hn
    induction n with
    | zero =>
      simp only [List.range_zero, List.foldlM_nil, Py_pure]
      congr 1
      apply List.ext_getElem (by simp [mix, hBl])
      intro i hi1 hi2
      simp only [mix, List.getElem_map, List.getElem_range]
      rw [if_neg (by omega), List.getD_eq_getElem _ _ hi1]
    | succ n ih =>
      rw [List.range_succ, List.foldlM_append, ih (by omega)]
      simp only [Py_bind_ok, List.foldlM_cons, List.foldlM_nil]
      rw [iswtPhase_gen hw (by omega) hm1 hN hD]
      rfl
  rw [key s le_rfl]
  congr 1
  apply List.ext_getElem (by simp [mix])
  intro i hi1 hi2
  simp only [mix, List.getElem_map, List.getElem_range]
  rw [if_pos (Nat.mod_lt _ hs0), List.getD_eq_getElem _ _ hi2]

theorem iswtLoop_gen {w : Wavelet R} (hw : w.Ok) (ds : List (List M)) :
    ∀ a : List M, 1 ≤ a.length → 2 ^ ds.length ∣ a.length → (∀ d ∈ ds, d.length = a.length) →
      iswtLoop w ds a = .ok (iswtCascade w.rec_lo w.rec_hi ds a) := by
  induction ds with
  | nil => intro a _ _ _; rfl
  | cons d ds ih =>
    intro a ha hd hl
    have hdl := hl d (by simp)
    have hsl := iswtStep_length w.rec_lo w.rec_hi (2 ^ ds.length) hdl
    simp only [iswtLoop, iswtCascade]
    rw [iswt_level_gen hw (by rw [← pow_succ']; exact hd) ha hdl]
    simp only [Py_bind_ok]
    refine ih _ (by omega) ?_ fun e he => ?_
    · rw [hsl]; exact (pow_dvd_pow 2 (by simp)).trans hd
    · rw [hsl]; exact hl e (by simp [he])

theorem iswtCascade_length (lo hi : List R) (ds : List (List M)) :
    ∀ a : List M, (∀ d ∈ ds, d.length = a.length) → (iswtCascade lo hi ds a).length = a.length := by
  induction ds with
  | nil => intro a _; rfl
  | cons d ds ih =>
    intro a h
    have hsl := iswtStep_length lo hi (2 ^ ds.length) (h d (by simp))
    rw [iswtCascade, ih _ (fun e he => by rw [hsl]; exact h e (by simp [he])), hsl]

variable {M' : Type} [AddCommGroup M'] [Module R M']

theorem atrousInv_map (φ : M →ₗ[R] M') (f : List R) (s : ℕ) (x : List M) :
    atrousInv f s (x.map φ) = (atrousInv f s x).map φ := by
  simp [atrousInv, at'_map, map_sum]

theorem iswtStep_map (φ : M →ₗ[R] M') (lo hi : List R) (s : ℕ) (a d : List M) :
    iswtStep lo hi s (a.map φ) (d.map φ) = (iswtStep lo hi s a d).map φ := by
  simp only [iswtStep, atrousInv_map, List.zipWith_map, List.map_zipWith, map_smul, map_add]

theorem iswtCascade_map (φ : M →ₗ[R] M') (lo hi : List R) (ds : List (List M)) :
    ∀ a : List M, iswtCascade lo hi (ds.map (List.map φ)) (a.map φ) =
      (iswtCascade lo hi ds a).map φ := by
  induction ds with
  | nil => intro a; rfl
  | cons d ds ih =>
    intro a
    rw [List.map_cons, iswtCascade, iswtCascade, List.length_map, iswtStep_map, ih]

end Pywt
