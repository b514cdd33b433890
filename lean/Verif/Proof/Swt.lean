import Verif.Proof.Multi
import Verif.Model.Swt
import Verif.Spec.Swt

/-! The stationary transform and its inverse. -/

namespace Pywt

open Finset Spec

set_option linter.unusedSectionVars false

variable {R M : Type} [Ring R] [AddCommGroup M] [Module R M]

/-! ### Writing at a stride -/

/-- `out[first + k*s] = v k` for `k < K`. -/
def setStride {α : Type} (out : List α) (first s : ℕ) (v : ℕ → α) (K : ℕ) : List α :=
  (List.range K).foldl (fun a k => a.set (first + k * s) (v k)) out

theorem setStride_succ {α : Type} (out : List α) (first s : ℕ) (v : ℕ → α) (K : ℕ) :
    setStride out first s v (K + 1) = (setStride out first s v K).set (first + K * s) (v K) := by
  simp [setStride, List.range_succ, List.foldl_append]

@[simp] theorem setStride_length {α : Type} (out : List α) (first s : ℕ) (v : ℕ → α) (K : ℕ) :
    (setStride out first s v K).length = out.length := by
  induction K with
  | zero => rfl
  | succ K ih => rw [setStride_succ, List.length_set, ih]

theorem setStride_getElem? {α : Type} {out : List α} {first s : ℕ} (hs : first < s) (v : ℕ → α)
    (K i : ℕ) (hi : i < out.length) :
    (setStride out first s v K)[i]? =
      if i % s = first ∧ i / s < K then some (v (i / s)) else out[i]? := by
  induction K with
  | zero => simp [setStride]
  | succ K ih =>
    rw [setStride_succ, List.getElem?_set, ih]
    have hdm := Nat.div_add_mod i s
    by_cases h : first + K * s = i
    · subst h
      have h1 : (first + K * s) % s = first := by
        rw [Nat.add_mul_mod_self_right, Nat.mod_eq_of_lt hs]
      have h2 : (first + K * s) / s = K := by
        rw [Nat.add_mul_div_right _ _ (by omega), Nat.div_eq_of_lt hs, zero_add]
      rw [if_pos rfl, if_pos (by simpa using hi), if_pos ⟨h1, by omega⟩, h2]
    · rw [if_neg h]
      by_cases h3 : i % s = first ∧ i / s < K + 1
      · have : i / s ≠ K := by
          intro hK
          apply h
          rw [← hdm, hK, h3.1, mul_comm]
          omega
        rw [if_pos ⟨h3.1, by omega⟩, if_pos h3]
      · rw [if_neg h3, if_neg]
        intro h4
        exact h3 ⟨h4.1, by omega⟩

theorem setStride_getD {α : Type} [Zero α] {out : List α} {first s : ℕ} (hs : first < s) (v : ℕ → α)
    (K i : ℕ) (hi : i < out.length) :
    (setStride out first s v K).getD i 0 =
      if i % s = first ∧ i / s < K then v (i / s) else out.getD i 0 := by
  rw [List.getD_eq_getElem?_getD, setStride_getElem? hs v K i hi, List.getD_eq_getElem?_getD]
  split <;> rfl

/-! ### The filter with zeros inserted -/

theorem eFilter_eq (f : List R) (level : ℕ) :
    eFilter f level = setStride (List.replicate (f.length * 2 ^ (level - 1)) 0) 0
      (2 ^ (level - 1)) (fun i => f.getD i 0) f.length := by
  unfold eFilter setStride
  simp

theorem eFilter_length (f : List R) (level : ℕ) :
    (eFilter f level).length = f.length * 2 ^ (level - 1) := by
  rw [eFilter_eq, setStride_length, List.length_replicate]

theorem eFilter_getD (f : List R) (level i : ℕ) :
    (eFilter f level).getD i 0 =
      if 2 ^ (level - 1) ∣ i then f.getD (i / 2 ^ (level - 1)) 0 else 0 := by
  have hs : 0 < 2 ^ (level - 1) := by positivity
  by_cases hi : i < f.length * 2 ^ (level - 1)
  · rw [eFilter_eq, setStride_getD hs _ _ _ (by simpa using hi)]
    have h2 : i / 2 ^ (level - 1) < f.length := by
      rw [Nat.div_lt_iff_lt_mul hs]; exact hi
    simp only [Nat.dvd_iff_mod_eq_zero, h2, and_true]
    split
    · rfl
    · simp
  · rw [List.getD_eq_default _ _ (by rw [eFilter_length]; omega)]
    split
    · have h2 : f.length ≤ i / 2 ^ (level - 1) := by
        rw [Nat.le_div_iff_mul_le hs]; omega
      rw [List.getD_eq_default _ _ h2]
    · rfl

theorem conv_eFilter {f : List R} (hF : f.length % 2 = 0) (level : ℕ) (e : ℤ → M) (o : ℤ) :
    conv (eFilter f level) e (((eFilter f level).length / 2 : ℕ) + o) =
      ∑ l ∈ range f.length,
        f.getD l 0 • e (o + (2 ^ (level - 1) : ℕ) * ((f.length / 2 : ℕ) - l)) := by
  have hs : 0 < 2 ^ (level - 1) := by positivity
  unfold conv
  have h := sum_stride (G := fun i => (eFilter f level).getD i 0 •
    e (((eFilter f level).length / 2 : ℕ) + o - i)) (s := 2 ^ (level - 1)) (j0 := 0) hs (by simp)
    (by intro l hl; rw [eFilter_getD, if_neg hl, zero_smul]) f.length
  rw [eFilter_length] at h ⊢
  simp only [range_zero, sum_empty, zero_add] at h
  rw [mul_comm f.length] at h ⊢
  rw [← h]
  apply sum_congr rfl
  intro l _
  rw [eFilter_getD, if_pos (Dvd.intro _ rfl), Nat.mul_div_cancel_left _ hs]
  congr 2
  obtain ⟨g, hg⟩ : ∃ g, f.length = 2 * g := ⟨f.length / 2, by omega⟩
  rw [hg, show 2 ^ (level - 1) * (2 * g) / 2 = 2 ^ (level - 1) * g by
    rw [show 2 ^ (level - 1) * (2 * g) = 2 ^ (level - 1) * g * 2 by ring]
    exact Nat.mul_div_cancel _ (by omega), show 2 * g / 2 = g by omega]
  push_cast
  ring

/-! ### The forward transform -/

theorem le_swtMaxLevelC {n l : ℕ} (hn : 1 ≤ n) : l ≤ swtMaxLevelC n ↔ 2 ^ l ∣ n := by
  obtain ⟨L, hL, hs⟩ := swtMaxLevelC_spec n hn 0
  rw [hL, zero_add]
  exact hs l

@[simp] theorem atrous_length (f : List R) (s : ℕ) (x : List M) :
    (atrous f s x).length = x.length := by simp [atrous]

@[simp] theorem swtApprox_length (lo : List R) (m : ℕ) (x : List M) (j : ℕ) :
    (swtApprox lo m x j).length = x.length := by
  induction j with
  | zero => rfl
  | succ j ih => rw [swtApprox, atrous_length, ih]

@[simp] theorem swtDetail_length (lo hi : List R) (m : ℕ) (x : List M) (j : ℕ) :
    (swtDetail lo hi m x j).length = x.length := by
  rw [swtDetail, atrous_length, swtApprox_length]

theorem swtStep_eq {f : List R} {x out : List M} {level : ℕ} (hF : 2 ≤ f.length)
    (hF2 : f.length % 2 = 0) (hx : 1 ≤ x.length) (hl : 1 ≤ level) (hd : 2 ^ level ∣ x.length)
    (hn : out.length = x.length) :
    callC (swtStep f x out level) = .ok (atrous f (2 ^ (level - 1)) x) := by
  unfold swtStep
  rw [if_neg (by omega), if_neg (by have := (le_swtMaxLevelC hx).mpr hd; omega),
    if_neg (by simp [swtBufferLength, hn])]
  have hfin : ∀ (e : List R), 1 ≤ e.length → (∀ o : ℤ, conv e (Spec.ext .periodic x) ((e.length / 2 : ℕ) + o) =
      ∑ l ∈ range f.length,
        f.getD l 0 • Spec.ext .periodic x (o + (2 ^ (level - 1) : ℕ) * ((f.length / 2 : ℕ) - l))) →
      StrideOK e x.length 0 (2 ^ (level - 1)) →
      dsConvPer (kfuel x.length e.length) x e out 1 (2 ^ (level - 1)) =
        .ok (atrous f (2 ^ (level - 1)) x) := by
    intro e he1 he hok
    rw [dsConvPer_one_eq hx he1 hok (by simp [hn]) (by unfold kfuel; omega)]
    congr 1
    unfold atrous
    apply List.map_congr_left
    intro o _
    rw [he]
    rfl
  split
  · rename_i h
    have hpow : 1 < 2 ^ (level - 1) := Nat.one_lt_two_pow (by omega)
    simp only
    rw [hfin (eFilter f level)]
    · rfl
    · rw [eFilter_length]
      exact Nat.mul_pos (by omega) (by omega)
    · intro o
      exact conv_eFilter hF2 level _ o
    · right
      refine ⟨rfl, hpow, (pow_dvd_pow 2 (by omega)).trans hd, ?_⟩
      intro l hl
      rw [eFilter_getD, if_neg hl]
  · have : level = 1 := by omega
    subst this
    have := hfin f (by omega) (by
      intro o
      unfold conv
      apply sum_congr rfl
      intro l _
      congr 2
      push_cast
      ring) (.inl rfl)
    simp only [Nat.sub_self, pow_zero] at this ⊢
    rw [this]
    rfl

theorem swtLoop_eq {w : Wavelet R} (hw : w.Ok) (m : ℕ) (n : ℕ) :
    ∀ (j : ℕ) (x : List M) (ret : List (List M × List M)), 1 ≤ x.length →
      2 ^ (m + j + n) ∣ x.length →
      swtLoop w n (m + j + 1) (swtApprox w.dec_lo m x j) ret =
        .ok (ret ++ (List.range n).map fun i =>
          (swtApprox w.dec_lo m x (j + i + 1), swtDetail w.dec_lo w.dec_hi m x (j + i))) := by
  obtain ⟨h1, h2, h3, h4, h5⟩ := hw
  have hw : w.Ok := ⟨h1, h2, h3, h4, h5⟩
  induction n with
  | zero => intro j x ret _ _; simp [swtLoop]
  | succ n ih =>
    intro j x ret hx hd
    have hd1 : 2 ^ (m + j + 1) ∣ (swtApprox w.dec_lo m x j).length := by
      rw [swtApprox_length]
      exact (pow_dvd_pow 2 (by omega)).trans hd
    rw [swtLoop]
    unfold swt_d swt_a
    rw [swtStep_eq (by omega) (by omega) (by simpa using hx) (by omega) hd1 (by simp [swtBufferLength]),
      swtStep_eq h1 h2 (by simpa using hx) (by omega) hd1 (by simp [swtBufferLength])]
    simp only [Py_bind_ok, Nat.add_sub_cancel]
    have := ih (j + 1) x (ret ++ [(swtApprox w.dec_lo m x (j + 1), swtDetail w.dec_lo w.dec_hi m x j)])
      hx (by rw [show m + (j + 1) + n = m + j + (n + 1) by ring]; exact hd)
    rw [show m + (j + 1) + 1 = m + j + 1 + 1 by ring] at this
    rw [show atrous w.dec_lo (2 ^ (m + j)) (swtApprox w.dec_lo m x j) =
      swtApprox w.dec_lo m x (j + 1) from rfl,
      show atrous w.dec_hi (2 ^ (m + j)) (swtApprox w.dec_lo m x j) =
      swtDetail w.dec_lo w.dec_hi m x j from rfl, this]
    congr 1
    rw [List.range_succ_eq_map]
    simp only [List.append_assoc, List.map_cons, List.map_map, List.cons_append, List.nil_append,
      add_zero]
    congr 2
    apply List.map_congr_left
    intro i _
    simp only [Function.comp, Nat.succ_eq_add_one]
    congr 2 <;> ring

/-! ### The inverse transform -/

theorem evens_getElem? {α : Type} : ∀ (l : List α) (k : ℕ), (evens l)[k]? = l[2 * k]?
  | [], k => by simp [evens]
  | [a], k => by
      cases k with
      | zero => simp [evens]
      | succ k => simp [evens, show 2 * (k + 1) = 2 * k + 1 + 1 by ring]
  | a :: b :: t, k => by
      cases k with
      | zero => simp [evens]
      | succ k =>
        rw [evens, List.getElem?_cons_succ, evens_getElem? t k,
          show 2 * (k + 1) = 2 * k + 1 + 1 by ring, List.getElem?_cons_succ,
          List.getElem?_cons_succ]

theorem odds_getElem? {α : Type} (l : List α) (k : ℕ) : (odds l)[k]? = l[2 * k + 1]? := by
  unfold odds
  rw [evens_getElem?, List.getElem?_tail]

theorem evens_map_range {α : Type} (g : ℕ → α) (m : ℕ) :
    evens ((List.range (2 * m)).map g) = (List.range m).map fun k => g (2 * k) := by
  apply List.ext_getElem?
  intro k
  rw [evens_getElem?]
  by_cases h : k < m
  · rw [List.getElem?_eq_getElem (by simp; omega), List.getElem?_eq_getElem (by simp; omega)]
    simp
  · rw [List.getElem?_eq_none (by simp; omega), List.getElem?_eq_none (by simp; omega)]

theorem odds_map_range {α : Type} (g : ℕ → α) (m : ℕ) :
    odds ((List.range (2 * m)).map g) = (List.range m).map fun k => g (2 * k + 1) := by
  apply List.ext_getElem?
  intro k
  rw [odds_getElem?]
  by_cases h : k < m
  · rw [List.getElem?_eq_getElem (by simp; omega), List.getElem?_eq_getElem (by simp; omega)]
    simp
  · rw [List.getElem?_eq_none (by simp; omega), List.getElem?_eq_none (by simp; omega)]

theorem gather_eq {a : List M} {idx : List ℕ} (h : ∀ i ∈ idx, i < a.length) :
    gather a idx = .ok (idx.map fun i => a.getD i 0) := by
  unfold gather
  induction idx with
  | nil => rfl
  | cons i idx ih =>
    have hi := h i (by simp)
    rw [List.mapM_cons, ih (fun j hj => h j (by simp [hj]))]
    simp [hi]

theorem arange_eq {first s K : ℕ} (hs : first < s) :
    arange first (s * K) s = (List.range K).map fun k => first + k * s := by
  unfold arange
  congr 2
  cases K with
  | zero =>
    rw [mul_zero, Nat.div_eq_of_lt (by omega)]
  | succ K =>
    rw [mul_add, mul_one]
    have : s * K + s - first + s - 1 = (s - 1 - first + s) + s * K := by omega
    rw [this, Nat.add_mul_div_left _ _ (by omega), Nat.add_div_right _ (by omega),
      Nat.div_eq_of_lt (by omega)]
    omega

theorem scatter_eq {α : Type} (out : List α) (first s K : ℕ) (v : ℕ → α) :
    scatter out ((List.range K).map fun k => first + k * s) ((List.range K).map v) =
      setStride out first s v K := by
  unfold scatter setStride
  rw [List.zip_map', List.foldl_map]

theorem roll1_map_range {α : Type} (v : ℕ → α) (K : ℕ) (hv : v K = v 0) :
    roll1 ((List.range K).map fun k => v (k + 1)) = (List.range K).map v := by
  cases K with
  | zero => rfl
  | succ K =>
    unfold roll1
    simp only [List.length_map, List.length_range, Nat.add_sub_cancel]
    rw [List.range_succ, List.map_append, List.drop_append_of_le_length (by simp),
      List.take_append_of_le_length (by simp), List.drop_of_length_le (by simp),
      List.take_of_length_le (by simp)]
    rw [← List.range_succ, List.range_succ_eq_map]
    simp [hv, Function.comp_def]

/-- The samples of phase `first` at stride `s`, as a circular signal of `K` samples. -/
theorem phase_at {a : List M} {first s K : ℕ} (hs : first < s) (hK : 1 ≤ K)
    (hN : a.length = s * K) (q : ℤ) :
    at' a (((first : ℤ) + s * q) % a.length) =
      at' ((List.range K).map fun k => a.getD (first + k * s) 0) (q % K) := by
  have h0 := Int.emod_nonneg q (show (K : ℤ) ≠ 0 by omega)
  have h1 := Int.emod_lt_of_pos q (show (0 : ℤ) < K by omega)
  have hq := Int.mul_ediv_add_emod q K
  obtain ⟨k, hk⟩ : ∃ k : ℕ, q % K = k := ⟨(q % K).toNat, by omega⟩
  rw [hk] at hq h0 h1 ⊢
  have hk1 : k < K := by omega
  have hlt : first + k * s < s * K := by
    have : (k + 1) * s ≤ K * s := Nat.mul_le_mul_right _ hk1
    rw [add_mul, one_mul] at this
    rw [mul_comm s K]
    omega
  have : ((first : ℤ) + s * q) % a.length = ((first + k * s : ℕ) : ℤ) := by
    apply emod_of (q := q / K)
    · rw [hN]
      push_cast
      conv_lhs => rw [← hq]
      ring
    · omega
    · rw [hN]; exact_mod_cast hlt
  rw [this, at'_nat, at'_nat, List.getD_eq_getElem (l := List.map _ _) (hn := by simpa using hk1)]
  simp

theorem analysis_per_even {f : List R} {u : List M} (h : u.length % 2 = 0) :
    analysis .periodization f u = (List.range (u.length / 2)).map fun o : ℕ =>
      ∑ l ∈ range f.length, f.getD l 0 • at' u ((((f.length / 2 : ℕ) : ℤ) + 2 * o - l) % u.length) := by
  unfold analysis
  rw [show (u.length + 1) / 2 = u.length / 2 by omega]
  apply List.map_congr_left
  intro o _
  simp only [conv, Spec.ext, evenPad, h, zero_ne_one, if_false]

variable [Invertible (2 : R)]

theorem half_add_self (u : M) : (⅟2 : R) • (u + u) = u := by
  rw [← two_smul R u, smul_smul, invOf_mul_self, one_smul]

/-- The state of `output` during the inverse of one level: phases below `n` are already
reconstructed. -/
def mix (a A : List M) (s n : ℕ) : List M :=
  (List.range a.length).map fun i => if i % s < n then a.getD i 0 else A.getD i 0

theorem iswtPhase_eq {w : Wavelet R} (hw : w.Ok) {dlo dhi : List R}
    (hpr : PR dlo dhi w.rec_lo w.rec_hi) (hl1 : dlo.length = w.rec_len)
    (hl2 : dhi.length = w.rec_len) {a : List M} {s m first : ℕ} (hs : first < s) (hm : 1 ≤ m)
    (hN : a.length = s * (2 * m)) :
    iswtPhase w s (atrous dhi s a) (mix a (atrous dlo s a) s first) first =
      .ok (mix a (atrous dlo s a) s (first + 1)) := by
  obtain ⟨h1, h2, h3, h4, h5⟩ := hw
  have hw : w.Ok := ⟨h1, h2, h3, h4, h5⟩
  have hF : w.rec_len = w.rec_lo.length := rfl
  have hF2 : w.rec_hi.length = w.rec_len := by omega
  have hbound : ∀ k < 2 * m, first + k * s < a.length := by
    intro k hk
    have : (k + 1) * s ≤ (2 * m) * s := Nat.mul_le_mul_right _ hk
    rw [add_mul, one_mul] at this
    rw [hN, mul_comm s]
    omega
  have hmod : ∀ k, (first + k * s) % s = first := fun k => by
    rw [Nat.add_mul_mod_self_right, Nat.mod_eq_of_lt hs]
  -- the phase as a signal, and its shift
  set u : List M := (List.range (2 * m)).map fun k => a.getD (first + k * s) 0 with hu
  have hul : u.length = 2 * m := by simp [hu]
  set u' : List M := (List.range (2 * m)).map fun k : ℕ => at' u (((k : ℤ) + 1) % u.length) with hu'
  have hul' : u'.length = 2 * m := by simp [hu']
  have hat' : ∀ q : ℤ, at' u' (q % u'.length) = at' u ((q + 1) % u.length) := by
    intro q
    have h0 := Int.emod_nonneg q (show (u'.length : ℤ) ≠ 0 by omega)
    have h1 := Int.emod_lt_of_pos q (show (0 : ℤ) < u'.length by omega)
    obtain ⟨k, hk⟩ : ∃ k : ℕ, q % u'.length = k := ⟨(q % u'.length).toNat, by omega⟩
    rw [hk, at'_nat, hu', List.getD_eq_getElem (hn := by simp; omega)]
    simp only [List.getElem_map, List.getElem_range]
    rw [hul, ← hul', ← hk, Int.emod_add_emod]
  have hat : ∀ (f : List R) (k : ℕ) , k < 2 * m →
      (atrous f s a).getD (first + k * s) 0 =
        ∑ l ∈ range f.length, f.getD l 0 • at' u (((k : ℤ) + (f.length / 2 : ℕ) - l) % u.length) := by
    intro f k hk
    rw [List.getD_eq_getElem (hn := by simpa using hbound k hk)]
    simp only [atrous, List.getElem_map, List.getElem_range]
    apply sum_congr rfl
    intro l _
    have := phase_at (a := a) (K := 2 * m) hs (by omega) hN ((k : ℤ) + (f.length / 2 : ℕ) - l)
    rw [hul, ← this]
    congr 3
    push_cast
    ring
  have hmix : ∀ k, k < 2 * m → (mix a (atrous dlo s a) s first).getD (first + k * s) 0 =
      (atrous dlo s a).getD (first + k * s) 0 := by
    intro k hk
    rw [mix, List.getD_eq_getElem (hn := by simpa using hbound k hk)]
    simp only [List.getElem_map, List.getElem_range, hmod, lt_irrefl, if_false]
  have heven : ∀ f : List R, f.length = w.rec_len → (List.range m).map
      (fun k => (atrous f s a).getD (first + 2 * k * s) 0) = analysis .periodization f u := by
    intro f hf
    rw [analysis_per_even (by omega), hul, show 2 * m / 2 = m by omega]
    apply List.map_congr_left
    intro k hk
    rw [List.mem_range] at hk
    rw [hat f (2 * k) (by omega), hul]
    apply sum_congr rfl
    intro l _
    congr 3
    push_cast
    ring
  have hodd : ∀ f : List R, f.length = w.rec_len → (List.range m).map
      (fun k => (atrous f s a).getD (first + (2 * k + 1) * s) 0) = analysis .periodization f u' := by
    intro f hf
    rw [analysis_per_even (by omega), hul', show 2 * m / 2 = m by omega]
    apply List.map_congr_left
    intro k hk
    rw [List.mem_range] at hk
    rw [hat f (2 * k + 1) (by omega)]
    apply sum_congr rfl
    intro l _
    rw [← hul', hat']
    congr 3
    push_cast
    ring
  have hsynth : ∀ v : List M, v.length = 2 * m →
      idwtSingle w .periodization (analysis .periodization dlo v) (analysis .periodization dhi v) =
        .ok v := by
    intro v hv
    have hlen : (analysis .periodization dlo v).length = m := by
      rw [analysis_length]; simp [coeffLen]; omega
    have hlen2 : (analysis .periodization dhi v).length = m := by
      rw [analysis_length]; simp [coeffLen]; omega
    have := idwt_ok hw (mode := .periodization) (hlen.trans hlen2.symm)
      (by rw [hlen]; simp only [synthLen, if_true]; omega)
    rw [show idwt w .periodization (some (analysis .periodization dlo v))
      (some (analysis .periodization dhi v)) = idwtSingle w .periodization
      (analysis .periodization dlo v) (analysis .periodization dhi v) from rfl] at this
    rw [this, synthesis_analysis hpr (by omega) (by omega) (by omega) (by omega) (by omega) (by omega)]
    congr 1
    apply List.ext_getElem
    · simp; omega
    · intro k hk1 hk2
      simp only [List.getElem_map, List.getElem_range]
      rw [ext_in _ _ hk2, List.getD_eq_getElem _ _ hk2]
  unfold iswtPhase
  simp only [half_eq]
  simp only [atrous_length]
  rw [hN, arange_eq hs]
  simp only [evens_map_range, odds_map_range]
  have hg1 : ∀ (b : List M), b.length = a.length → gather b ((List.range m).map fun k => first + 2 * k * s) =
      .ok ((List.range m).map fun k => b.getD (first + 2 * k * s) 0) := by
    intro b hb
    rw [gather_eq, List.map_map]
    · rfl
    · intro i hi
      simp only [List.mem_map, List.mem_range] at hi
      obtain ⟨k, hk, rfl⟩ := hi
      rw [hb]
      exact hbound _ (by omega)
  have hg2 : ∀ (b : List M), b.length = a.length → gather b ((List.range m).map fun k => first + (2 * k + 1) * s) =
      .ok ((List.range m).map fun k => b.getD (first + (2 * k + 1) * s) 0) := by
    intro b hb
    rw [gather_eq, List.map_map]
    · rfl
    · intro i hi
      simp only [List.mem_map, List.mem_range] at hi
      obtain ⟨k, hk, rfl⟩ := hi
      rw [hb]
      exact hbound _ (by omega)
  have hml : (mix a (atrous dlo s a) s first).length = a.length := by simp [mix]
  have e1 : (List.range m).map (fun k => (mix a (atrous dlo s a) s first).getD (first + 2 * k * s) 0) =
      (List.range m).map (fun k => (atrous dlo s a).getD (first + 2 * k * s) 0) := by
    apply List.map_congr_left
    intro k hk
    rw [List.mem_range] at hk
    exact hmix _ (by omega)
  have e2 : (List.range m).map (fun k => (mix a (atrous dlo s a) s first).getD (first + (2 * k + 1) * s) 0) =
      (List.range m).map (fun k => (atrous dlo s a).getD (first + (2 * k + 1) * s) 0) := by
    apply List.map_congr_left
    intro k hk
    rw [List.mem_range] at hk
    exact hmix _ (by omega)
  rw [hg1 _ hml, hg1 _ (by simp), hg2 _ hml, hg2 _ (by simp), e1, e2]
  simp only [Py_bind_ok]
  rw [heven _ hl1, heven _ hl2, hodd _ hl1, hodd _ hl2, hsynth u hul, hsynth u' hul']
  simp only [Py_bind_ok]
  have hroll : roll1 u' = u := by
    have e : u' = (List.range (2 * m)).map fun k => at' u (((k + 1 : ℕ) : ℤ) % u.length) := by
      rw [hu']
      apply List.map_congr_left
      intro k _
      push_cast
      rfl
    rw [e, roll1_map_range (fun k => at' u ((k : ℤ) % u.length)) (2 * m) (by simp [hul])]
    apply List.ext_getElem
    · simp [hul]
    · intro k hk1 hk2
      simp only [List.getElem_map, List.getElem_range]
      rw [Int.emod_eq_of_lt (by omega) (by omega), at'_nat, List.getD_eq_getElem _ _ hk2]
  have havg : List.zipWith (fun p q => (⅟2 : R) • (p + q)) u u = u := by
    rw [List.zipWith_self]
    conv_rhs => rw [← List.map_id u]
    apply List.map_congr_left
    intro v _
    exact half_add_self v
  rw [hroll, if_neg (by simp), havg, if_neg (by simp [hul])]
  simp only [Py_pure]
  rw [hu, scatter_eq]
  congr 1
  apply List.ext_getElem?
  intro i
  by_cases hi : i < a.length
  · rw [setStride_getElem? hs _ _ _ (by simpa [mix] using hi)]
    simp only [mix]
    rw [List.getElem?_eq_getElem (by simpa using hi), List.getElem?_eq_getElem (by simpa using hi)]
    simp only [List.getElem_map, List.getElem_range]
    have hdm := Nat.div_add_mod i s
    have hdiv : i / s < 2 * m := by
      rw [Nat.div_lt_iff_lt_mul (by omega), mul_comm, ← hN]; exact hi
    by_cases h : i % s = first
    · rw [if_pos ⟨h, hdiv⟩, if_pos (by omega), ← h, mul_comm (i / s) s, add_comm, hdm]
    · rw [if_neg (fun hh => h hh.1)]
      by_cases h' : i % s < first
      · rw [if_pos h', if_pos (by omega)]
      · rw [if_neg h', if_neg (by omega)]
  · rw [List.getElem?_eq_none (by simpa [mix] using hi), List.getElem?_eq_none (by simpa [mix] using hi)]

theorem iswt_level {w : Wavelet R} (hw : w.Ok) {dlo dhi : List R}
    (hpr : PR dlo dhi w.rec_lo w.rec_hi) (hl1 : dlo.length = w.rec_len)
    (hl2 : dhi.length = w.rec_len) {a : List M} {s : ℕ} (hd : 2 * s ∣ a.length)
    (ha : 1 ≤ a.length) :
    (List.range s).foldlM (iswtPhase w s (atrous dhi s a)) (atrous dlo s a) = .ok a := by
  obtain ⟨m, hm⟩ := hd
  have hs0 : 0 < s := by
    rcases Nat.eq_zero_or_pos s with h | h
    · subst h; omega
    · exact h
  have hm1 : 1 ≤ m := by
    rcases Nat.eq_zero_or_pos m with h | h
    · subst h; omega
    · exact h
  have hN : a.length = s * (2 * m) := by rw [hm]; ring
  have key : ∀ n ≤ s, (List.range n).foldlM (iswtPhase w s (atrous dhi s a)) (atrous dlo s a) =
      .ok (mix a (atrous dlo s a) s n) := by
    intro n hn
    induction n with
    | zero =>
      simp only [List.range_zero, List.foldlM_nil, Py_pure]
      congr 1
      apply List.ext_getElem (by simp [mix])
      intro i hi1 hi2
      simp only [mix, List.getElem_map, List.getElem_range]
      rw [if_neg (by omega), List.getD_eq_getElem _ _ hi1]
    | succ n ih =>
      rw [List.range_succ, List.foldlM_append, ih (by omega)]
      simp only [Py_bind_ok, List.foldlM_cons, List.foldlM_nil]
      rw [iswtPhase_eq hw hpr hl1 hl2 (by omega) hm1 hN]
      rfl
  rw [key s le_rfl]
  congr 1
  apply List.ext_getElem (by simp [mix])
  intro i hi1 hi2
  simp only [mix, List.getElem_map, List.getElem_range]
  rw [if_pos (Nat.mod_lt _ hs0), List.getD_eq_getElem _ _ hi2]

theorem iswtLoop_eq {w : Wavelet R} (hw : w.Ok) {dlo dhi : List R}
    (hpr : PR dlo dhi w.rec_lo w.rec_hi) (hl1 : dlo.length = w.rec_len)
    (hl2 : dhi.length = w.rec_len) {x : List M} (hx : 1 ≤ x.length) (n : ℕ)
    (hd : 2 ^ n ∣ x.length) :
    iswtLoop w ((List.range n).map fun j => swtDetail dlo dhi 0 x j).reverse (swtApprox dlo 0 x n) =
      .ok x := by
  induction n with
  | zero => simp [iswtLoop, swtApprox]
  | succ n ih =>
    simp only [List.range_succ, List.map_append, List.map_cons, List.map_nil, List.reverse_append,
      List.reverse_cons, List.reverse_nil, List.nil_append, List.cons_append, iswtLoop,
      List.length_reverse, List.length_map, List.length_range, swtApprox, swtDetail, zero_add]
    rw [iswt_level hw hpr hl1 hl2 (by rw [swtApprox_length, ← pow_succ']; exact hd)
      (by simpa using hx)]
    simp only [Py_bind_ok]
    simpa only [swtDetail, zero_add] using ih ((pow_dvd_pow 2 (by omega)).trans hd)

end Pywt
