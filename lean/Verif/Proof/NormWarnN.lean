import Verif.Proof.Variance
import Verif.Proof.NormWarn
import Verif.Props.NormWarn
import Verif.Spec.NormWarnN

/-!
# Proofs for C77
-/

namespace Pywt

open Finset Spec

set_option autoImplicit false
set_option linter.unusedSectionVars false

section
variable {α β : Type}

theorem expand_mapObjs (f : α → β) (p : PerAxis α) (n : ℕ) : (mapObjs f p).expand n = (p.expand n).map (List.map f) := by
  match p with
  | .one a => simp [mapObjs, PerAxis.expand, Except.map]
  | .many [] =>
    by_cases h : 0 = n <;> simp [mapObjs, PerAxis.expand, Except.map, h]
  | .many [a] => simp [mapObjs, PerAxis.expand, Except.map]
  | .many (a :: b :: l) =>
    by_cases h : l.length + 1 + 1 = n <;> simp [mapObjs, PerAxis.expand, Except.map, h]

theorem expand_exists {p : PerAxis α} {n : ℕ} {os : List α} (h : p.expand n = .ok os) (P : α → Prop) :
    (∃ o ∈ os, P o) ↔ n ≠ 0 ∧ ∃ o ∈ given p, P o := by
  match p with
  | .one a =>
    simp only [PerAxis.expand, Except.ok.injEq] at h
    rw [← h]
    simp [given]
  | .many [] =>
    simp only [PerAxis.expand] at h
    split at h
    · simp at h
    · simp only [Except.ok.injEq] at h
      rw [← h]
      simp [given]
  | .many [a] =>
    simp only [PerAxis.expand, Except.ok.injEq] at h
    rw [← h]
    simp [given]
  | .many (a :: b :: l) =>
    simp only [PerAxis.expand] at h
    split at h
    · simp at h
    · rename_i hl
      simp only [Except.ok.injEq] at h
      rw [← h]
      simp only [List.length_cons] at hl
      have : n ≠ 0 := by omega
      simp [given, this]

end

section
variable {R M : Type} [Ring R] [AddCommGroup M] [Module R M]

theorem all_false_iff (os : List (WaveletObj R)) : (!(os.all fun o => o.orthogonal)) = true ↔ ∃ o ∈ os, o.orthogonal = false := by
  simp

theorem normAxes_count (ndim : ℕ) (axes : Option (List ℤ)) :
    (normAxes ndim (axes.getD (rangeAxes ndim))).length = axisCount ndim axes := by
  cases axes <;> simp [normAxes, rangeAxes, axisCount]

theorem swtnWarn_iff (x : Arr M) (wavelet : PerAxis (WaveletObj R)) (level start : ℤ) (axes : Option (List ℤ)) (trim : Bool)
    (norm : Option R) {r : SwtN M} {b : Bool} :
    swtnWarn x wavelet level start axes trim norm = .ok (r, b) ↔
      swtn x (mapObjs (·.w) wavelet) level start axes trim norm = .ok r ∧
        (b = true ↔ norm ≠ none ∧ axisCount x.ndim axes ≠ 0 ∧ ∃ o ∈ given wavelet, o.orthogonal = false) := by
  unfold swtnWarn swtn
  simp only [expand_mapObjs]
  rw [← normAxes_count]
  generalize normAxes x.ndim (axes.getD (rangeAxes x.ndim)) = ax
  by_cases h1 : x.ndim < 1
  · simp [h1]
  by_cases h2 : (ax.any fun a => decide (a < 0 ∨ a ≥ (x.ndim : ℤ))) = true
  · simp only [h1, h2, if_true, if_false]
    simp
  by_cases h3 : ax.Nodup
  swap
  · simp only [h1, h2, h3, if_false, not_false_iff, if_true]
    simp
  simp only [h1, h2, h3, if_false, not_true]
  cases he : wavelet.expand ax.length with
  | error e => simp [Except.map]
  | ok os =>
    have hex := expand_exists he (fun o => o.orthogonal = false)
    have key : ∀ b : Bool, ((norm.isSome && !(os.all fun o => o.orthogonal)) = b) ↔
        (b = true ↔ norm ≠ none ∧ ax.length ≠ 0 ∧ ∃ o ∈ given wavelet, o.orthogonal = false) := by
      intro b
      rw [← hex, ← all_false_iff]
      cases norm <;> cases (os.all fun o => o.orthogonal) <;> cases b <;> simp
    simp only [Except.map, Py_bind_ok, List.map_map]
    have e0 : (fun w : Wavelet R => w.normed norm) ∘ (fun o : WaveletObj R => o.w) = fun o => o.w.normed norm := rfl
    rw [e0]
    cases swtnLoop ((ax.map Int.toNat).zip (os.map fun o => o.w.normed norm)) trim level.toNat start x [] with
    | error e => simp
    | ok v =>
      rw [← key b]
      cases trim <;> simp

theorem swt2Warn_iff (x : Arr M) (wavelet : PerAxis (WaveletObj R)) (level start : ℤ) (axes : List ℤ) (trim : Bool)
    (norm : Option R) {r : Swt2 M} {b : Bool} :
    swt2Warn x wavelet level start axes trim norm = .ok (r, b) ↔
      swt2 x (mapObjs (·.w) wavelet) level start axes trim norm = .ok r ∧
        (b = true ↔ norm ≠ none ∧ ∃ o ∈ given wavelet, o.orthogonal = false) := by
  unfold swt2Warn swt2
  by_cases h1 : axes.length = 2
  swap
  · simp [h1]
  by_cases h2 : axes.Nodup
  swap
  · simp [h1, h2]
  by_cases h3 : x.ndim < numUnique axes
  · simp [h1, h2, h3]
  simp only [h1, h2, h3, if_false, ne_eq, not_true]
  cases hs : swtn x (mapObjs (·.w) wavelet) level start (some axes) trim norm with
  | error e =>
    cases hw : swtnWarn x wavelet level start (some axes) trim norm with
    | error e' => simp
    | ok v =>
      have := ((swtnWarn_iff x wavelet level start (some axes) trim norm (r := v.1) (b := v.2)).mp hw).1
      rw [hs] at this
      simp at this
  | ok v =>
    classical
    set b' : Bool := decide (norm ≠ none ∧ axisCount x.ndim (some axes) ≠ 0 ∧ ∃ o ∈ given wavelet, o.orthogonal = false) with hb'
    have hw := (swtnWarn_iff x wavelet level start (some axes) trim norm (r := v) (b := b')).mpr ⟨hs, by rw [hb', decide_eq_true_iff]⟩
    have hb2 : ∀ b : Bool, b' = b ↔ (b = true ↔ norm ≠ none ∧ ∃ o ∈ given wavelet, o.orthogonal = false) := by
      intro b
      have : b' = true ↔ norm ≠ none ∧ ∃ o ∈ given wavelet, o.orthogonal = false := by
        rw [hb', decide_eq_true_iff]
        simp [axisCount, h1]
      rw [← this]
      cases b' <;> cases b <;> simp
    simp only [hw, Py_bind_ok]
    cases v with
    | trimmed a cs =>
      simp only
      cases cs.mapM swt2Details with
      | error e => simp
      | ok l => simp [← hb2 b]
    | dicts cs =>
      simp only
      cases cs.mapM swt2Pair with
      | error e => simp
      | ok l => simp [← hb2 b]

end

/-! ### Energy -/

theorem near_mono {ε ε' : ℝ} {w : Wavelet ℝ} (h : NearOrthogonal ε w) (he : ε ≤ ε') : NearOrthogonal ε' w :=
  ⟨h.1, h.2.1, h.2.2.1, fun p hp => (h.2.2.2 p hp).trans he⟩

/-- What one axis of one level does to the energy of an array. -/
theorem foldr_sumAxis_le {shape : List ℕ} {F G : (ℕ → ℕ) → ℝ} (h : ∀ i, F i ≤ G i) (L : List ℕ) (idx : ℕ → ℕ) :
    L.foldr (sumAxis shape) F idx ≤ L.foldr (sumAxis shape) G idx := by
  induction L generalizing idx with
  | nil => exact h idx
  | cons k L ih =>
    simp only [List.foldr_cons, sumAxis]
    exact sum_le_sum fun v _ => ih _

theorem line_near {ε : ℝ} {w : Wavelet ℝ} (h : NearOrthogonal ε w) {t : ℝ} (ht : 2 * (t * t) = 1) (s : ℕ) {u : List ℝ}
    (hu : 1 ≤ u.length) :
    (1 - ε) * energy u ≤ energy (atrous (w.normed (some t)).dec_lo s u) + energy (atrous (w.normed (some t)).dec_hi s u) ∧
      energy (atrous (w.normed (some t)).dec_lo s u) + energy (atrous (w.normed (some t)).dec_hi s u) ≤ (1 + ε) * energy u := by
  have key := abs_le.1 (atrous_energy_near h s hu)
  simp only [Wavelet.normed, Wavelet.rescale, atrous_scale, energy_map_mul, show t * t = 1 / 2 by linarith]
  constructor <;> linarith [key.1, key.2]

theorem along_near {ε : ℝ} {w : Wavelet ℝ} (h : NearOrthogonal ε w) {t : ℝ} (ht : 2 * (t * t) = 1) {x : Arr ℝ} {ax : ℕ}
    (ha : ax < x.shape.length) (hx : 1 ≤ x.shape.getD ax 0) (step : ℕ) :
    (1 - ε) * energy x.data ≤ energy (x.along ax (x.shape.getD ax 0) (atrous (w.normed (some t)).dec_lo step)).data +
        energy (x.along ax (x.shape.getD ax 0) (atrous (w.normed (some t)).dec_hi step)).data ∧
      energy (x.along ax (x.shape.getD ax 0) (atrous (w.normed (some t)).dec_lo step)).data +
        energy (x.along ax (x.shape.getD ax 0) (atrous (w.normed (some t)).dec_hi step)).data ≤ (1 + ε) * energy x.data := by
  have e : ∀ y : Arr ℝ, energy y.data = Arr.sumBy (fun v : ℝ => v * v) y := fun _ => rfl
  rw [e, e, e, sumBy_along ha, sumBy_along ha, x.sumBy_lines _ ha fun _ => 0]
  have hadd := congrFun (foldr_sumAxis_add (shape := x.shape)
    (fun i => ((atrous (w.normed (some t)).dec_lo step (x.line ax i)).map fun v : ℝ => v * v).sum)
    (fun i => ((atrous (w.normed (some t)).dec_hi step (x.line ax i)).map fun v : ℝ => v * v).sum)
    ((List.range x.shape.length).erase ax)) fun _ => 0
  rw [← hadd]
  have hl : ∀ i, 1 ≤ (x.line ax i).length := fun i => by rw [Arr.line_length]; exact hx
  have m1 := congrFun (foldr_sumAxis_mul (shape := x.shape) (fun i => ((x.line ax i).map fun v : ℝ => v * v).sum) (1 - ε)
    ((List.range x.shape.length).erase ax)) fun _ => 0
  have m2 := congrFun (foldr_sumAxis_mul (shape := x.shape) (fun i => ((x.line ax i).map fun v : ℝ => v * v).sum) (1 + ε)
    ((List.range x.shape.length).erase ax)) fun _ => 0
  refine ⟨m1.symm.le.trans ?_, le_trans ?_ m2.le⟩
  · exact foldr_sumAxis_le (fun i => (line_near h ht step (hl i)).1) _ _
  · exact foldr_sumAxis_le (fun i => (line_near h ht step (hl i)).2) _ _

theorem swtBand_near {Q : Arr ℝ → ℝ} {a b : ℝ} (ha : 0 ≤ a) (hb : 0 ≤ b) {S : List ℕ} (step : ℕ) : ∀ (st : List (SStage ℝ)),
    (∀ s ∈ st, ∀ x : Arr ℝ, x.shape = S →
      a * Q x ≤ Q (x.along s.1 (x.shape.getD s.1 0) (atrous s.2.dec_lo step)) +
        Q (x.along s.1 (x.shape.getD s.1 0) (atrous s.2.dec_hi step)) ∧
      Q (x.along s.1 (x.shape.getD s.1 0) (atrous s.2.dec_lo step)) +
        Q (x.along s.1 (x.shape.getD s.1 0) (atrous s.2.dec_hi step)) ≤ b * Q x) → ∀ x : Arr ℝ, x.shape = S →
    a ^ st.length * Q x ≤ ((words st.length).map fun k => Q (x.swtBand st step k)).sum ∧
      ((words st.length).map fun k => Q (x.swtBand st step k)).sum ≤ b ^ st.length * Q x
  | [], _, x, _ => by simp [words, Arr.swtBand]
  | s :: st, h, x, hx => by
      have ih := swtBand_near ha hb step st (fun t ht => h t (by simp [ht]))
      have hsh : ∀ f : List ℝ, (x.along s.1 (x.shape.getD s.1 0) (atrous f step)).shape = S := by
        intro f
        rw [Arr.shape_along, list_set_getD, hx]
      have e : ((words (s :: st).length).map fun k => Q (x.swtBand (s :: st) step k)).sum =
          ((words st.length).map fun k => Q ((x.along s.1 (x.shape.getD s.1 0) (atrous s.2.dec_lo step)).swtBand st step k)).sum +
          ((words st.length).map fun k => Q ((x.along s.1 (x.shape.getD s.1 0) (atrous s.2.dec_hi step)).swtBand st step k)).sum := by
        simp only [List.length_cons, words, List.map_append, List.sum_append, List.map_map]
        rfl
      obtain ⟨l1, l2⟩ := ih _ (hsh s.2.dec_lo)
      obtain ⟨d1, d2⟩ := ih _ (hsh s.2.dec_hi)
      obtain ⟨h1, h2⟩ := h s (by simp) x hx
      rw [e, List.length_cons, pow_succ, pow_succ]
      have k1 := mul_le_mul_of_nonneg_left h1 (pow_nonneg ha st.length)
      have k2 := mul_le_mul_of_nonneg_left h2 (pow_nonneg hb st.length)
      constructor <;> nlinarith

theorem swtn_near {Q : Arr ℝ → ℝ} (hQ : ∀ y, 0 ≤ Q y) {a b : ℝ} (ha : 0 ≤ a) (ha1 : a ≤ 1) (hb : 1 ≤ b) {S : List ℕ}
    {st : List (SStage ℝ)}
    (h : ∀ step, ∀ s ∈ st, ∀ x : Arr ℝ, x.shape = S →
      a * Q x ≤ Q (x.along s.1 (x.shape.getD s.1 0) (atrous s.2.dec_lo step)) +
        Q (x.along s.1 (x.shape.getD s.1 0) (atrous s.2.dec_hi step)) ∧
      Q (x.along s.1 (x.shape.getD s.1 0) (atrous s.2.dec_lo step)) +
        Q (x.along s.1 (x.shape.getD s.1 0) (atrous s.2.dec_hi step)) ≤ b * Q x) (m : ℕ) {x : Arr ℝ} (hx : x.shape = S) (n : ℕ) :
    a ^ (st.length * n) * Q x ≤ Q (swtnApprox st m x n) +
        ((List.range n).map fun j => ((swtnDict st m true x j).map fun p => Q p.2).sum).sum ∧
      Q (swtnApprox st m x n) + ((List.range n).map fun j => ((swtnDict st m true x j).map fun p => Q p.2).sum).sum ≤
        b ^ (st.length * n) * Q x := by
  induction n with
  | zero => simp [swtnApprox]
  | succ n ih =>
    have hsh : (swtnApprox st m x n).shape = S := by rw [swtnApprox_shape, hx]
    obtain ⟨b1, b2⟩ := swtBand_near ha (by linarith) (2 ^ (m + n)) st (h _) _ hsh
    rw [List.range_succ, List.map_append, List.sum_append]
    simp only [List.map_cons, List.map_nil, List.sum_cons, List.sum_nil, add_zero]
    have e : ((swtnDict st m true x n).map fun p => Q p.2) =
        ((words st.length).filter fun k => decide (k ≠ List.replicate st.length 'a')).map fun k =>
          Q ((swtnApprox st m x n).swtBand st (2 ^ (m + n)) k) := by
      unfold swtnDict swtnBand
      rw [List.map_map]
      congr 1
    have hw : ((words st.length).map fun k => Q ((swtnApprox st m x n).swtBand st (2 ^ (m + n)) k)).sum =
        Q ((swtnApprox st m x n).swtBand st (2 ^ (m + n)) (List.replicate st.length 'a')) +
          ((swtnDict st m true x n).map fun p => Q p.2).sum := by
      rw [words_split, e]
    rw [hw] at b1 b2
    have eA : swtnApprox st m x (n + 1) = (swtnApprox st m x n).swtBand st (2 ^ (m + n)) (List.replicate st.length 'a') := rfl
    rw [eA]
    set A := swtnApprox st m x n
    set T := ((List.range n).map fun j => ((swtnDict st m true x j).map fun p => Q p.2).sum).sum with hT
    have hT0 : 0 ≤ T := List.sum_nonneg fun v hv => by
      obtain ⟨j, -, rfl⟩ := List.mem_map.mp hv
      exact List.sum_nonneg fun v hv => by
        obtain ⟨p, -, rfl⟩ := List.mem_map.mp hv
        exact hQ _
    have a1 : a ^ st.length ≤ 1 := pow_le_one₀ ha ha1
    have b1' : 1 ≤ b ^ st.length := one_le_pow₀ hb
    have a0 : 0 ≤ a ^ st.length := pow_nonneg ha _
    obtain ⟨i1, i2⟩ := ih
    have k1 := mul_le_mul_of_nonneg_left i1 a0
    have k2 := mul_le_mul_of_nonneg_left i2 (by linarith : 0 ≤ b ^ st.length)
    have k3 := mul_le_mul_of_nonneg_right a1 hT0
    have k4 := mul_le_mul_of_nonneg_right b1' hT0
    rw [Nat.mul_succ, pow_add a, pow_add b]
    constructor
    · calc a ^ (st.length * n) * a ^ st.length * Q x = a ^ st.length * (a ^ (st.length * n) * Q x) := by ring
        _ ≤ a ^ st.length * (Q A + T) := k1
        _ = a ^ st.length * Q A + a ^ st.length * T := by ring
        _ ≤ _ := by linarith
    · calc _ ≤ b ^ st.length * Q A + b ^ st.length * T := by linarith
        _ = b ^ st.length * (Q A + T) := by ring
        _ ≤ _ := k2
        _ = _ := by ring

end Pywt
