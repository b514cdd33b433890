import Verif.Proof.EnergyN
import Verif.Proof.SwtAdjoint
import Verif.Props.SwtN
import Verif.Spec.Variance

/-!
# Proofs for C76
-/

namespace Pywt

open Finset Spec

set_option autoImplicit false
set_option linter.unusedSectionVars false

section
variable {R : Type} [CommRing R]

/-- Filtering multiplies the sum of the samples by the sum of the taps. -/
theorem atrous_sum (f : List R) (s : ℕ) (x : List R) : (atrous f s x).sum = f.sum * x.sum := by
  rcases Nat.eq_zero_or_pos x.length with h0 | h0
  · rw [List.length_eq_zero_iff.mp h0]
    simp [atrous]
  have hs : ∀ u : List R, u.sum = ∑ n ∈ range u.length, per u n := by
    intro u
    have := list_sum_range (fun v : R => v) u
    rw [List.map_id'] at this
    rw [this]
    exact sum_congr rfl fun n hn => (per_nat (mem_range.mp hn)).symm
  have hf : f.sum = ∑ l ∈ range f.length, f.getD l 0 := by
    have := list_sum_range (fun v : R => v) f
    rwa [List.map_id'] at this
  rw [hs (atrous f s x), atrous_length, hf, sum_mul]
  rw [sum_congr rfl fun (n : ℕ) _ => per_atrous h0 f s (n : ℤ), sum_comm]
  refine sum_congr rfl fun l _ => ?_
  simp only [smul_eq_mul]
  rw [← mul_sum]
  congr 1
  rw [hs x]
  exact sum_period_shift (g := fun p : ℤ => per x p) (fun p => per_add x p) _

/-- The sums of the taps of an orthogonal bank. -/
theorem taps_sum {lo hi : List R} (hpr : PR lo hi lo.reverse hi.reverse) (hl : hi.length = lo.length) (h0 : 1 ≤ lo.length) :
    lo.sum * lo.sum + hi.sum * hi.sum = 2 := by
  have h := atrous_energy hpr hl h0 1 [(1 : R)]
  have e : ∀ f : List R, atrous f 1 [(1 : R)] = [f.sum] := by
    intro f
    have h1 : (atrous f 1 [(1 : R)]).length = 1 := by rw [atrous_length]; rfl
    obtain ⟨v, hv⟩ := List.length_eq_one_iff.mp h1
    have := atrous_sum f 1 [(1 : R)]
    rw [hv] at this ⊢
    simpa using this
  rw [e, e] at h
  simpa using h

/-- What a normalized orthogonal bank does to one level. -/
def KeepsBoth (w : Wavelet R) : Prop :=
  (∀ (s : ℕ) (u : List R), energy (atrous w.dec_lo s u) + energy (atrous w.dec_hi s u) = energy u) ∧
    w.dec_lo.sum * w.dec_lo.sum + w.dec_hi.sum * w.dec_hi.sum = 1

theorem sum_map_mul (f : List R) (t : R) : (f.map (· * t)).sum = f.sum * t := by
  rw [List.sum_map_mul_right, List.map_id']

theorem keepsBoth_normed {w : Wavelet R} (h : OrthogonalBank w) {t : R} (ht : 2 * (t * t) = 1) : KeepsBoth (w.normed (some t)) := by
  obtain ⟨hw, h1, h2, hpr⟩ := h
  rw [h1, h2] at hpr
  have h3 : w.dec_hi.length = w.dec_lo.length := hw.2.2.1
  have h4 : 2 ≤ w.dec_lo.length := hw.1
  constructor
  · intro s u
    have := atrous_energy hpr h3 (by omega) s u
    simp only [Wavelet.normed, Wavelet.rescale, atrous_scale]
    unfold energy
    rw [energy_scale, energy_scale, ← mul_add, this, ← mul_assoc, mul_comm _ (2 : R), ht, one_mul]
  · have := taps_sum hpr h3 (by omega)
    simp only [Wavelet.normed, Wavelet.rescale, sum_map_mul]
    linear_combination (t * t) * this + ht

end

section
variable {K : Type} [Field K]

theorem variance_step {w : Wavelet K} (h : KeepsBoth w) (s : ℕ) (u : List K) :
    variance (atrous w.dec_lo s u) + variance (atrous w.dec_hi s u) = variance u := by
  unfold variance
  rw [atrous_sum, atrous_sum, atrous_length, atrous_length, ← h.1 s u]
  linear_combination (-(u.sum / u.length) ^ 2) * h.2

/-- A quantity that every level splits is split by all levels. -/
theorem swt_split {w : Wavelet K} {Q : List K → K}
    (hQ : ∀ (s : ℕ) (u : List K), Q (atrous w.dec_lo s u) + Q (atrous w.dec_hi s u) = Q u) (m : ℕ) (x : List K) (n : ℕ) :
    Q (swtApprox w.dec_lo m x n) + ((List.range n).map fun j => Q (swtDetail w.dec_lo w.dec_hi m x j)).sum = Q x := by
  induction n with
  | zero => simp [swtApprox]
  | succ n ih =>
    rw [← ih, List.range_succ, List.map_append, List.sum_append, ← hQ (2 ^ (m + n)) (swtApprox w.dec_lo m x n)]
    simp only [List.map_cons, List.map_nil, List.sum_cons, List.sum_nil, add_zero, swtApprox, swtDetail]
    ring

/-- The same for arrays: a quantity split along every axis is split by the subbands. -/
theorem swtBand_split {Q : Arr K → K} {S : List ℕ} (step : ℕ) : ∀ (st : List (SStage K)),
    (∀ s ∈ st, ∀ x : Arr K, x.shape = S → Q (x.along s.1 (x.shape.getD s.1 0) (atrous s.2.dec_lo step)) +
      Q (x.along s.1 (x.shape.getD s.1 0) (atrous s.2.dec_hi step)) = Q x) → ∀ x : Arr K, x.shape = S →
    ((words st.length).map fun k => Q (x.swtBand st step k)).sum = Q x
  | [], _, x, _ => by simp [words, Arr.swtBand]
  | s :: st, h, x, hx => by
      have ih := swtBand_split step st (fun t ht => h t (by simp [ht]))
      have hsh : ∀ f : List K, (x.along s.1 (x.shape.getD s.1 0) (atrous f step)).shape = S := by
        intro f
        rw [Arr.shape_along, list_set_getD, hx]
      rw [List.length_cons, words, List.map_append, List.sum_append, List.map_map, List.map_map]
      simp only [Function.comp_def, Arr.swtBand]
      rw [ih _ (hsh _), ih _ (hsh _), ← h s (by simp) x hx]
      simp [Wavelet.decFilter]

theorem swtn_split {Q : Arr K → K} {S : List ℕ} {st : List (SStage K)}
    (h : ∀ step, ∀ s ∈ st, ∀ x : Arr K, x.shape = S → Q (x.along s.1 (x.shape.getD s.1 0) (atrous s.2.dec_lo step)) +
      Q (x.along s.1 (x.shape.getD s.1 0) (atrous s.2.dec_hi step)) = Q x) (m : ℕ) {x : Arr K} (hx : x.shape = S) (n : ℕ) :
    Q (swtnApprox st m x n) + ((List.range n).map fun j => ((swtnDict st m true x j).map fun p => Q p.2).sum).sum = Q x := by
  induction n with
  | zero => simp [swtnApprox]
  | succ n ih =>
    have hsh : (swtnApprox st m x n).shape = S := by rw [swtnApprox_shape, hx]
    have hb := swtBand_split (2 ^ (m + n)) st (h _) _ hsh
    rw [words_split] at hb
    rw [List.range_succ, List.map_append, List.sum_append, ← ih, ← hb]
    simp only [List.map_cons, List.map_nil, List.sum_cons, List.sum_nil, add_zero, swtnApprox]
    have e : ((swtnDict st m true x n).map fun p => Q p.2) =
        ((words st.length).filter fun k => decide (k ≠ List.replicate st.length 'a')).map fun k =>
          Q ((swtnApprox st m x n).swtBand st (2 ^ (m + n)) k) := by
      unfold swtnDict swtnBand
      rw [List.map_map]
      congr 1
    rw [e]
    ring

theorem sumBy_along {φ : K → K} {x : Arr K} {ax : ℕ} (ha : ax < x.shape.length) (f : List K) (step : ℕ) :
    (x.along ax (x.shape.getD ax 0) (atrous f step)).sumBy φ = ((List.range x.shape.length).erase ax).foldr (sumAxis x.shape)
      (fun i => ((atrous f step (x.line ax i)).map φ).sum) fun _ => 0 := by
  have hsh : (x.along ax (x.shape.getD ax 0) (atrous f step)).shape = x.shape := by rw [Arr.shape_along, list_set_getD]
  rw [Arr.sumBy_lines φ _ (axis := ax) (by rw [hsh]; exact ha) (fun _ => 0), hsh]
  apply foldr_sumAxis_congr _ []
  · intro k _; rfl
  · intro idx hidx
    rw [Arr.line_along ha]
    · intro k hk hka
      exact hidx k (by rw [List.nil_append, List.Nodup.mem_erase_iff List.nodup_range]; simp [hka, hk])
    · rw [atrous_length, Arr.line_length]
  · simp

theorem foldr_sumAxis_mul {shape : List ℕ} (F : (ℕ → ℕ) → K) (t : K) (L : List ℕ) :
    L.foldr (sumAxis shape) (fun i => t * F i) = fun idx => t * L.foldr (sumAxis shape) F idx := by
  induction L with
  | nil => rfl
  | cons k L ih =>
    funext idx
    simp only [List.foldr_cons, ih, sumAxis, mul_sum]

theorem along_energy {w : Wavelet K} (h : KeepsBoth w) {x : Arr K} {ax : ℕ} (ha : ax < x.shape.length) (step : ℕ) :
    (x.along ax (x.shape.getD ax 0) (atrous w.dec_lo step)).energy +
      (x.along ax (x.shape.getD ax 0) (atrous w.dec_hi step)).energy = x.energy := by
  show Arr.sumBy (fun v : K => v * v) _ + Arr.sumBy (fun v : K => v * v) _ = Arr.sumBy (fun v : K => v * v) x
  rw [sumBy_along ha, sumBy_along ha, x.sumBy_lines _ ha fun _ => 0]
  have := congrFun (foldr_sumAxis_add (shape := x.shape)
    (fun i => ((atrous w.dec_lo step (x.line ax i)).map fun v : K => v * v).sum)
    (fun i => ((atrous w.dec_hi step (x.line ax i)).map fun v : K => v * v).sum)
    ((List.range x.shape.length).erase ax)) fun _ => 0
  rw [← this]
  apply foldr_sumAxis_congr _ []
  · intro k _; rfl
  · intro idx _
    exact h.1 step _
  · simp

theorem along_sum {x : Arr K} {ax : ℕ} (ha : ax < x.shape.length) (f : List K) (step : ℕ) :
    (x.along ax (x.shape.getD ax 0) (atrous f step)).data.sum = f.sum * x.data.sum := by
  have e : ∀ y : Arr K, y.data.sum = y.sumBy fun v => v := fun y => by rw [Arr.sumBy, List.map_id']
  rw [e, e, sumBy_along ha, x.sumBy_lines _ ha fun _ => 0]
  have := congrFun (foldr_sumAxis_mul (shape := x.shape) (fun i => ((x.line ax i).map fun v : K => v).sum) f.sum
    ((List.range x.shape.length).erase ax)) fun _ => 0
  rw [← this]
  apply foldr_sumAxis_congr _ []
  · intro k _; rfl
  · intro idx _
    simp only [List.map_id', atrous_sum]
  · simp

theorem along_variance {w : Wavelet K} (h : KeepsBoth w) {x : Arr K} {ax : ℕ} (ha : ax < x.shape.length) (step : ℕ) :
    variance (x.along ax (x.shape.getD ax 0) (atrous w.dec_lo step)).data +
      variance (x.along ax (x.shape.getD ax 0) (atrous w.dec_hi step)).data = variance x.data := by
  have hl : ∀ f : List K, (x.along ax (x.shape.getD ax 0) (atrous f step)).data.length = x.data.length := by
    intro f
    rw [Arr.ok, Arr.shape_along, list_set_getD, x.ok]
  have he := along_energy h ha step
  unfold Arr.energy at he
  unfold variance
  rw [along_sum ha, along_sum ha, hl, hl, ← he]
  linear_combination (-(x.data.sum / x.data.length) ^ 2) * h.2

theorem allOrthogonal_stages {wavelet : PerAxis (Wavelet K)} (h : AllOrthogonal wavelet) {ndim : ℕ} {axes : Option (List ℤ)} {t : K}
    (ht : 2 * (t * t) = 1) {st : List (SStage K)} (hr : SwtResolves ndim wavelet axes (some t) st) : ∀ s ∈ st, KeepsBoth s.2 := by
  obtain ⟨-, ws, h1, h2⟩ := hr
  have hws : ∀ w ∈ ws, OrthogonalBank w := by
    unfold PerAxis.expand at h1
    intro w hw
    split at h1
    · simp only [Except.ok.injEq] at h1
      rw [← h1] at hw
      rw [List.eq_of_mem_replicate hw]
      exact h
    · simp only [Except.ok.injEq] at h1
      rw [← h1] at hw
      rw [List.eq_of_mem_replicate hw]
      exact h _ (by simp)
    · split at h1
      · simp at h1
      · simp only [Except.ok.injEq] at h1
        exact h w (h1 ▸ hw)
  intro s hs
  have := List.mem_map_of_mem (f := fun s : SStage K => s.2) hs
  rw [h2] at this
  obtain ⟨w, hw, hws'⟩ := List.mem_map.mp this
  rw [← hws']
  exact keepsBoth_normed (hws w hw) ht

end

end Pywt
