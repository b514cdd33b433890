import Verif.Proof.Edit
import Verif.Proof.EditN
import Verif.Spec.Shrink

/-!
# Proofs for C72
-/

namespace Pywt

open Finset Spec

set_option autoImplicit false
set_option linter.unusedSectionVars false

section
variable {K : Type} [Field K] [LinearOrder K] [IsStrictOrderedRing K]

/-- One coefficient, mode soft. -/
theorem soft_prox {t v z : K} (ht : 0 < t) {v' : K} (hv : v' = max (v - t) 0 + min (v + t) 0) :
    (v' - v) * (v' - v) + 2 * (t * |v'|) + (z - v') * (z - v') ≤ (z - v) * (z - v) + 2 * (t * |z|) := by
  have key : (v - v') * (z - v') ≤ t * |z| - t * |v'| := by
    have h1 : |v - v'| ≤ t := by
      rw [abs_sub_comm, hv]
      exact (soft_bounds ht).1
    have h2 : (v - v') * v' = t * |v'| := by
      rcases le_total (v - t) 0 with a | a <;> rcases le_total (v + t) 0 with b | b
      · rw [max_eq_right a, min_eq_left b, zero_add] at hv
        rw [hv, abs_of_nonpos b]
        ring
      · rw [max_eq_right a, min_eq_right b, zero_add] at hv
        rw [hv]
        simp
      · linarith
      · rw [max_eq_left a, min_eq_right b, add_zero] at hv
        rw [hv, abs_of_nonneg a]
        ring
    have h3 : (v - v') * z ≤ t * |z| := by
      calc (v - v') * z ≤ |(v - v') * z| := le_abs_self _
        _ = |v - v'| * |z| := abs_mul _ _
        _ ≤ t * |z| := mul_le_mul_of_nonneg_right h1 (abs_nonneg _)
    have : (v - v') * (z - v') = (v - v') * z - (v - v') * v' := by ring
    linarith
  have : (z - v) * (z - v) = (v' - v) * (v' - v) + (z - v') * (z - v') - 2 * ((v - v') * (z - v')) := by ring
  linarith

theorem soft_prox_list {t : K} (ht : 0 < t) : ∀ {c c' z : List K},
    List.Forall₂ (fun v v' => v' = max (v - t) 0 + min (v + t) 0) c c' → z.length = c.length →
    dist2 c' c + 2 * (t * (c'.map fun v => |v|).sum) + dist2 z c' ≤ dist2 z c + 2 * (t * (z.map fun v => |v|).sum)
  | [], [], z, _, hz => by
      rw [List.length_eq_zero_iff.mp hz]
      simp [dist2]
  | v :: c, v' :: c', [], _, hz => by simp at hz
  | v :: c, v' :: c', u :: z, .cons h1 h2, hz => by
      have ih := soft_prox_list ht h2 (z := z) (by simpa using hz)
      have h := soft_prox (z := u) ht h1
      simp only [dist2, List.zipWith_cons_cons, List.sum_cons, List.map_cons] at ih ⊢
      linarith

theorem softAll_prox : ∀ {ts : List (Option K)} {cs cs' zs : List (List K)}, ThresholdedAll "soft" ts cs cs' →
    zs.map List.length = cs.map List.length →
    dist2s cs' cs + 2 * penalty1 ts cs' + dist2s zs cs' ≤ dist2s zs cs + 2 * penalty1 ts zs
  | [], [], [], zs, _, hz => by
      simp at hz
      subst hz
      simp [dist2s, penalty1]
  | none :: ts, c :: cs, c' :: cs', [], _, hz => by simp at hz
  | some t :: ts, c :: cs, c' :: cs', [], _, hz => by simp at hz
  | none :: ts, c :: cs, c' :: cs', z :: zs, h, hz => by
      obtain ⟨rfl, h2⟩ := h
      simp only [List.map_cons, List.cons.injEq] at hz
      have ih := softAll_prox h2 hz.2
      simp only [dist2s, penalty1, List.zipWith_cons_cons, List.sum_cons, Option.getD_none, zero_mul, zero_add,
        dist2_refl] at ih ⊢
      linarith
  | some t :: ts, c :: cs, c' :: cs', z :: zs, h, hz => by
      obtain ⟨ht, h1, h2⟩ := h
      simp only [List.map_cons, List.cons.injEq] at hz
      have ih := softAll_prox h2 hz.2
      have a := soft_prox_list ht ((thresholded_shrink (factor := softFactor) h1).imp fun v v' hv => soft_scale ht hv) hz.1
      simp only [dist2s, penalty1, List.zipWith_cons_cons, List.sum_cons, Option.getD_some] at ih ⊢
      linarith

theorem hardAll_prox : ∀ {ts : List (Option K)} {cs cs' zs : List (List K)}, ThresholdedAll "hard" ts cs cs' →
    zs.map List.length = cs.map List.length →
    dist2s cs' cs + penalty0 ts cs' ≤ dist2s zs cs + penalty0 ts zs
  | [], [], [], zs, _, hz => by
      simp at hz
      subst hz
      simp [dist2s, penalty0]
  | none :: ts, c :: cs, c' :: cs', [], _, hz => by simp at hz
  | some t :: ts, c :: cs, c' :: cs', [], _, hz => by simp at hz
  | none :: ts, c :: cs, c' :: cs', z :: zs, h, hz => by
      obtain ⟨rfl, h2⟩ := h
      simp only [List.map_cons, List.cons.injEq] at hz
      have ih := hardAll_prox h2 hz.2
      have := dist2_nonneg c' z
      simp only [dist2s, penalty0, List.zipWith_cons_cons, List.sum_cons, Option.getD_none, dist2_refl] at ih ⊢
      simp only [ne_eq, OfNat.ofNat_ne_zero, not_false_eq_true, zero_pow, zero_mul, zero_add]
      linarith
  | some t :: ts, c :: cs, c' :: cs', z :: zs, h, hz => by
      obtain ⟨ht, h1, h2⟩ := h
      simp only [List.map_cons, List.cons.injEq] at hz
      have ih := hardAll_prox h2 hz.2
      have a := hard_best ht.le (thresholded_hard h1) z hz.1
      simp only [dist2s, penalty0, List.zipWith_cons_cons, List.sum_cons, Option.getD_some] at ih ⊢
      rw [mul_sub] at a
      linarith

theorem thresholdedArr_data {mode : String} (hm : mode ∈ ["soft", "hard"]) {t : K} {a a' : Arr K}
    (h : threshold realDtype a t mode 0 = .ok (a'.mapCells Cell.num)) :
    Thresholded t mode a.data a'.data ∧ a'.shape = a.shape := by
  have aux : ∀ f : K → Cell K, (pure (a.mapCells f) : Py _) = .ok (a'.mapCells Cell.num) →
      (pure ((vec1 a.data).mapCells f) : Py _) = .ok (vec1 (a'.data.map Cell.num)) ∧ a'.shape = a.shape := by
    intro f h
    have h1 := Except.ok.inj h
    have h2 : a.data.map f = a'.data.map Cell.num := congrArg Arr.data h1
    have h3 : a.shape = a'.shape := congrArg (fun b : Arr (Cell K) => b.shape) h1
    refine ⟨congrArg Except.ok ?_, h3.symm⟩
    have h4 : (vec1 a.data).mapCells f = vec1 (a.data.map f) := by
      unfold vec1 Arr.mapCells
      rw [Arr.mk.injEq]
      exact ⟨by rw [List.length_map], rfl⟩
    rw [h4, h2]
  simp only [List.mem_cons, List.not_mem_nil, or_false] at hm
  rcases hm with rfl | rfl
  · change shrink realDtype softFactor t 0 a = _ at h
    show shrink realDtype softFactor t 0 (vec1 a.data) = _ ∧ _
    unfold shrink at h ⊢
    by_cases h0 : a.ndim = 0
    · rw [if_pos h0] at h
      exact absurd h (by simp [throw, throwThe, MonadExceptOf.throw])
    · rw [if_neg h0, if_pos rfl] at h
      rw [if_neg (by simp [vec1, Arr.ndim]), if_pos rfl]
      exact aux _ h
  · exact aux _ h

theorem thresholdedArrs_data {mode : String} (hm : mode ∈ ["soft", "hard"]) : ∀ {ts : List (Option K)} {as as' : List (Arr K)},
    ThresholdedArrs mode ts as as' → ThresholdedAll mode ts (as.map Arr.data) (as'.map Arr.data) ∧
      as'.map Arr.shape = as.map Arr.shape
  | [], [], [], _ => ⟨trivial, rfl⟩
  | none :: ts, a :: as, a' :: as', h => by
      obtain ⟨rfl, h2⟩ := h
      obtain ⟨i1, i2⟩ := thresholdedArrs_data hm h2
      exact ⟨⟨rfl, i1⟩, by rw [List.map_cons, List.map_cons, i2]⟩
  | some t :: ts, a :: as, a' :: as', h => by
      obtain ⟨h0, h1, h2⟩ := h
      obtain ⟨i1, i2⟩ := thresholdedArrs_data hm h2
      obtain ⟨j1, j2⟩ := thresholdedArr_data hm h1
      exact ⟨⟨h0, j1, i1⟩, by rw [List.map_cons, List.map_cons, i2, j2]⟩

end

section
variable {R : Type} [CommRing R]

theorem dist2s_append {as bs cs ds : List (List R)} (h : as.length = cs.length) :
    dist2s (as ++ bs) (cs ++ ds) = dist2s as cs + dist2s bs ds := by
  unfold dist2s
  rw [List.zipWith_append h, List.sum_append]

theorem dist2D_flat : ∀ {ds es : List (List (Key × Arr R))}, layout ds = layout es →
    dist2D ds es = dist2s ((ds.flatMap fun d => d.map fun p => p.2).map Arr.data)
      ((es.flatMap fun d => d.map fun p => p.2).map Arr.data)
  | [], [], _ => by simp [dist2D, dist2s]
  | [], _ :: _, h => by simp [layout] at h
  | _ :: _, [], h => by simp [layout] at h
  | d :: ds, e :: es, h => by
      simp only [layout, List.map_cons, List.cons.injEq] at h
      have ih := dist2D_flat (ds := ds) (es := es) (by unfold layout; exact h.2)
      have hl : d.length = e.length := by simpa using congrArg List.length h.1
      unfold dist2D at ih ⊢
      rw [List.zipWith_cons_cons, List.sum_cons, ih, List.flatMap_cons, List.flatMap_cons, List.map_append, List.map_append,
        dist2s_append (by simp [hl])]
      congr 1
      unfold dist2s
      rw [List.map_map, List.map_map, List.zipWith_map]
      rfl

theorem coefArrs_dist {A B : Arr R} {ds es : List (List (Key × Arr R))} (h : layout ds = layout es) :
    Spec.Arr.dist2 A B + dist2D ds es = dist2s ((coefArrs A ds).map Arr.data) ((coefArrs B es).map Arr.data) := by
  rw [dist2D_flat h]
  rfl

theorem coefArrs_lens {A B : Arr R} {ds es : List (List (Key × Arr R))} (hA : A.shape = B.shape) (h : layout ds = layout es) :
    ((coefArrs A ds).map Arr.data).map List.length = ((coefArrs B es).map Arr.data).map List.length := by
  have e : ∀ (A : Arr R) (ds : List (List (Key × Arr R))), ((coefArrs A ds).map Arr.data).map List.length =
      A.shape.prod :: ((layout ds).flatMap fun d => d.map fun p => p.2.prod) := by
    intro A ds
    unfold coefArrs layout
    rw [List.map_cons, List.map_cons, A.ok]
    congr 1
    rw [List.map_map, List.map_flatMap, List.flatMap_map]
    refine congrArg (fun f => List.flatMap f ds) (funext fun d => ?_)
    rw [List.map_map, List.map_map]
    refine List.map_congr_left fun p _ => ?_
    exact p.2.ok
  rw [e, e, hA, h]

/-- Arrays of the same shape have coefficients of the same shapes. -/
theorem wavedecn_layouts {st : List (Stage R)} (hne : st ≠ []) {x y : Arr R} {wavelet : PerAxis (Wavelet R)}
    {mode : PerAxis Mode} {axes : Option (List ℤ)} {l : ℕ} (hr : Resolves x.ndim wavelet mode axes st)
    (hst : OrthogonalStages st x.shape (2 ^ l)) (hs : y.shape = x.shape) {A B : Arr R}
    {ds es : List (List (Key × Arr R))}
    (hx : wavedecn x wavelet mode (some (l : ℤ)) axes = .ok (.arr A :: ds.map Item.ofDict))
    (hy : wavedecn y wavelet mode (some (l : ℤ)) axes = .ok (.arr B :: es.map Item.ofDict)) :
    B.shape = A.shape ∧ layout es = layout ds := by
  have hyd : y.ndim = x.ndim := by unfold Arr.ndim; rw [hs]
  obtain ⟨B', es', A', ds', c1, c2, c3, c4, c5⟩ := C51_wavedecn_linear (x := y) (y := x) hne (hyd.symm ▸ hr)
    (hyd.symm ▸ hst.bounds) hst.1 hs hy (1 : R) (-1)
  simp only [List.cons.injEq, Item.arr.injEq] at c1
  obtain ⟨rfl, c1⟩ := c1
  obtain rfl : es = es' := List.map_injective_iff.mpr Item.ofDict_injective c1
  rw [hx] at c2
  simp only [Except.ok.injEq, List.cons.injEq, Item.arr.injEq] at c2
  obtain ⟨rfl, c2⟩ := c2
  obtain rfl : ds = ds' := List.map_injective_iff.mpr Item.ofDict_injective c2
  exact ⟨c3, c4⟩

theorem keepOnly_lens : ∀ {keep : List Bool} {cs : List (List R)}, keep.length = cs.length →
    (keepOnly keep cs).map List.length = cs.map List.length
  | [], [], _ => rfl
  | [], _ :: _, h => by simp at h
  | _ :: _, [], h => by simp at h
  | b :: keep, c :: cs, h => by
      have ih := keepOnly_lens (keep := keep) (cs := cs) (by simpa using h)
      unfold keepOnly at ih ⊢
      rw [List.zipWith_cons_cons, List.map_cons, List.map_cons, ih]
      cases b <;> simp

theorem dist2_fill0 : ∀ {c z : List R}, z.length = c.length → (∀ v ∈ z, v = 0) →
    dist2 z c = dist2 (c.map fun _ => (0 : R)) c ∧ dist2 z (c.map fun _ => (0 : R)) = 0
  | [], [], _, _ => ⟨rfl, rfl⟩
  | [], _ :: _, h, _ => by simp at h
  | _ :: _, [], h, _ => by simp at h
  | v :: c, u :: z, h, hz => by
      obtain ⟨i1, i2⟩ := dist2_fill0 (c := c) (z := z) (by simpa using h) fun v hv => hz v (by simp [hv])
      have hu := hz u (by simp)
      subst hu
      simp only [dist2, List.zipWith_cons_cons, List.sum_cons, List.map_cons] at i1 i2 ⊢
      rw [i1, i2]
      simp

theorem keepOnly_dist : ∀ {keep : List Bool} {cs zs : List (List R)}, keep.length = cs.length →
    zs.map List.length = cs.map List.length → keepOnly keep zs = zs →
    dist2s zs cs = dist2s (keepOnly keep cs) cs + dist2s zs (keepOnly keep cs)
  | [], [], [], _, _, _ => by simp [dist2s, keepOnly]
  | [], _ :: _, _, h, _, _ => by simp at h
  | _ :: _, [], _, h, _, _ => by simp at h
  | _, c :: cs, [], _, h, _ => by simp at h
  | _, [], z :: zs, _, h, _ => by simp at h
  | b :: keep, c :: cs, z :: zs, h, hl, hk => by
      simp only [List.map_cons, List.cons.injEq] at hl
      unfold keepOnly at hk
      rw [List.zipWith_cons_cons, List.cons.injEq] at hk
      have ih := keepOnly_dist (keep := keep) (cs := cs) (zs := zs) (by simpa using h) hl.2 hk.2
      unfold keepOnly dist2s at ih ⊢
      simp only [List.zipWith_cons_cons, List.sum_cons]
      rw [ih]
      cases b with
      | true =>
        simp only [if_true, dist2_refl]
        ring
      | false =>
        have hz : ∀ v ∈ z, v = 0 := by
          intro v hv
          rw [← hk.1] at hv
          simp only [Bool.false_eq_true, if_false] at hv
          obtain ⟨_, _, rfl⟩ := List.mem_map.1 hv
          rfl
        obtain ⟨i1, i2⟩ := dist2_fill0 hl.1 hz
        simp only [Bool.false_eq_true, if_false]
        rw [i1, i2]
        ring

end

end Pywt
