import Verif.Proof.Edit
import Verif.Proof.LinN
import Verif.Proof.PackFmt
import Verif.Props.LinN

/-!
# Proofs for C63, n-D
-/

namespace Pywt

open Finset Spec

set_option autoImplicit false
set_option linter.unusedSectionVars false

variable {R : Type} [CommRing R]

theorem energy_mapCells_lc (P : Arr (R × R)) :
    (P.mapCells (lcMap (R := R) 1 (-1))).energy =
      Spec.Arr.dist2 (P.mapCells (LinearMap.fst R R R)) (P.mapCells (LinearMap.snd R R R)) := by
  unfold Arr.energy Spec.Arr.dist2
  show energy (P.data.map (lcMap (R := R) 1 (-1))) =
    dist2 (P.data.map (LinearMap.fst R R R)) (P.data.map (LinearMap.snd R R R))
  rw [dist2_pairs]
  congr 1
  refine List.map_congr_left fun v _ => ?_
  simp [lcMap, sub_eq_add_neg]

theorem energy_lincomb {a b : Arr R} (h : a.shape = b.shape) :
    (Arr.lincomb (1 : R) (-1) a b).energy = Spec.Arr.dist2 a b := by
  rw [← Arr.pair_lc, energy_mapCells_lc, Arr.pair_fst, Arr.pair_snd h]

theorem energy_lincombD {d e : List (Key × Arr R)}
    (h : d.map (fun p => (p.1, p.2.shape)) = e.map fun p => (p.1, p.2.shape)) :
    ((lincombD (1 : R) (-1) d e).map fun p => p.2.energy).sum =
      (List.zipWith (fun p q => Spec.Arr.dist2 p.2 q.2) d e).sum := by
  induction d generalizing e with
  | nil => simp [lincombD]
  | cons u d ih =>
    cases e with
    | nil => simp at h
    | cons v e =>
      simp only [List.map_cons, List.cons.injEq, Prod.mk.injEq] at h
      have i := ih h.2
      unfold lincombD at *
      simp only [List.zipWith_cons_cons, List.map_cons, List.sum_cons, i, energy_lincomb h.1.2]

theorem energy_lincombDs {ds es : List (List (Key × Arr R))} (h : layout ds = layout es) :
    ((List.zipWith (lincombD (1 : R) (-1)) ds es).map fun d => (d.map fun p => p.2.energy).sum).sum =
      dist2D ds es := by
  induction ds generalizing es with
  | nil => simp [dist2D]
  | cons d ds ih =>
    cases es with
    | nil => simp [layout] at h
    | cons e es =>
      simp only [layout, List.map_cons, List.cons.injEq] at h
      have i := ih (es := es) (by unfold layout; exact h.2)
      unfold dist2D at *
      simp only [List.zipWith_cons_cons, List.map_cons, List.sum_cons, i, energy_lincombD h.1]

/-- The conditions on the stages that the linearity of `wavedecn` needs. -/
theorem OrthogonalStages.bounds {st : List (Stage R)} {shape : List ℕ} {m : ℕ} (h : OrthogonalStages st shape m) :
    ∀ s ∈ st, s.1 < shape.length ∧ s.2.1.Ok := fun s hs => ⟨(h.2 s hs).2.2.1, (h.2 s hs).2.1.1⟩

theorem wavedecn_dist {st : List (Stage R)} (hne : st ≠ []) {x y : Arr R} {wavelet : PerAxis (Wavelet R)}
    {mode : PerAxis Mode} {axes : Option (List ℤ)} {l : ℕ} (hr : Resolves x.ndim wavelet mode axes st)
    (hst : OrthogonalStages st x.shape (2 ^ l)) (hs : y.shape = x.shape) {A B : Arr R}
    {ds es : List (List (Key × Arr R))}
    (hx : wavedecn x wavelet mode (some (l : ℤ)) axes = .ok (.arr A :: ds.map Item.ofDict))
    (hy : wavedecn y wavelet mode (some (l : ℤ)) axes = .ok (.arr B :: es.map Item.ofDict)) :
    Spec.Arr.dist2 B A + dist2D es ds = Spec.Arr.dist2 y x := by
  have hyd : y.ndim = x.ndim := by unfold Arr.ndim; rw [hs]
  obtain ⟨B', es', A', ds', c1, c2, c3, c4, c5⟩ := C51_wavedecn_linear (x := y) (y := x) hne (hyd.symm ▸ hr)
    (hyd.symm ▸ hst.bounds) hst.1 hs hy (1 : R) (-1)
  simp only [List.cons.injEq, Item.arr.injEq] at c1
  obtain ⟨rfl, c1⟩ := c1
  obtain rfl : es = es' := List.map_injective_iff.mpr Item.ofDict_injective c1
  rw [hx] at c2
  simp only [Except.ok.injEq, List.cons.injEq, Item.arr.injEq] at c2
  obtain ⟨rfl, c2⟩ := c2
  obtain rfl : ds = ds' := List.map_injective_iff.mpr Item.ofDict_injective c2
  have hz : (Arr.lincomb (1 : R) (-1) y x).shape = x.shape := (lincomb_shape _ _ _ _).trans hs
  obtain ⟨C, fs, d1, -, d3⟩ := C17_wavedecn_energy (x := Arr.lincomb (1 : R) (-1) y x) (l := l) hne
    (wavelet := wavelet) (mode := mode) (axes := axes) (by unfold Arr.ndim; rw [hz]; exact hr)
    (by rw [hz]; exact hst)
  rw [c5] at d1
  simp only [Except.ok.injEq, List.cons.injEq, Item.arr.injEq] at d1
  obtain ⟨rfl, d1⟩ := d1
  obtain rfl := List.map_injective_iff.mpr Item.ofDict_injective d1
  rw [energy_lincomb c3, energy_lincombDs c4, energy_lincomb hs] at d3
  exact d3

theorem synthShape_decShape_even {st : List (Stage R)} {S : List ℕ} (hn : (st.map (·.1)).Nodup)
    (h : ∀ s ∈ st, s.2.2 = .periodization ∧ s.1 < S.length ∧ 2 ∣ S.getD s.1 0) :
    synthShape st (decShape st S) = S := by
  have hb : ∀ s ∈ st, s.1 < S.length := fun s hs => (h s hs).2.1
  obtain ⟨d1, d2⟩ := decShape_getD hn hb
  refine List.ext_getElem (by rw [synthShape_length, decShape_length]) fun j j1 j2 => ?_
  rw [← List.getD_eq_getElem _ 0 j1, ← List.getD_eq_getElem _ 0 j2]
  by_cases hj : j ∈ st.map (·.1)
  · obtain ⟨s, hs, rfl⟩ := List.mem_map.mp hj
    obtain ⟨s1, s2, s3⟩ := h s hs
    rw [synthShape_eq hn hs (by rw [decShape_length]; exact s2), d2 s hs, s1]
    simp only [coeffLen, synthLen, if_true]
    omega
  · rw [synthShape_ne hj, d1 j hj]

theorem doubling_cascadeN {st : List (Stage R)} {x : Arr R} (hne : st ≠ []) (hn : (st.map (·.1)).Nodup) :
    ∀ {k : ℕ}, (∀ s ∈ st, s.2.2 = .periodization ∧ s.1 < x.shape.length ∧ 2 ^ k ∣ x.shape.getD s.1 0) →
      DoublingDicts st ((List.range k).map fun j => x.detailsN st j).reverse (x.approxN st k).shape ∧
        (synthShape st)^[k] (x.approxN st k).shape = x.shape
  | 0, _ => ⟨by trivial, rfl⟩
  | k + 1, h => by
      have hb : ∀ s ∈ st, s.1 < x.shape.length := fun s hs => (h s hs).2.1
      obtain ⟨i1, i2⟩ := doubling_cascadeN hne hn (k := k) fun s hs =>
        ⟨(h s hs).1, (h s hs).2.1, dvd_trans (pow_dvd_pow 2 (by omega)) (h s hs).2.2⟩
      have e : synthShape st (x.approxN st (k + 1)).shape = (x.approxN st k).shape := by
        rw [Arr.shape_approxN, Function.iterate_succ_apply', ← Arr.shape_approxN]
        refine synthShape_decShape_even hn fun s hs => ?_
        obtain ⟨h1, h2, h3⟩ := h s hs
        rw [Arr.shape_approxN]
        obtain ⟨p1, p2⟩ := decShape_iter_getD hn hb k
        rw [p1, p2 s hs, h1, approxLen_per_div (dvd_trans (pow_dvd_pow 2 (by omega)) h3)]
        refine ⟨rfl, h2, ?_⟩
        obtain ⟨m, hm⟩ := h3
        rw [hm, pow_succ, mul_assoc, Nat.mul_div_cancel_left _ (by positivity)]
        exact ⟨m, rfl⟩
      refine ⟨?_, by rw [Function.iterate_succ_apply, e, i2]⟩
      rw [List.range_succ, List.map_append, List.reverse_append]
      refine ⟨detailsN_keys st k x, fun p hp => ?_, by rw [e]; exact i1⟩
      rw [Arr.shape_approxN]
      exact ((levelShape_detailsN hne k x).1 p hp).2.2

theorem doublingDicts_layout {st : List (Stage R)} : ∀ {ds es : List (List (Key × Arr R))} {S : List ℕ},
    layout es = layout ds → DoublingDicts st ds S → DoublingDicts st es S
  | [], [], _, _, _ => by trivial
  | d :: ds, e :: es, S, h, hd => by
      simp only [layout, List.map_cons, List.cons.injEq] at h
      obtain ⟨h1, h2⟩ := h
      refine ⟨?_, fun p hp => ?_, doublingDicts_layout (by unfold layout; exact h2) hd.2.2⟩
      · have := congrArg (List.map Prod.fst) h1
        rw [List.map_map, List.map_map] at this
        exact (this : e.map (·.1) = d.map (·.1)).trans hd.1
      · have : (p.1, p.2.shape) ∈ d.map fun p => (p.1, p.2.shape) := h1 ▸ List.mem_map_of_mem hp
        obtain ⟨q, hq, hq2⟩ := List.mem_map.mp this
        rw [← (Prod.mk.inj hq2).2]
        exact hd.2.1 q hq

theorem waverecn_edited {st : List (Stage R)} (hne : st ≠ []) {x : Arr R} {wavelet : PerAxis (Wavelet R)}
    {mode : PerAxis Mode} {axes : Option (List ℤ)} {l : ℕ} (hr : Resolves x.ndim wavelet mode axes st)
    (hst : OrthogonalStages st x.shape (2 ^ l)) {A A' : Arr R} {ds ds' : List (List (Key × Arr R))}
    (hx : wavedecn x wavelet mode (some (l : ℤ)) axes = .ok (.arr A :: ds.map Item.ofDict))
    (hA : A'.shape = A.shape) (hds : layout ds' = layout ds) :
    ∃ y, waverecn (.arr A' :: ds'.map Item.ofDict) wavelet mode axes = .ok (.arr y) ∧ y.shape = x.shape ∧
      wavedecn y wavelet mode (some (l : ℤ)) axes = .ok (.arr A' :: ds'.map Item.ofDict) := by
  have hper : PerStages st := fun s hs => ⟨(hst.2 s hs).1, (hst.2 s hs).2.1.1, (hst.2 s hs).2.1.2.2.2⟩
  have hxs : ∀ s ∈ st, s.1 < x.shape.length ∧ 1 ≤ x.shape.getD s.1 0 :=
    fun s hs => ⟨(hst.2 s hs).2.2.1, (hst.2 s hs).2.2.2.1⟩
  have hd : 1 ≤ x.shape.length := by
    cases st with
    | nil => exact absurd rfl hne
    | cons s st => have := (hxs s (by simp)).1; omega
  obtain ⟨L, -, h⟩ := wavedecn_eq (wavelet := wavelet) (mode := mode) (axes := axes) (st := st) hd hne hr
      (fun s hs => ⟨(hxs s hs).1, (hper s hs).2.1⟩) hst.1
  have e1 : wavedecn x wavelet mode (some (l : ℤ)) axes = .ok (.arr (x.approxN st l) ::
      (((List.range l).map fun j => x.detailsN st j).reverse).map Item.ofDict) := by
    rw [h]
    have e0 : ¬ (some (l : ℤ)).any (· < 0) = true := by simp
    rw [if_neg e0]
    simp only [Option.map_some, Int.toNat_natCast, Option.getD_some]
    rw [if_pos (perStages_levels hper hst.1 _ hxs)]
    unfold Arr.cascadeN
    rw [List.map_reverse, List.map_map]
    rfl
  rw [hx] at e1
  simp only [Except.ok.injEq, List.cons.injEq, Item.arr.injEq] at e1
  obtain ⟨rfl, e1⟩ := e1
  obtain rfl := List.map_injective_iff.mpr Item.ofDict_injective e1
  obtain ⟨g1, g2⟩ := doubling_cascadeN (x := x) hne hst.1 (k := l) fun s hs =>
    ⟨(hst.2 s hs).1, (hst.2 s hs).2.2.1, (hst.2 s hs).2.2.2.2⟩
  have hlen : ds'.length = l := by
    rw [← layout_length hds]
    simp
  rw [← hA] at g1 g2
  have hAl : A'.shape.length = x.shape.length := by
    rw [hA]
    exact Arr.approxN_ndim st l x
  obtain ⟨y, y1, y2, y3⟩ := C54_wavedecn_waverecn hper hst.1 hne (A := A') (ds := ds') (wavelet := wavelet)
    (mode := mode) (axes := axes) (fun s hs => by
      rw [hAl]
      refine ⟨(hxs s hs).1, ?_⟩
      rw [hA, Arr.shape_approxN, (decShape_iter_getD hst.1 (fun s hs => (hxs s hs).1) l).2 s hs, (hst.2 s hs).1,
        approxLen_per_div (hst.2 s hs).2.2.2.2]
      exact Nat.div_pos (Nat.le_of_dvd (hxs s hs).2 (hst.2 s hs).2.2.2.2) (by positivity))
    (doublingDicts_layout hds g1) (by unfold Arr.ndim; rw [hAl]; exact hr)
  rw [hlen] at y2 y3
  exact ⟨y, y1, y2.trans g2, y3⟩

end Pywt
