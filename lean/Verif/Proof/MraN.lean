import Verif.Model.MraN
import Verif.Proof.RecN
import Verif.Proof.ArrMap
import Verif.Proof.Mra
import Verif.Proof.SwtNTop
import Verif.Proof.Ravel

/-!
# Multiresolution analysis of n-D arrays
-/

namespace Pywt

open Finset Spec

set_option linter.unusedSectionVars false

variable {R M : Type} [Ring R] [AddCommGroup M] [Module R M]

/-! ### The loops of `mran` -/

theorem dictSet_map {α β : Type} {d : List (Key × α)} (hn : (d.map (·.1)).Nodup) (f : Key × α → β) {k : Key}
    (hk : k ∈ d.map (·.1)) (v : β) :
    dictSet (d.map fun p => (p.1, f p)) k v = d.map fun p => (p.1, if p.1 = k then v else f p) := by
  induction d with
  | nil => simp at hk
  | cons p d ih =>
    simp only [List.map_cons, List.nodup_cons] at hn
    simp only [List.map_cons, dictSet]
    by_cases h : p.1 = k
    · rw [if_pos h, if_pos h, ← h]
      congr 1
      apply List.map_congr_left
      intro q hq
      rw [if_neg]
      intro e
      exact hn.1 (e ▸ List.mem_map_of_mem hq)
    · rw [if_neg h, if_neg h]
      congr 1
      refine ih hn.2 ?_
      rw [List.map_cons, List.mem_cons] at hk
      exact hk.resolve_left (Ne.symm h)

theorem lookupKey_map {α β : Type} {d : List (Key × α)} (hn : (d.map (·.1)).Nodup) (f : Key × α → β)
    {p : Key × α} (hp : p ∈ d) : lookupKey (d.map fun p => (p.1, f p)) p.1 = .ok (f p) := by
  have h := lookupKey_of_nodup (c := d.map fun p => (p.1, f p)) (by simpa [List.map_map, Function.comp_def] using hn)
    (p := (p.1, f p)) (List.mem_map_of_mem hp)
  exact h

theorem onlyD_none (ds : List (ADict M)) :
    (ds.map fun d => d.map fun p => (p.1, p.2.zerosLike)) = onlyD ds none := by
  unfold onlyD
  apply List.ext_getElem (by simp)
  intro j h1 h2
  simp [Arr.zerosLike, Arr.zero]

theorem onlyD_getD (ds : List (ADict M)) (i : Option (ℕ × Key)) {j : ℕ} (hj : j < ds.length) :
    (onlyD ds i).getD j [] = ds[j].map fun p => (p.1, if i = some (j, p.1) then p.2 else Arr.zero p.2.shape) := by
  unfold onlyD
  rw [List.getD_eq_getElem (hn := by simpa using hj), List.getElem_mapIdx]

theorem onlyD_length (ds : List (ADict M)) (i : Option (ℕ × Key)) : (onlyD ds i).length = ds.length := by
  simp [onlyD]

theorem key_unique {α : Type} {d : List (Key × α)} (hn : (d.map (·.1)).Nodup) {p q : Key × α} (hp : p ∈ d)
    (hq : q ∈ d) (h : p.1 = q.1) : p = q := by
  have h1 := lookupKey_of_nodup hn hp
  have h2 := lookupKey_of_nodup hn hq
  rw [h, h2] at h1
  exact Prod.ext h (by simpa using h1.symm)

theorem onlyD_put {ds : List (ADict M)} {j : ℕ} (hj : j < ds.length) (hn : (ds[j].map (·.1)).Nodup)
    {p : Key × Arr M} (hp : p ∈ ds[j]) :
    (onlyD ds none).set j (dictSet ((onlyD ds none).getD j []) p.1 p.2) = onlyD ds (some (j, p.1)) := by
  rw [onlyD_getD ds _ hj, dictSet_map hn _ (List.mem_map_of_mem hp)]
  apply List.ext_getElem (by simp [onlyD])
  intro l h1 h2
  rw [List.getElem_set]
  split
  · rename_i h
    subst h
    simp only [onlyD, List.getElem_mapIdx]
    apply List.map_congr_left
    intro q hq
    refine Prod.ext rfl ?_
    simp only [Option.some.injEq, Prod.mk.injEq, true_and, reduceCtorEq, if_false]
    by_cases hqp : q.1 = p.1
    · rw [if_pos hqp, if_pos hqp.symm, key_unique hn hq hp hqp]
    · rw [if_neg hqp, if_neg (Ne.symm hqp)]
  · rename_i h
    simp only [onlyD, List.getElem_mapIdx]
    apply List.map_congr_left
    intro q hq
    simp [h]

theorem onlyD_take {ds : List (ADict M)} {j : ℕ} (hj : j < ds.length) (hn : (ds[j].map (·.1)).Nodup)
    {p : Key × Arr M} (hp : p ∈ ds[j]) :
    (onlyD ds (some (j, p.1))).set j (dictSet ((onlyD ds (some (j, p.1))).getD j []) p.1 (Arr.zero p.2.shape)) =
      onlyD ds none := by
  rw [onlyD_getD ds _ hj, dictSet_map hn _ (List.mem_map_of_mem hp)]
  apply List.ext_getElem (by simp [onlyD])
  intro l h1 h2
  rw [List.getElem_set]
  split
  · rename_i h
    subst h
    simp only [onlyD, List.getElem_mapIdx]
    apply List.map_congr_left
    intro q hq
    refine Prod.ext rfl ?_
    simp only [Option.some.injEq, Prod.mk.injEq, true_and, reduceCtorEq, if_false]
    by_cases hqp : q.1 = p.1
    · rw [if_pos hqp, key_unique hn hq hp hqp]
    · rw [if_neg hqp, if_neg (Ne.symm hqp)]
  · rename_i h
    simp only [onlyD, List.getElem_mapIdx]
    apply List.map_congr_left
    intro q hq
    simp [h]

theorem mranKeys_ok {inverse : List (ADict M) → Py (Arr M)} {trim : Arr M → Py (Arr M)} {ds : List (ADict M)}
    {j : ℕ} (hj : j < ds.length) (hn : (ds[j].map (·.1)).Nodup) {t : Key → Arr M} (ks : List Key) :
    ∀ acc : ADict M, ks.Nodup → (∀ k ∈ ks, k ∉ acc.map (·.1)) → (∀ k ∈ ks, k ∈ ds[j].map (·.1)) →
      (∀ k ∈ ks, ∃ r, inverse (onlyD ds (some (j, k))) = .ok r ∧ trim r = .ok (t k)) →
      mranKeys inverse trim ds[j] j ks (onlyD ds none) acc =
        .ok (acc ++ ks.map fun k => (k, t k), onlyD ds none) := by
  induction ks with
  | nil => intro acc _ _ _ _; simp [mranKeys, Py_pure]
  | cons k ks ih =>
    intro acc hnd hacc hmem h
    obtain ⟨p, hp, rfl⟩ := List.mem_map.mp (hmem k (by simp))
    obtain ⟨r, r1, r2⟩ := h p.1 (by simp)
    rw [List.nodup_cons] at hnd
    have e1 : lookupKey ((onlyD ds none).getD j []) p.1 = .ok (Arr.zero p.2.shape) := by
      rw [onlyD_getD ds _ hj]
      rw [lookupKey_map hn _ hp]
      simp
    simp only [mranKeys, e1, lookupKey_of_nodup hn hp, Py_bind_ok, onlyD_put hj hn hp, r1, r2,
      onlyD_take hj hn hp]
    rw [dictSet_not_mem (hacc p.1 (by simp)), ih _ hnd.2]
    · simp
    · intro k hk
      rw [List.map_append, List.mem_append, not_or]
      refine ⟨hacc k (by simp [hk]), ?_⟩
      simp only [List.map_cons, List.map_nil, List.mem_singleton]
      rintro rfl
      exact hnd.1 hk
    · exact fun k hk => hmem k (by simp [hk])
    · exact fun k hk => h k (by simp [hk])

theorem mranLevels_ok {inverse : List (ADict M) → Py (Arr M)} {trim : Arr M → Py (Arr M)} {ds : List (ADict M)}
    (hn : ∀ d ∈ ds, (d.map (·.1)).Nodup) {t : ℕ × Key → Arr M}
    (h : ∀ j (hj : j < ds.length), ∀ p ∈ ds[j], ∃ r, inverse (onlyD ds (some (j, p.1))) = .ok r ∧
      trim r = .ok (t (j, p.1))) (js : List ℕ) :
    ∀ out, (∀ j ∈ js, j < ds.length) →
      mranLevels inverse trim ds js (onlyD ds none) out =
        .ok (out ++ js.map fun j => (ds.getD j []).map fun p => (p.1, t (j, p.1))) := by
  induction js with
  | nil => intro out _; simp [mranLevels, Py_pure]
  | cons j js ih =>
    intro out hjs
    have hj := hjs j (by simp)
    have hk := mranKeys_ok (inverse := inverse) (trim := trim) hj (hn _ (List.getElem_mem hj))
      (t := fun k => t (j, k)) (ds[j].map (·.1)) [] (hn _ (List.getElem_mem hj)) (by simp) (fun _ h => h) (by
        intro k hk
        obtain ⟨p, hp, rfl⟩ := List.mem_map.mp hk
        exact h j hj p hp)
    simp only [mranLevels, List.getElem?_eq_getElem hj, hk, Py_bind_ok]
    rw [ih _ fun j hj => hjs j (by simp [hj])]
    rw [List.map_cons, List.getD_eq_getElem (hn := hj)]
    simp [Function.comp_def]

theorem mem_coefPos {ds : List (ADict M)} {j : ℕ} (hj : j < ds.length) {p : Key × Arr M} (hp : p ∈ ds[j]) :
    some (j, p.1) ∈ coefPos ds := by
  unfold coefPos
  rw [List.mem_cons]
  right
  rw [List.mem_flatMap]
  refine ⟨j, by simpa using hj, ?_⟩
  rw [List.getD_eq_getElem (hn := hj)]
  exact List.mem_map_of_mem (List.mem_map_of_mem hp)

/-- The components as `mran` returns them. -/
def compsOf (ds : List (ADict M)) (t : Option (ℕ × Key) → Arr M) : List (ADict M) :=
  (List.range ds.length).map fun j => (ds.getD j []).map fun p => (p.1, t (some (j, p.1)))

theorem mranCore_ok {inverse : Arr M → List (ADict M) → Py (Arr M)} {x A : Arr M} {ds : List (ADict M)}
    (hn : ∀ d ∈ ds, (d.map (·.1)).Nodup) {t : Option (ℕ × Key) → Arr M}
    (h : ∀ i ∈ coefPos ds, ∃ r, inverse (onlyA A i) (onlyD ds i) = .ok r ∧ mraTrim x r = .ok (t i)) :
    mranCore inverse x A ds = .ok (t none, compsOf ds t) := by
  unfold mranCore
  obtain ⟨r, r1, r2⟩ := h none (by simp [coefPos])
  simp only [onlyA, if_true] at r1
  have hz : A.zerosLike = Arr.zero A.shape := rfl
  have hl := mranLevels_ok (inverse := inverse A.zerosLike) (trim := mraTrim x) hn
    (t := fun q => t (some q)) (by
      intro j hj p hp
      obtain ⟨r, r1, r2⟩ := h (some (j, p.1)) (mem_coefPos hj hp)
      simp only [onlyA, reduceCtorEq, if_false] at r1
      exact ⟨r, r1, r2⟩) (List.range ds.length) [] (by simp)
  rw [onlyD_none]
  simp only [r1, Py_bind_ok, r2, hl]
  rfl

theorem compsOf_flat (ds : List (ADict M)) (t : Option (ℕ × Key) → Arr M) :
    t none :: (compsOf ds t).flatMap (fun d => d.map (·.2)) = (coefPos ds).map t := by
  unfold coefPos compsOf
  rw [List.map_cons, List.map_flatMap, List.flatMap_map]
  simp only [List.map_map, Function.comp_def]

/-! ### The components and their sum -/

theorem only_shape {recM : Arr M → List (ADict M) → Arr M}
    {recP : Arr (Option (ℕ × Key) → M) → List (ADict (Option (ℕ × Key) → M)) → Arr (Option (ℕ × Key) → M)}
    (hnat : ∀ (φ : (Option (ℕ × Key) → M) →ₗ[R] M) a ds,
      recM (a.mapCells φ) (ds.map (ADict.mapCells φ)) = (recP a ds).mapCells φ)
    (a : Arr M) (ds : List (ADict M)) (i : Option (ℕ × Key)) :
    (recM (onlyA a i) (onlyD ds i)).shape = (recM a ds).shape := by
  -- both arise from coefficients with the same cells in all coordinates
  set pa : Arr (Option (ℕ × Key) → M) := a.mapCells fun x c => if c = none then x else
    (if i = none then x else 0) with hpa
  set pd : List (ADict (Option (ℕ × Key) → M)) := ds.mapIdx fun j d =>
    d.map fun p => (p.1, p.2.mapCells fun x c => if c = none then x else
      (if i = some (j, p.1) then x else 0)) with hpd
  have h1 : recM (onlyA a i) (onlyD ds i) =
      (recP pa pd).mapCells (LinearMap.proj (R := R) (some (0, []))) := by
    rw [← hnat]
    congr 1
    · rw [hpa, Arr.mapCells_comp]
      unfold onlyA
      split
      · exact (Arr.mapCells_id _ (fun x => by simp) a).symm
      · exact (Arr.mapCells_zero _ (fun x => by simp) a).symm
    · rw [hpd]
      unfold onlyD
      apply List.ext_getElem (by simp)
      intro j hj1 hj2
      simp only [List.getElem_mapIdx, List.getElem_map, ADict.mapCells, List.map_map]
      apply List.map_congr_left
      intro p _
      simp only [Function.comp, Arr.mapCells_comp]
      congr 1
      split
      · rename_i h
        exact (Arr.mapCells_id _ (fun x => by simp) p.2).symm
      · rename_i h
        exact (Arr.mapCells_zero _ (fun x => by simp) p.2).symm
  have h2 : recM a ds = (recP pa pd).mapCells (LinearMap.proj (R := R) none) := by
    rw [← hnat]
    congr 1
    · rw [hpa, Arr.mapCells_comp]
      exact (Arr.mapCells_id _ (fun x => by simp) a).symm
    · rw [hpd]
      apply List.ext_getElem (by simp)
      intro j hj1 hj2
      simp only [List.getElem_mapIdx, List.getElem_map, ADict.mapCells, List.map_map]
      conv_lhs => rw [← List.map_id ds[j]]
      apply List.map_congr_left
      intro p hp
      simp only [Function.comp, Arr.mapCells_comp, id]
      refine Prod.ext rfl ?_
      exact (Arr.mapCells_id _ (fun x => by simp) p.2).symm
  rw [h1, h2]
  rfl

/-- The components of coefficients whose reconstruction extends `x` add up to `x`. -/
theorem mra_only {recM : Arr M → List (ADict M) → Arr M}
    {recP : Arr (Option (ℕ × Key) → M) → List (ADict (Option (ℕ × Key) → M)) → Arr (Option (ℕ × Key) → M)}
    (hnat : ∀ (φ : (Option (ℕ × Key) → M) →ₗ[R] M) a ds,
      recM (a.mapCells φ) (ds.map (ADict.mapCells φ)) = (recP a ds).mapCells φ)
    {a x : Arr M} {ds : List (ADict M)} (hd : ∀ d ∈ ds, (d.map (·.1)).Nodup) (hx : (recM a ds).Extends x) :
    ∃ t : Option (ℕ × Key) → Arr M,
      (∀ i, mraTrim x (recM (onlyA a i) (onlyD ds i)) = .ok (t i) ∧ (t i).shape = x.shape ∧
        (recM (onlyA a i) (onlyD ds i)).Extends (t i)) ∧ imra ((coefPos ds).map t) = .ok x := by
  have h1 : ∀ i, ∃ b, mraTrim x (recM (onlyA a i) (onlyD ds i)) = .ok b ∧ b.shape = x.shape ∧
      (recM (onlyA a i) (onlyD ds i)).Extends b := by
    intro i
    apply mraTrim_ok
    · rw [only_shape hnat]; exact hx.1
    · rw [only_shape hnat]; exact hx.2.1
  choose t ht using h1
  refine ⟨t, ht, ?_⟩
  obtain ⟨y, y1, y2, y3⟩ := imra_ok (l := (coefPos ds).map t) (S := x.shape) (by simp [coefPos]) (by
    intro c hc
    obtain ⟨i, -, rfl⟩ := List.mem_map.mp hc
    exact (ht i).2.1)
  rw [y1]
  congr 1
  refine Arr.ext_get y2 fun idx hidx => ?_
  rw [y2] at hidx
  have hs := sum_only hnat a ds hd idx
  rw [y3, List.map_map]
  rw [← hx.2.2 idx hidx, ← hs]
  congr 1
  apply List.map_congr_left
  intro i _
  have h3 := (ht i).2.2.2.2 idx (by rw [(ht i).2.1]; exact hidx)
  exact h3.symm

/-! ### The coefficients of `wavedecn` fit together -/

theorem StagesOk.each {st : List (Stage R)} {shape : List ℕ} (h : StagesOk st shape) (hn : (st.map (·.1)).Nodup) :
    ∀ s ∈ st, s.1 < shape.length ∧ s.2.1.Ok ∧ LenOk s.2.2 (shape.getD s.1 0) := by
  induction st generalizing shape with
  | nil => intro s hs; simp at hs
  | cons t st ih =>
    simp only [List.map_cons, List.nodup_cons] at hn
    obtain ⟨a1, a2, a3, a4⟩ := h
    intro s hs
    rcases List.mem_cons.mp hs with rfl | hs
    · exact ⟨a1, a2, a3⟩
    · obtain ⟨b1, b2, b3⟩ := ih a4 hn.2 s hs
      refine ⟨by simpa using b1, b2, ?_⟩
      rw [getD_set a1, if_neg] at b3
      · exact b3
      · intro h
        exact hn.1 (h ▸ List.mem_map_of_mem hs)

theorem synthShape_decShape {st : List (Stage R)} {S : List ℕ} (h : StagesOk st S) (hn : (st.map (·.1)).Nodup) :
    SynthFits st (decShape st S) ∧ Near (synthShape st (decShape st S)) S := by
  have he := h.each hn
  have hb : ∀ s ∈ st, s.1 < S.length := fun s hs => (he s hs).1
  obtain ⟨d1, d2⟩ := decShape_getD hn hb
  have hlen : ∀ s ∈ st, synthLen s.2.2 ((decShape st S).getD s.1 0) s.2.1.rec_len =
      S.getD s.1 0 + S.getD s.1 0 % 2 := by
    intro s hs
    have hw := (he s hs).2.1
    have hrl : s.2.1.rec_len = s.2.1.dec_len := hw.2.2.2.1
    rw [d2 s hs, hrl]
    exact synthLen_coeffLen hw.2.1 hw.1
  refine ⟨⟨hn, fun s hs => ⟨by rw [decShape_length]; exact hb s hs, (he s hs).2.1, ?_⟩⟩, ?_⟩
  · rw [hlen s hs]
    have := (he s hs).2.2.1
    omega
  · apply near_of_parity (st := st)
    · rw [synthShape_length, decShape_length]
    · intro s hs
      rw [synthShape_eq hn hs (by rw [decShape_length]; exact hb s hs), hlen s hs]
    · intro j hj
      rw [synthShape_ne hj, d1 j hj]

theorem recnFits_levels {st : List (Stage R)} {S : List ℕ} (hn : (st.map (·.1)).Nodup) {f : ℕ → ADict M} {n : ℕ}
    (hf : ∀ j < n, DictOk (f j) st.length ((decShape st)^[j + 1] S) ∧ f j ≠ []) (hlv : LevelsOkN st S n) :
    ∀ sh, Near sh ((decShape st)^[n] S) → RecnFits st ((List.range n).map f).reverse sh := by
  induction n with
  | zero => intro sh _; exact trivial
  | succ n ih =>
    intro sh hsh
    rw [List.range_succ, List.map_append, List.reverse_append]
    simp only [List.map_cons, List.map_nil, List.reverse_cons, List.reverse_nil, List.nil_append,
      List.cons_append, RecnFits]
    obtain ⟨h1, h2⟩ := hf n (by omega)
    have hds : detailShape (f n) sh = decShape st ((decShape st)^[n] S) := by
      rw [← Function.iterate_succ_apply' (decShape st)]
      cases hfn : f n with
      | nil => exact absurd hfn h2
      | cons p l => exact (h1.2 p (by rw [hfn]; simp)).2
    have h4 := synthShape_decShape (hlv n (by omega)) hn
    rw [Function.iterate_succ_apply'] at h1 hsh
    rw [hds]
    exact ⟨h1, hsh, h4.1, ih (fun j hj => hf j (by omega)) (fun j hj => hlv j (by omega)) _ h4.2⟩

/-- Keys and shapes of a dict. -/
def skel (d : ADict M) : List (Key × List ℕ) := d.map fun p => (p.1, p.2.shape)

theorem DictOk.of_skel {d d' : ADict M} (h : skel d = skel d') {m : ℕ} {S : List ℕ} (hd : DictOk d m S) :
    DictOk d' m S := by
  have hk : ∀ e : ADict M, e.map (·.1) = (skel e).map (·.1) := by
    intro e; unfold skel; rw [List.map_map]; rfl
  refine ⟨by rw [hk, ← h, ← hk]; exact hd.1, fun p hp => ?_⟩
  have : (p.1, p.2.shape) ∈ skel d' := List.mem_map_of_mem hp
  rw [← h] at this
  obtain ⟨q, hq, e⟩ := List.mem_map.mp this
  obtain ⟨h1, h2⟩ := hd.2 q hq
  simp only [Prod.mk.injEq] at e
  exact ⟨e.1 ▸ h1, e.2 ▸ h2⟩

theorem detailShape_skel {d d' : ADict M} (h : skel d = skel d') (sh : List ℕ) :
    detailShape d sh = detailShape d' sh := by
  cases d with
  | nil => cases d' with
    | nil => rfl
    | cons q d' => simp [skel] at h
  | cons p d => cases d' with
    | nil => simp [skel] at h
    | cons q d' =>
      simp only [skel, List.map_cons, List.cons.injEq, Prod.mk.injEq] at h
      exact h.1.2

theorem RecnFits.of_skel {st : List (Stage R)} {ds : List (ADict M)} :
    ∀ {ds' : List (ADict M)} {sh : List ℕ}, ds.map skel = ds'.map skel → RecnFits st ds sh →
      RecnFits st ds' sh := by
  induction ds with
  | nil =>
    intro ds' sh h _
    cases ds' with
    | nil => trivial
    | cons d ds' => simp at h
  | cons d ds ih =>
    intro ds' sh h hf
    cases ds' with
    | nil => simp at h
    | cons d' ds' =>
      simp only [List.map_cons, List.cons.injEq] at h
      obtain ⟨f1, f2, f3, f4⟩ := hf
      have hds := detailShape_skel h.1 sh
      refine ⟨?_, ?_, ?_, ?_⟩
      · rw [← hds]; exact f1.of_skel h.1
      · rw [← hds]; exact f2
      · rw [← hds]; exact f3
      · rw [← hds]; exact ih h.2 f4

theorem onlyA_shape (a : Arr M) (i : Option (ℕ × Key)) : (onlyA a i).shape = a.shape := by
  unfold onlyA; split <;> rfl

theorem skel_onlyD (ds : List (ADict M)) (i : Option (ℕ × Key)) : (onlyD ds i).map skel = ds.map skel := by
  apply List.ext_getElem (by simp [onlyD])
  intro j h1 h2
  simp only [onlyD, List.getElem_map, List.getElem_mapIdx, skel, List.map_map]
  apply List.map_congr_left
  intro p _
  simp only [Function.comp]
  refine Prod.ext rfl ?_
  show (ite _ _ _ : Arr M).shape = _
  split <;> rfl

/-! ### The loops of `mra2` -/

/-- The lists of `mra2` with zeros everywhere but at position `i`. -/
def onlyT (ps : List (Arr M × Arr M × Arr M)) (i : Option (ℕ × Key)) : List (List (Arr M)) :=
  (onlyD (ps.map dict3) i).map fun d => d.map (·.2)

/-- The array, or zeros. -/
def zeroUnless (c : Prop) [Decidable c] (a : Arr M) : Arr M := if c then a else Arr.zero a.shape

theorem onlyT_eq (ps : List (Arr M × Arr M × Arr M)) (i : Option (ℕ × Key)) :
    onlyT ps i = ps.mapIdx fun j p => [zeroUnless (i = some (j, ['d', 'a'])) p.1,
      zeroUnless (i = some (j, ['a', 'd'])) p.2.1, zeroUnless (i = some (j, ['d', 'd'])) p.2.2] := by
  apply List.ext_getElem (by simp [onlyT, onlyD])
  intro j h1 h2
  simp [onlyT, onlyD, zeroUnless]

theorem onlyT_getD {ps : List (Arr M × Arr M × Arr M)} {j : ℕ} (hj : j < ps.length) (i : Option (ℕ × Key)) :
    (onlyT ps i).getD j [] = [zeroUnless (i = some (j, ['d', 'a'])) ps[j].1,
      zeroUnless (i = some (j, ['a', 'd'])) ps[j].2.1, zeroUnless (i = some (j, ['d', 'd'])) ps[j].2.2] := by
  rw [onlyT_eq, List.getD_eq_getElem (hn := by simpa using hj), List.getElem_mapIdx]

theorem onlyT_set {ps : List (Arr M × Arr M × Arr M)} {j : ℕ} (hj : j < ps.length) {i i' : Option (ℕ × Key)}
    (hi : ∀ l k, l ≠ j → i ≠ some (l, k)) (hi' : ∀ l k, l ≠ j → i' ≠ some (l, k)) :
    (onlyT ps i).set j [zeroUnless (i' = some (j, ['d', 'a'])) ps[j].1,
      zeroUnless (i' = some (j, ['a', 'd'])) ps[j].2.1, zeroUnless (i' = some (j, ['d', 'd'])) ps[j].2.2] =
      onlyT ps i' := by
  rw [onlyT_eq, onlyT_eq]
  apply List.ext_getElem (by simp)
  intro l h1 h2
  rw [List.getElem_set]
  split
  · rename_i h
    subst h
    rw [List.getElem_mapIdx]
  · rename_i h
    rw [List.getElem_mapIdx, List.getElem_mapIdx]
    simp only [zeroUnless, hi l _ (Ne.symm h), hi' l _ (Ne.symm h), if_false]

theorem zeroUnless_true (a : Arr M) {c : Prop} [Decidable c] (h : c) : zeroUnless c a = a := if_pos h

theorem mra2Parts_ok {inverse : List (List (Arr M)) → Py (Arr M)} {trim : Arr M → Py (Arr M)}
    {ps : List (Arr M × Arr M × Arr M)} {j : ℕ} (hj : j < ps.length) {t : Key → Arr M}
    (h : ∀ k ∈ [['d', 'a'], ['a', 'd'], ['d', 'd']], ∃ r, inverse (onlyT ps (some (j, k))) = .ok r ∧
      trim r = .ok (t k)) :
    mra2Parts inverse trim (tripleList ps[j]) j [0, 1, 2] (onlyT ps none) [] =
      .ok ([t ['d', 'a'], t ['a', 'd'], t ['d', 'd']], onlyT ps none) := by
  obtain ⟨r0, a0, b0⟩ := h ['d', 'a'] (by simp)
  obtain ⟨r1, a1, b1⟩ := h ['a', 'd'] (by simp)
  obtain ⟨r2, a2, b2⟩ := h ['d', 'd'] (by simp)
  have hne : ∀ k : Key, ∀ (l : ℕ) (k' : Key), l ≠ j → (some (j, k) : Option (ℕ × Key)) ≠ some (l, k') := by
    intro k l k' hl e
    simp only [Option.some.injEq, Prod.mk.injEq] at e
    exact hl e.1.symm
  have hno : ∀ (l : ℕ) (k' : Key), l ≠ j → (none : Option (ℕ × Key)) ≠ some (l, k') := by simp
  have s0 := onlyT_set hj hno (hne ['d', 'a'])
  have s1 := onlyT_set hj hno (hne ['a', 'd'])
  have s2 := onlyT_set hj hno (hne ['d', 'd'])
  have u0 := onlyT_set hj (hne ['d', 'a']) hno
  have u1 := onlyT_set hj (hne ['a', 'd']) hno
  have u2 := onlyT_set hj (hne ['d', 'd']) hno
  simp only [zeroUnless, Option.some.injEq, Prod.mk.injEq, true_and, reduceCtorEq, if_false, List.cons.injEq,
    Char.reduceEq, and_false, and_true, if_true, false_and] at s0 s1 s2 u0 u1 u2
  have g := onlyT_getD hj (none : Option (ℕ × Key))
  have g0 := onlyT_getD hj (some (j, ['d', 'a']))
  have g1 := onlyT_getD hj (some (j, ['a', 'd']))
  have g2 := onlyT_getD hj (some (j, ['d', 'd']))
  simp only [zeroUnless, Option.some.injEq, Prod.mk.injEq, true_and, reduceCtorEq, if_false, List.cons.injEq,
    Char.reduceEq, and_false, and_true, if_true, false_and] at g g0 g1 g2
  simp only [mra2Parts, g, tripleList, List.getElem?_cons_zero, List.getElem?_cons_succ, List.set_cons_zero,
    List.set_cons_succ, s0, s1, s2, a0, a1, a2, b0, b1, b2, Py_bind_ok, g0, g1, g2, u0, u1, u2, Py_pure,
    List.nil_append, List.cons_append]

theorem mra2Levels_ok {inverse : List (List (Arr M)) → Py (Arr M)} {trim : Arr M → Py (Arr M)}
    {ps : List (Arr M × Arr M × Arr M)} {t : ℕ × Key → Arr M}
    (h : ∀ j < ps.length, ∀ k ∈ [['d', 'a'], ['a', 'd'], ['d', 'd']], ∃ r,
      inverse (onlyT ps (some (j, k))) = .ok r ∧ trim r = .ok (t (j, k))) (js : List ℕ) :
    ∀ out, (∀ j ∈ js, j < ps.length) →
      mra2Levels inverse trim (ps.map tripleList) js (onlyT ps none) out =
        .ok (out ++ js.map fun j => [t (j, ['d', 'a']), t (j, ['a', 'd']), t (j, ['d', 'd'])]) := by
  induction js with
  | nil => intro out _; simp [mra2Levels, Py_pure]
  | cons j js ih =>
    intro out hjs
    have hj := hjs j (by simp)
    have hk := mra2Parts_ok (inverse := inverse) (trim := trim) hj (t := fun k => t (j, k)) (h j hj)
    have e : (ps.map tripleList)[j]? = some (tripleList ps[j]) := by
      rw [List.getElem?_map, List.getElem?_eq_getElem hj]; rfl
    simp only [mra2Levels, e, hk, Py_bind_ok]
    rw [ih _ fun j hj => hjs j (by simp [hj])]
    simp

/-- The components as `mra2` returns them. -/
def comps2Of (ps : List (Arr M × Arr M × Arr M)) (t : Option (ℕ × Key) → Arr M) : List (List (Arr M)) :=
  (List.range ps.length).map fun j =>
    [t (some (j, ['d', 'a'])), t (some (j, ['a', 'd'])), t (some (j, ['d', 'd']))]

theorem mem_coefPos2 {ps : List (Arr M × Arr M × Arr M)} {j : ℕ} (hj : j < ps.length) {k : Key}
    (hk : k ∈ [['d', 'a'], ['a', 'd'], ['d', 'd']]) : some (j, k) ∈ coefPos (ps.map dict3) := by
  have hj' : j < (ps.map dict3).length := by simpa using hj
  have : k ∈ ((ps.map dict3)[j]).map (·.1) := by simpa using hk
  obtain ⟨p, hp, rfl⟩ := List.mem_map.mp this
  exact mem_coefPos hj' hp

theorem mra2Core_ok {inverse : Arr M → List (List (Arr M)) → Py (Arr M)} {x A : Arr M}
    {ps : List (Arr M × Arr M × Arr M)} {t : Option (ℕ × Key) → Arr M}
    (h : ∀ i ∈ coefPos (ps.map dict3), ∃ r, inverse (onlyA A i) (onlyT ps i) = .ok r ∧
      mraTrim x r = .ok (t i)) :
    mra2Core inverse x A (ps.map tripleList) = .ok (t none, comps2Of ps t) := by
  unfold mra2Core
  obtain ⟨r, r1, r2⟩ := h none (by simp [coefPos])
  simp only [onlyA, if_true] at r1
  have hz : ((ps.map tripleList).map fun d => d.map Arr.zerosLike) = onlyT ps none := by
    rw [onlyT_eq]
    apply List.ext_getElem (by simp)
    intro j h1 h2
    simp [tripleList, zeroUnless, Arr.zerosLike, Arr.zero]
  have hl := mra2Levels_ok (inverse := inverse A.zerosLike) (trim := mraTrim x) (ps := ps)
    (t := fun q => t (some q)) (by
      intro j hj k hk
      obtain ⟨r, r1, r2⟩ := h (some (j, k)) (mem_coefPos2 hj hk)
      simp only [onlyA, reduceCtorEq, if_false] at r1
      exact ⟨r, r1, r2⟩) (List.range ps.length) [] (by simp)
  rw [hz]
  simp only [r1, Py_bind_ok, r2, List.length_map, hl]
  rfl

theorem comps2Of_flat (ps : List (Arr M × Arr M × Arr M)) (t : Option (ℕ × Key) → Arr M) :
    t none :: (comps2Of ps t).flatten = (coefPos (ps.map dict3)).map t := by
  unfold coefPos comps2Of
  rw [List.map_cons, List.map_flatMap, ← List.flatMap_def]
  congr 1
  rw [List.length_map]
  apply List.flatMap_congr
  intro j hj
  rw [List.mem_range] at hj
  rw [List.getD_eq_getElem (hn := by simpa using hj), List.getElem_map]
  rfl

end Pywt
