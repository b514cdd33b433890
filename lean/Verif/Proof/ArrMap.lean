import Verif.Proof.RecN
import Verif.Proof.Lin
import Verif.Model.Threshold

/-! Naturality of the n-D specifications under linear maps of the samples. -/

namespace Pywt

open Finset Spec

set_option linter.unusedSectionVars false

variable {R M M' : Type} [Ring R] [AddCommGroup M] [Module R M] [AddCommGroup M'] [Module R M']

/-- A map applied to all arrays of a dict. -/
def ADict.mapCells (φ : M → M') (d : ADict M) : ADict M' := d.map fun p => (p.1, p.2.mapCells φ)

theorem Arr.shape_mapCells (φ : M → M') (a : Arr M) : (a.mapCells φ).shape = a.shape := rfl

theorem Arr.get_map (φ : M →ₗ[R] M') (a : Arr M) (idx : ℕ → ℕ) : (a.mapCells φ).get idx = φ (a.get idx) := by
  unfold Arr.get Arr.mapCells
  rw [← map_zero φ, List.getD_map]

theorem Arr.ofFn_map (φ : M →ₗ[R] M') (S : List ℕ) (f : (ℕ → ℕ) → M) :
    (Arr.ofFn S f).mapCells φ = Arr.ofFn S fun idx => φ (f idx) := by
  unfold Arr.ofFn Arr.mapCells
  simp [Function.comp_def]

theorem Arr.line_map (φ : M →ₗ[R] M') (a : Arr M) (ax : ℕ) (idx : ℕ → ℕ) :
    (a.mapCells φ).line ax idx = (a.line ax idx).map φ := by
  unfold Arr.line
  rw [List.map_map]
  apply List.map_congr_left
  intro j _
  exact Arr.get_map φ a _

theorem Arr.along_map (φ : M →ₗ[R] M') (a : Arr M) (ax n : ℕ) {g : List M → List M} {g' : List M' → List M'}
    (h : ∀ l, g' (l.map φ) = (g l).map φ) :
    (a.mapCells φ).along ax n g' = (a.along ax n g).mapCells φ := by
  unfold Arr.along
  rw [Arr.ofFn_map]
  have : ∀ idx, (g' ((a.mapCells φ).line ax idx)).getD (idx ax) 0 = φ ((g (a.line ax idx)).getD (idx ax) 0) := by
    intro idx
    rw [Arr.line_map, h, ← map_zero φ, List.getD_map]
  simp only [this]
  rfl

theorem Arr.zero_map (φ : M →ₗ[R] M') (S : List ℕ) : (Arr.zero S : Arr M).mapCells φ = Arr.zero S := by
  unfold Arr.zero Arr.mapCells zeros
  simp

theorem Arr.crop_map (φ : M →ₗ[R] M') (a : Arr M) (S : List ℕ) :
    (a.mapCells φ).crop S = (a.crop S).mapCells φ := by
  unfold Arr.crop
  rw [Arr.ofFn_map]
  congr 1
  funext idx
  exact Arr.get_map φ a idx

theorem lookup_mapCells (φ : M → M') (d : ADict M) (k : Key) :
    (ADict.mapCells φ d).lookup k = (d.lookup k).map (Arr.mapCells φ) :=
  lookup_map_val (Arr.mapCells φ) d k

theorem bandOf_map (φ : M →ₗ[R] M') (d : ADict M) (a : Arr M) (m : ℕ) (k : Key) :
    bandOf (ADict.mapCells φ d) (a.mapCells φ) m k = (bandOf d a m k).mapCells φ := by
  unfold bandOf
  split
  · rfl
  · rw [lookup_mapCells]
    cases d.lookup k with
    | none => simp only [Option.map_none, Option.getD_none]; rw [Arr.zero_map]; rfl
    | some v => rfl

theorem detailShape_map (φ : M → M') (d : ADict M) (sh : List ℕ) :
    detailShape (ADict.mapCells φ d) sh = detailShape d sh := by
  cases d <;> rfl

theorem synthesis1_map (φ : M →ₗ[R] M') (mode : Mode) (f : List R) (a : List M) :
    synthesis1 mode f (a.map φ) = (synthesis1 mode f a).map φ := by
  have : ∀ mode (x : List M), Spec.ext mode (x.map φ) = fun q => φ (Spec.ext mode x q) :=
    fun mode x => funext fun q => ext_map φ mode x q
  cases mode <;> simp [synthesis1, this, conv_map, upsample_map]

theorem resynth_map (φ : M →ₗ[R] M') (st : List (Stage R)) :
    ∀ (k : Key) (x : Arr M), (x.mapCells φ).resynth st k = (x.resynth st k).mapCells φ := by
  induction st with
  | nil => intro k x; cases k <;> rfl
  | cons s st ih =>
    intro k x
    cases k with
    | nil => rfl
    | cons c k =>
      simp only [Arr.resynth]
      rw [ih, Arr.along_map φ _ _ _ fun l => synthesis1_map φ _ _ l]
      rfl

theorem idwtnStep_map (φ : M →ₗ[R] M') (st : List (Stage R)) (band : Key → Arr M) (S : List ℕ) :
    Arr.idwtnStep st (fun k => (band k).mapCells φ) S = (Arr.idwtnStep st band S).mapCells φ := by
  unfold Arr.idwtnStep
  rw [Arr.ofFn_map]
  congr 1
  funext idx
  rw [map_list_sum, List.map_map]
  congr 1
  apply List.map_congr_left
  intro k _
  simp only [Function.comp, resynth_map, Arr.get_map]

theorem waverecnCascade_map (φ : M →ₗ[R] M') (st : List (Stage R)) (ds : List (ADict M)) :
    ∀ a : Arr M, waverecnCascade st (ds.map (ADict.mapCells φ)) (a.mapCells φ) =
      (waverecnCascade st ds a).mapCells φ := by
  induction ds with
  | nil => intro a; rfl
  | cons d ds ih =>
    intro a
    rw [List.map_cons, waverecnCascade, waverecnCascade, detailShape_map, Arr.shape_mapCells, Arr.crop_map]
    have : bandOf (ADict.mapCells φ d) ((a.crop (detailShape d a.shape)).mapCells φ) st.length =
        fun k => (bandOf d (a.crop (detailShape d a.shape)) st.length k).mapCells φ :=
      funext fun k => bandOf_map φ d _ _ k
    rw [this, idwtnStep_map, ih]

theorem atrous_map (φ : M →ₗ[R] M') (f : List R) (s : ℕ) (x : List M) :
    atrous f s (x.map φ) = (atrous f s x).map φ := by
  simp [atrous, at'_map, map_sum]

theorem swtBand_map (φ : M →ₗ[R] M') (st : List (SStage R)) (step : ℕ) :
    ∀ (k : Key) (x : Arr M), (x.mapCells φ).swtBand st step k = (x.swtBand st step k).mapCells φ := by
  induction st with
  | nil => intro k x; cases k <;> rfl
  | cons s st ih =>
    intro k x
    cases k with
    | nil => rfl
    | cons c k =>
      simp only [Arr.swtBand]
      rw [Arr.along_map φ _ _ _ fun l => atrous_map φ _ _ l, ih]
      rfl

theorem subband_map (φ : M →ₗ[R] M') (st : List (Stage R)) :
    ∀ (k : Key) (x : Arr M), (x.mapCells φ).subband st k = (x.subband st k).mapCells φ := by
  induction st with
  | nil => intro k x; cases k <;> rfl
  | cons s st ih =>
    intro k x
    cases k with
    | nil => rfl
    | cons c k =>
      simp only [Arr.subband, Arr.analyze]
      rw [Arr.along_map φ _ _ _ fun l => analysis_map φ _ _ l, ih]
      rfl

section
variable [Invertible (2 : R)]

theorem swtUnband_map (φ : M →ₗ[R] M') (st : List (SStage R)) (step : ℕ) :
    ∀ (k : Key) (x : Arr M), (x.mapCells φ).swtUnband st step k = (x.swtUnband st step k).mapCells φ := by
  induction st with
  | nil => intro k x; cases k <;> rfl
  | cons s st ih =>
    intro k x
    cases k with
    | nil => rfl
    | cons c k =>
      simp only [Arr.swtUnband]
      rw [ih, Arr.along_map φ _ _ _ fun l => atrousInv_map φ _ _ l]
      rfl

theorem iswtnStep_map (φ : M →ₗ[R] M') (st : List (SStage R)) (step : ℕ) (band : Key → Arr M) (S : List ℕ) :
    Arr.iswtnStep st step (fun k => (band k).mapCells φ) S = (Arr.iswtnStep st step band S).mapCells φ := by
  unfold Arr.iswtnStep
  rw [Arr.ofFn_map]
  congr 1
  funext idx
  rw [map_smul, map_list_sum, List.map_map]
  congr 2
  apply List.map_congr_left
  intro k _
  simp only [Function.comp, swtUnband_map, Arr.get_map]

theorem iswtnCascade_map (φ : M →ₗ[R] M') (st : List (SStage R)) (ds : List (ADict M)) :
    ∀ a : Arr M, iswtnCascade st (ds.map (ADict.mapCells φ)) (a.mapCells φ) =
      (iswtnCascade st ds a).mapCells φ := by
  induction ds with
  | nil => intro a; rfl
  | cons d ds ih =>
    intro a
    rw [List.map_cons, iswtnCascade, iswtnCascade, Arr.shape_mapCells, List.length_map]
    have : bandOf (ADict.mapCells φ d) (a.mapCells φ) st.length =
        fun k => (bandOf d a st.length k).mapCells φ := funext fun k => bandOf_map φ d _ _ k
    rw [this, iswtnStep_map, ih]

end

/-! ### Superposition -/

theorem Arr.mapCells_comp {A B C : Type} (f : B → C) (g : A → B) (a : Arr A) :
    (a.mapCells g).mapCells f = a.mapCells (f ∘ g) := by
  unfold Arr.mapCells
  simp

theorem Arr.mapCells_id {A : Type} (f : A → A) (h : ∀ x, f x = x) (a : Arr A) : a.mapCells f = a := by
  unfold Arr.mapCells
  have : f = id := funext h
  simp [this]

theorem Arr.mapCells_zero {A : Type} (f : A → M) (h : ∀ x, f x = 0) (a : Arr A) :
    a.mapCells f = Arr.zero a.shape := by
  unfold Arr.mapCells Arr.zero zeros
  congr 1
  have : f = fun _ => 0 := funext h
  rw [this, List.map_const', a.ok]

theorem nodup_coefPos {ds : List (ADict M)} (h : ∀ d ∈ ds, (d.map (·.1)).Nodup) : (coefPos ds).Nodup := by
  unfold coefPos
  rw [List.nodup_cons]
  constructor
  · simp
  · rw [List.nodup_flatMap]
    constructor
    · intro j hj
      have hj : j < ds.length := by simpa using hj
      apply List.Nodup.map
      · intro a b hab; simpa using hab
      · rw [List.getD_eq_getElem (hn := hj)]
        exact h _ (List.getElem_mem hj)
    · apply List.Nodup.pairwise_of_forall_ne List.nodup_range
      intro a _ b _ hab i hi1 hi2
      simp only [List.mem_map] at hi1 hi2
      obtain ⟨k1, -, rfl⟩ := hi1
      obtain ⟨k2, -, h2⟩ := hi2
      simp only [Option.some.injEq, Prod.mk.injEq] at h2
      exact hab h2.1.symm

/-- A reconstruction that commutes with linear maps is the sum of the reconstructions from the single
arrays. -/
theorem sum_only {recM : Arr M → List (ADict M) → Arr M}
    {recP : Arr (Option (ℕ × Key) → M) → List (ADict (Option (ℕ × Key) → M)) → Arr (Option (ℕ × Key) → M)}
    (hnat : ∀ (φ : (Option (ℕ × Key) → M) →ₗ[R] M) a ds,
      recM (a.mapCells φ) (ds.map (ADict.mapCells φ)) = (recP a ds).mapCells φ)
    (a : Arr M) (ds : List (ADict M)) (hd : ∀ d ∈ ds, (d.map (·.1)).Nodup) (idx : ℕ → ℕ) :
    ((coefPos ds).map fun i => (recM (onlyA a i) (onlyD ds i)).get idx).sum = (recM a ds).get idx := by
  set pa : Arr (Option (ℕ × Key) → M) := a.mapCells (LinearMap.single R (fun _ => M) none) with hpa
  set pd : List (ADict (Option (ℕ × Key) → M)) := ds.mapIdx fun j d =>
    d.map fun p => (p.1, p.2.mapCells (LinearMap.single R (fun _ => M) (some (j, p.1)))) with hpd
  have h1 : ∀ i, recM (onlyA a i) (onlyD ds i) = (recP pa pd).mapCells (LinearMap.proj (R := R) i) := by
    intro i
    rw [← hnat]
    congr 1
    · rw [hpa, Arr.mapCells_comp]
      unfold onlyA
      split
      · rename_i h
        subst h
        exact (Arr.mapCells_id _ (fun x => by simp) a).symm
      · rename_i h
        exact (Arr.mapCells_zero _ (fun x => by simp [h]) a).symm
    · rw [hpd]
      unfold onlyD
      apply List.ext_getElem (by simp)
      intro j hj1 hj2
      simp only [List.getElem_mapIdx, List.getElem_map, ADict.mapCells, List.map_map]
      apply List.map_congr_left
      intro p _
      simp only [Function.comp, Arr.mapCells_comp]
      congr 1
      split
      · rename_i h
        subst h
        exact (Arr.mapCells_id _ (fun x => by simp) p.2).symm
      · rename_i h
        exact (Arr.mapCells_zero _ (fun x => by simp [h]) p.2).symm
  have h2 : recM a ds = (recP pa pd).mapCells (∑ i ∈ (coefPos ds).toFinset, LinearMap.proj i :
      (Option (ℕ × Key) → M) →ₗ[R] M) := by
    rw [← hnat]
    have key : ∀ i ∈ coefPos ds, ∀ x : M, (∑ i' ∈ (coefPos ds).toFinset,
        (LinearMap.proj i' : (Option (ℕ × Key) → M) →ₗ[R] M)) (LinearMap.single R (fun _ => M) i x) = x := by
      intro i hi x
      rw [LinearMap.sum_apply, Finset.sum_eq_single i]
      · simp
      · intro b _ hb
        simp [hb]
      · intro hni
        exact absurd (by simpa using hi) hni
    congr 1
    · rw [hpa, Arr.mapCells_comp]
      exact (Arr.mapCells_id _ (fun x => key none (by simp [coefPos]) x) a).symm
    · rw [hpd]
      apply List.ext_getElem (by simp)
      intro j hj1 hj2
      simp only [List.getElem_mapIdx, List.getElem_map, ADict.mapCells, List.map_map]
      conv_lhs => rw [← List.map_id ds[j]]
      apply List.map_congr_left
      intro p hp
      simp only [Function.comp, Arr.mapCells_comp, id]
      refine Prod.ext rfl ?_
      refine (Arr.mapCells_id _ (fun x => key (some (j, p.1)) ?_ x) p.2).symm
      simp only [coefPos, List.mem_cons, reduceCtorEq, List.mem_flatMap, List.mem_range, List.mem_map, false_or]
      refine ⟨j, by simpa using hj1, p.1, ⟨p, ?_, rfl⟩, rfl⟩
      rw [List.getD_eq_getElem (hn := by simpa using hj1)]
      exact hp
  rw [h2, Arr.get_map, LinearMap.sum_apply, List.sum_toFinset _ (nodup_coefPos hd)]
  congr 1
  apply List.map_congr_left
  intro i _
  rw [h1, Arr.get_map]

end Pywt
