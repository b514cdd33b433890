import Verif.Spec.SwtRoll
import Verif.Props.RollN
import Verif.Props.SwtN
import Verif.Proof.ArrMap
import Verif.Proof.Iswt

/-!
# Proofs for C87
-/

namespace Pywt

open Finset Spec

set_option autoImplicit false
set_option linter.unusedSectionVars false

variable {R M : Type} [CommRing R] [AddCommGroup M] [Module R M]

theorem atrousInv_shift (f : List R) (s : ℕ) (c : ℤ) (x : List M) :
    atrousInv f s (Spec.shift c x) = Spec.shift c (atrousInv f s x) := by
  apply List.ext_getElem
  · simp [atrousInv, Spec.shift]
  intro n h1 h2
  have hn : n < x.length := by simpa [Spec.shift, atrousInv] using h2
  simp only [atrousInv, List.getElem_map, List.getElem_range, Spec.shift,
    List.length_map, List.length_range]
  have h0 := Int.emod_nonneg ((n : ℤ) - c) (show (x.length : ℤ) ≠ 0 by omega)
  have h1 := Int.emod_lt_of_pos ((n : ℤ) - c) (show (0 : ℤ) < x.length by omega)
  conv_rhs => rw [at', List.getD_eq_getElem (hn := by simp; omega)]
  simp only [List.getElem_map, List.getElem_range]
  apply sum_congr rfl
  intro l _
  congr 1
  have := at'_shift (c := c) (x := x) (by omega) ((n : ℤ) + s * (((f.length / 2 : ℕ) : ℤ) - 1 - l))
  unfold Spec.shift at this
  rw [this, Int.toNat_of_nonneg h0, Int.emod_add_emod]
  congr 2
  ring

/-- A linear operation on lines that keeps lengths and commutes with shifts commutes with rolls along all axes. -/
theorem along_roll {g : List M → List M} {g' : ∀ m : ℕ, List (Fin m → R) → List (Fin m → R)}
    (hnat : ∀ (m : ℕ) (φ : (Fin m → R) →ₗ[R] M) (l : List (Fin m → R)), g (l.map φ) = (g' m l).map φ)
    (hlen : ∀ l : List M, (g l).length = l.length) (hsh : ∀ (c : ℤ) (l : List M), g (shift c l) = shift c (g l))
    {a ax : ℕ} {x : Arr M} (ha : a < x.shape.length) (hax : ax < x.shape.length) (c : ℤ) :
    (Spec.Arr.roll ax c x).along a (x.shape.getD a 0) g = Spec.Arr.roll ax c (x.along a (x.shape.getD a 0) g) := by
  unfold Spec.Arr.roll
  by_cases h : a = ax
  · subst h
    rw [Arr.shape_along, list_set_getD, Arr.along_along ha (fun l hl => by rw [shift_length, hl]),
      Arr.along_along ha (fun l hl => by rw [hlen, hl])]
    exact Arr.along_congr fun l _ => hsh c l
  · rw [Arr.shape_along, list_set_getD]
    exact along_comm (R := R) (Ne.symm h) hax ha rfl rfl (isMat_shift _ c)
      (isMat_of_natural (g' := g' _) (hnat _) (fun l hl => by rw [hlen, hl]))

theorem swtBand_roll {ax : ℕ} (c : ℤ) (step : ℕ) : ∀ {st : List (SStage R)} {k : Key} {x : Arr M},
    (∀ s ∈ st, s.1 < x.shape.length) → ax < x.shape.length →
    (Spec.Arr.roll ax c x).swtBand st step k = Spec.Arr.roll ax c (x.swtBand st step k)
  | [], k, x, _, _ => by cases k <;> rfl
  | s :: st, [], x, _, _ => rfl
  | s :: st, ch :: k, x, hb, ha => by
      rw [Arr.swtBand, Arr.swtBand, shape_roll, along_roll (R := R) (g' := fun _ => atrous (s.2.decFilter ch) step)
        (fun m φ l => atrous_map φ _ _ l) (fun l => atrous_length _ _ l) (fun c l => atrous_shift _ _ c l) (hb s (by simp)) ha]
      refine swtBand_roll c step (fun t ht => ?_) ?_
      · rw [Arr.shape_along, List.length_set]; exact hb t (by simp [ht])
      · rw [Arr.shape_along, List.length_set]; exact ha

theorem swtBand_shape_roll (step : ℕ) : ∀ (st : List (SStage R)) (k : Key) (x : Arr M), (x.swtBand st step k).shape = x.shape
  | [], k, x => by cases k <;> rfl
  | s :: st, [], x => rfl
  | s :: st, ch :: k, x => by rw [Arr.swtBand, swtBand_shape_roll step st k, Arr.shape_along, list_set_getD]

theorem swtnApprox_roll {ax : ℕ} (c : ℤ) {st : List (SStage R)} (m : ℕ) {x : Arr M} (hb : ∀ s ∈ st, s.1 < x.shape.length)
    (ha : ax < x.shape.length) : ∀ j, (swtnApprox st m x j).shape = x.shape ∧
    swtnApprox st m (Spec.Arr.roll ax c x) j = Spec.Arr.roll ax c (swtnApprox st m x j)
  | 0 => ⟨rfl, rfl⟩
  | j + 1 => by
      obtain ⟨h1, h2⟩ := swtnApprox_roll c m hb ha j
      refine ⟨by rw [swtnApprox, swtBand_shape_roll, h1], ?_⟩
      rw [swtnApprox, swtnApprox, h2, swtBand_roll c _ (by rw [h1]; exact hb) (by rw [h1]; exact ha)]

theorem swtnBand_roll {ax : ℕ} (c : ℤ) {st : List (SStage R)} (m : ℕ) {x : Arr M} (hb : ∀ s ∈ st, s.1 < x.shape.length)
    (ha : ax < x.shape.length) (j : ℕ) (k : Key) :
    swtnBand st m (Spec.Arr.roll ax c x) j k = Spec.Arr.roll ax c (swtnBand st m x j k) := by
  obtain ⟨h1, h2⟩ := swtnApprox_roll c m hb ha j
  unfold swtnBand
  rw [h2, swtBand_roll c _ (by rw [h1]; exact hb) (by rw [h1]; exact ha)]

theorem swtUnband_shape_roll (step : ℕ) : ∀ (st : List (SStage R)) (k : Key) (x : Arr M), (x.swtUnband st step k).shape = x.shape
  | [], k, x => by cases k <;> rfl
  | s :: st, [], x => rfl
  | s :: st, ch :: k, x => by rw [Arr.swtUnband, Arr.shape_along, swtUnband_shape_roll step st k, list_set_getD]

theorem swtUnband_roll {ax : ℕ} (c : ℤ) (step : ℕ) : ∀ {st : List (SStage R)} {k : Key} {x : Arr M},
    (∀ s ∈ st, s.1 < x.shape.length) → ax < x.shape.length →
    (Spec.Arr.roll ax c x).swtUnband st step k = Spec.Arr.roll ax c (x.swtUnband st step k)
  | [], k, x, _, _ => by cases k <;> rfl
  | s :: st, [], x, _, _ => rfl
  | s :: st, ch :: k, x, hb, ha => by
      have hs : (x.swtUnband st step k).shape = x.shape := swtUnband_shape_roll step st k x
      have := along_roll (R := R) (x := x.swtUnband st step k) (g := atrousInv (s.2.recFilter ch) step) (g' := fun _ => atrousInv (s.2.recFilter ch) step)
        (fun m φ l => by simp [atrousInv, at'_map, map_sum]) (fun l => by simp [atrousInv]) (fun c l => atrousInv_shift _ _ c l)
        (a := s.1) (ax := ax) (by rw [hs]; exact hb s (by simp)) (by rw [hs]; exact ha) c
      rw [hs] at this
      rw [Arr.swtUnband, Arr.swtUnband, shape_roll, swtUnband_roll c step (fun t ht => hb t (by simp [ht])) ha, this]

theorem roll_zero {ax : ℕ} {S : List ℕ} (ha : ax < S.length) (c : ℤ) :
    Spec.Arr.roll ax c (Arr.zero S : Arr M) = Arr.zero S := by
  have h := C84_roll_values (x := (Arr.zero S : Arr M)) ha c
  refine Arr.ext_get h.1 fun idx hidx => ?_
  rw [h.2 idx (by rw [h.1] at hidx; exact hidx), Arr.zero_get, Arr.zero_get]

theorem bandOf_roll {ax : ℕ} (c : ℤ) {d : List (Key × Arr M)} {A : Arr M} (ha : ax < A.shape.length) (m : ℕ) (k : Key) :
    bandOf (d.map fun p => (p.1, Spec.Arr.roll ax c p.2)) (Spec.Arr.roll ax c A) m k = Spec.Arr.roll ax c (bandOf d A m k) := by
  unfold bandOf
  split
  · rfl
  · rw [lookup_map_val, shape_roll]
    cases d.lookup k with
    | none =>
      simp only [Option.map_none, Option.getD_none]
      rw [roll_zero ha]
    | some v => rfl

variable [Invertible (2 : R)]

theorem iswtnStep_roll {ax : ℕ} (c : ℤ) {st : List (SStage R)} {step : ℕ} {band : Key → Arr M} {S : List ℕ}
    (hs : ∀ k, (band k).shape = S) (hb : ∀ s ∈ st, s.1 < S.length) (ha : ax < S.length) :
    Arr.iswtnStep st step (fun k => Spec.Arr.roll ax c (band k)) S = Spec.Arr.roll ax c (Arr.iswtnStep st step band S) := by
  have hsh : (Arr.iswtnStep st step band S).shape = S := rfl
  refine Arr.ext_get (by rw [shape_roll]; rfl) fun idx hidx => ?_
  have hidx' : InB S idx := hidx
  rw [C46_iswtn_level st step _ (S := S) (fun k => by rw [shape_roll, hs]) hidx',
    (C84_roll_values (x := Arr.iswtnStep st step band S) (by rw [hsh]; exact ha) c).2 idx (by rw [hsh]; exact hidx')]
  have hup : InB S (Function.update idx ax (((idx ax : ℤ) - c) % (S.getD ax 0 : ℕ)).toNat) := by
    intro j hj
    by_cases h : j = ax
    · subst h
      have h1 := hidx' j hj
      have h2 : ((idx j : ℤ) - c) % (S.getD j 0 : ℕ) < (S.getD j 0 : ℕ) := Int.emod_lt_of_pos _ (by omega)
      have h3 : 0 ≤ ((idx j : ℤ) - c) % (S.getD j 0 : ℕ) := Int.emod_nonneg _ (by omega)
      rw [Function.update_self]
      omega
    · rw [Function.update_of_ne h]
      exact hidx' j hj
  rw [hsh, C46_iswtn_level st step _ hs hup]
  congr 2
  refine List.map_congr_left fun k _ => ?_
  have hk : ((band k).swtUnband st step k).shape = S := by rw [swtUnband_shape_roll, hs]
  rw [swtUnband_roll c step (by rw [hs]; exact hb) (by rw [hs]; exact ha),
    (C84_roll_values (x := (band k).swtUnband st step k) (by rw [hk]; exact ha) c).2 idx (by rw [hk]; exact hidx'), hk]

theorem iswtnCascade_roll {ax : ℕ} (c : ℤ) {st : List (SStage R)} : ∀ {ds : List (List (Key × Arr M))} {A : Arr M},
    (∀ d ∈ ds, DictOk d st.length A.shape) → (∀ s ∈ st, s.1 < A.shape.length) → ax < A.shape.length →
    iswtnCascade st (ds.map fun d => d.map fun p => (p.1, Spec.Arr.roll ax c p.2)) (Spec.Arr.roll ax c A) =
      Spec.Arr.roll ax c (iswtnCascade st ds A)
  | [], A, _, _, _ => rfl
  | d :: ds, A, hd, hb, ha => by
      have h := iswtnStep_roll (st := st) (step := 2 ^ ds.length) (band := bandOf d A st.length) c
        (fun k => bandOf_shape (hd d (by simp)) k) hb ha
      rw [List.map_cons, iswtnCascade, iswtnCascade, List.length_map, shape_roll,
        show bandOf (d.map fun p => (p.1, Spec.Arr.roll ax c p.2)) (Spec.Arr.roll ax c A) st.length =
          fun k => Spec.Arr.roll ax c (bandOf d A st.length k) from funext fun k => bandOf_roll c ha _ k, h]
      exact iswtnCascade_roll c (A := Arr.iswtnStep st (2 ^ ds.length) (bandOf d A st.length) A.shape)
        (fun e he => hd e (by simp [he])) hb ha

end Pywt
