import Verif.Spec.SwtTranspose
import Verif.Props.Transpose
import Verif.Proof.SwtRoll

/-!
# Proofs for C88
-/

namespace Pywt

open Finset Spec

set_option autoImplicit false
set_option linter.unusedSectionVars false

variable {R M : Type} [CommRing R] [AddCommGroup M] [Module R M] {π : Equiv.Perm ℕ}

theorem swtBand_transpose (step : ℕ) : ∀ {st : List (SStage R)} {k : Key} {x : Arr M},
    (∀ j, π j < x.shape.length ↔ j < x.shape.length) → (∀ s ∈ st, s.1 < x.shape.length) →
    (Spec.Arr.transpose π x).swtBand (st.map (tSStage π)) step k = Spec.Arr.transpose π (x.swtBand st step k)
  | [], k, x, _, _ => by cases k <;> rfl
  | s :: st, [], x, _, _ => rfl
  | s :: st, ch :: k, x, hπ, hb => by
      have hs := hb s (by simp)
      rw [List.map_cons, Arr.swtBand, Arr.swtBand, show (tSStage π s).1 = π.symm s.1 from rfl,
        show (tSStage π s).2 = s.2 from rfl, shape_transpose, tShape_getD_symm hπ hs, along_transpose hπ hs]
      refine swtBand_transpose step ?_ fun t ht => ?_
      · rw [Arr.shape_along, List.length_set]; exact hπ
      · rw [Arr.shape_along, List.length_set]; exact hb t (by simp [ht])

theorem swtnApprox_transpose {st : List (SStage R)} (m : ℕ) {x : Arr M} (hπ : ∀ j, π j < x.shape.length ↔ j < x.shape.length)
    (hb : ∀ s ∈ st, s.1 < x.shape.length) : ∀ j, (swtnApprox st m x j).shape = x.shape ∧
    swtnApprox (st.map (tSStage π)) m (Spec.Arr.transpose π x) j = Spec.Arr.transpose π (swtnApprox st m x j)
  | 0 => ⟨rfl, rfl⟩
  | j + 1 => by
      obtain ⟨h1, h2⟩ := swtnApprox_transpose m hπ hb j
      refine ⟨by rw [swtnApprox, swtBand_shape_roll, h1], ?_⟩
      rw [swtnApprox, swtnApprox, h2, List.length_map, swtBand_transpose _ (by rw [h1]; exact hπ) (by rw [h1]; exact hb)]

theorem swtnBand_transpose {st : List (SStage R)} (m : ℕ) {x : Arr M} (hπ : ∀ j, π j < x.shape.length ↔ j < x.shape.length)
    (hb : ∀ s ∈ st, s.1 < x.shape.length) (j : ℕ) (k : Key) :
    swtnBand (st.map (tSStage π)) m (Spec.Arr.transpose π x) j k = Spec.Arr.transpose π (swtnBand st m x j k) := by
  obtain ⟨h1, h2⟩ := swtnApprox_transpose m hπ hb j
  unfold swtnBand
  rw [h2, swtBand_transpose _ (by rw [h1]; exact hπ) (by rw [h1]; exact hb)]

theorem swtUnband_transpose (step : ℕ) : ∀ {st : List (SStage R)} {k : Key} {x : Arr M},
    (∀ j, π j < x.shape.length ↔ j < x.shape.length) → (∀ s ∈ st, s.1 < x.shape.length) →
    (Spec.Arr.transpose π x).swtUnband (st.map (tSStage π)) step k = Spec.Arr.transpose π (x.swtUnband st step k)
  | [], k, x, _, _ => by cases k <;> rfl
  | s :: st, [], x, _, _ => rfl
  | s :: st, ch :: k, x, hπ, hb => by
      have hs := hb s (by simp)
      have hsh : (x.swtUnband st step k).shape = x.shape := swtUnband_shape_roll step st k x
      rw [List.map_cons, Arr.swtUnband, Arr.swtUnband, show (tSStage π s).1 = π.symm s.1 from rfl,
        show (tSStage π s).2 = s.2 from rfl, shape_transpose, tShape_getD_symm hπ hs,
        swtUnband_transpose step hπ fun t ht => hb t (by simp [ht]),
        along_transpose (x := x.swtUnband st step k) (by rw [hsh]; exact hπ) (by rw [hsh]; exact hs)]

theorem transpose_zero {S : List ℕ} (hπ : ∀ j, π j < S.length ↔ j < S.length) :
    Spec.Arr.transpose π (Arr.zero S : Arr M) = Arr.zero (tShape π S) := by
  refine Arr.ext_get rfl fun idx hidx => ?_
  rw [transpose_get (x := (Arr.zero S : Arr M)) hπ hidx, Arr.zero_get, Arr.zero_get]

theorem bandOf_transpose {d : List (Key × Arr M)} {A : Arr M} (hπ : ∀ j, π j < A.shape.length ↔ j < A.shape.length) (m : ℕ)
    (k : Key) : bandOf (d.map fun p => (p.1, Spec.Arr.transpose π p.2)) (Spec.Arr.transpose π A) m k =
      Spec.Arr.transpose π (bandOf d A m k) := by
  unfold bandOf
  split
  · rfl
  · rw [lookup_map_val, shape_transpose]
    cases d.lookup k with
    | none =>
      simp only [Option.map_none, Option.getD_none]
      rw [transpose_zero hπ]
    | some v => rfl

theorem swtnFits_transpose {st : List (SStage R)} {L : ℕ} {S : List ℕ} (hπ : ∀ j, π j < S.length ↔ j < S.length)
    (hf : SwtnFits st L S) : SwtnFits (st.map (tSStage π)) L (tShape π S) := by
  refine ⟨?_, fun s hs => ?_⟩
  · have : (st.map (tSStage π)).map (·.1) = (st.map (·.1)).map π.symm := by
      rw [List.map_map, List.map_map]
      rfl
    rw [this]
    exact hf.1.map π.symm.injective
  · obtain ⟨u, hu, rfl⟩ := List.mem_map.mp hs
    obtain ⟨h1, h2⟩ := hf.2 u hu
    rw [show (tSStage π u).1 = π.symm u.1 from rfl, tShape_getD_symm hπ h1, tShape_length]
    exact ⟨(perm_symm_lt hπ u.1).mpr h1, h2⟩

variable [Invertible (2 : R)]

theorem iswtnStep_transpose {st : List (SStage R)} {step : ℕ} {band : Key → Arr M} {S : List ℕ}
    (hπ : ∀ j, π j < S.length ↔ j < S.length) (hs : ∀ k, (band k).shape = S) (hb : ∀ s ∈ st, s.1 < S.length) :
    Arr.iswtnStep (st.map (tSStage π)) step (fun k => Spec.Arr.transpose π (band k)) (tShape π S) =
      Spec.Arr.transpose π (Arr.iswtnStep st step band S) := by
  have hsh : (Arr.iswtnStep st step band S).shape = S := rfl
  refine Arr.ext_get rfl fun idx hidx => ?_
  have hidx' : InB (tShape π S) idx := hidx
  rw [C46_iswtn_level (st.map (tSStage π)) step _ (S := tShape π S) (fun k => by rw [shape_transpose, hs]) hidx',
    transpose_get (x := Arr.iswtnStep st step band S) hπ hidx', C46_iswtn_level st step _ hs ((inB_transpose hπ).mp hidx'),
    List.length_map]
  congr 2
  refine List.map_congr_left fun k _ => ?_
  have hk : ((band k).swtUnband st step k).shape = S := by rw [swtUnband_shape_roll, hs]
  rw [swtUnband_transpose step (by rw [hs]; exact hπ) (by rw [hs]; exact hb),
    transpose_get (x := (band k).swtUnband st step k) (by rw [hk]; exact hπ) (by rw [hk]; exact hidx')]

theorem iswtnCascade_transpose {st : List (SStage R)} : ∀ {ds : List (List (Key × Arr M))} {A : Arr M},
    (∀ d ∈ ds, DictOk d st.length A.shape) → (∀ j, π j < A.shape.length ↔ j < A.shape.length) →
    (∀ s ∈ st, s.1 < A.shape.length) →
    iswtnCascade (st.map (tSStage π)) (ds.map fun d => d.map fun p => (p.1, Spec.Arr.transpose π p.2)) (Spec.Arr.transpose π A) =
      Spec.Arr.transpose π (iswtnCascade st ds A)
  | [], A, _, _, _ => rfl
  | d :: ds, A, hd, hπ, hb => by
      have h := iswtnStep_transpose (π := π) (st := st) (step := 2 ^ ds.length) (band := bandOf d A st.length) hπ
        (fun k => bandOf_shape (hd d (by simp)) k) hb
      rw [List.map_cons, iswtnCascade, iswtnCascade, List.length_map, List.length_map, shape_transpose,
        show bandOf (d.map fun p => (p.1, Spec.Arr.transpose π p.2)) (Spec.Arr.transpose π A) st.length =
          fun k => Spec.Arr.transpose π (bandOf d A st.length k) from funext fun k => bandOf_transpose hπ _ k, h]
      exact iswtnCascade_transpose (A := Arr.iswtnStep st (2 ^ ds.length) (bandOf d A st.length) A.shape)
        (fun e he => hd e (by simp [he])) hπ hb

end Pywt
