import Verif.Spec.RecTranspose
import Verif.Proof.SwtTranspose
import Verif.Proof.RecN

/-!
# Proofs for C89
-/

namespace Pywt

open Finset Spec

set_option autoImplicit false
set_option linter.unusedSectionVars false

variable {R M : Type} [CommRing R] [AddCommGroup M] [Module R M] {π : Equiv.Perm ℕ}

theorem resynth_shape_length : ∀ (st : List (Stage R)) (k : Key) (x : Arr M), (x.resynth st k).shape.length = x.shape.length
  | [], k, x => by cases k <;> rfl
  | s :: st, [], x => rfl
  | s :: st, ch :: k, x => by rw [Arr.resynth, Arr.shape_along, List.length_set, resynth_shape_length st k x]

theorem resynth_transpose : ∀ {st : List (Stage R)} {k : Key} {x : Arr M},
    (∀ j, π j < x.shape.length ↔ j < x.shape.length) → (∀ s ∈ st, s.1 < x.shape.length) →
    (Spec.Arr.transpose π x).resynth (st.map (tStage π)) k = Spec.Arr.transpose π (x.resynth st k)
  | [], k, x, _, _ => by cases k <;> rfl
  | s :: st, [], x, _, _ => rfl
  | s :: st, ch :: k, x, hπ, hb => by
      have hs := hb s (by simp)
      have hl := resynth_shape_length st k x
      rw [List.map_cons, Arr.resynth, Arr.resynth, show (tStage π s).1 = π.symm s.1 from rfl,
        show (tStage π s).2 = s.2 from rfl, shape_transpose, tShape_getD_symm hπ hs,
        resynth_transpose hπ fun t ht => hb t (by simp [ht]),
        along_transpose (x := x.resynth st k) (by rw [hl]; exact hπ) (by rw [hl]; exact hs)]

theorem synthShape_transpose {S : List ℕ} (hπ : ∀ j, π j < S.length ↔ j < S.length) : ∀ {st : List (Stage R)},
    (∀ s ∈ st, s.1 < S.length) → synthShape (st.map (tStage π)) (tShape π S) = tShape π (synthShape st S)
  | [], _ => rfl
  | s :: st, hb => by
      have hs := hb s (by simp)
      have ih := synthShape_transpose hπ (st := st) fun t ht => hb t (by simp [ht])
      have hl : (synthShape st S).length = S.length := synthShape_length st S
      unfold synthShape at ih hl ⊢
      rw [List.map_cons, List.foldr_cons, List.foldr_cons, ih, show (tStage π s).1 = π.symm s.1 from rfl,
        show (tStage π s).2 = s.2 from rfl, tShape_getD_symm hπ hs, tShape_set (by rw [hl]; exact hπ) (by rw [hl]; exact hs)]

theorem detailShape_transpose (d : List (Key × Arr M)) (sh : List ℕ) :
    detailShape (mapDict (Spec.Arr.transpose π) d) (tShape π sh) = tShape π (detailShape d sh) := by
  cases d <;> rfl

theorem crop_transpose {a : Arr M} {S : List ℕ} (hπ : ∀ j, π j < a.shape.length ↔ j < a.shape.length) (hn : Near a.shape S) :
    (Spec.Arr.transpose π a).crop (tShape π S) = Spec.Arr.transpose π (a.crop S) := by
  have hπ' : ∀ j, π j < S.length ↔ j < S.length := by rw [← hn.1]; exact hπ
  refine Arr.ext_get rfl fun idx hidx => ?_
  have hidx' : InB (tShape π S) idx := hidx
  have h2 : InB S fun k => idx (π.symm k) := (inB_transpose hπ').mp hidx'
  have h3 : InB a.shape fun k => idx (π.symm k) := by
    intro k hk
    have := h2 k (by rw [← hn.1]; exact hk)
    have := hn.2 k (by rw [← hn.1]; exact hk)
    omega
  rw [transpose_get (x := a.crop S) hπ' hidx']
  unfold Arr.crop
  rw [Arr.get_ofFn _ hidx', transpose_get hπ ((inB_transpose hπ).mpr h3), Arr.get_ofFn _ h2]
  · intro f g hfg
    exact a.get_congr fun j hj => hfg j (by rw [← hn.1]; exact hj)
  · intro f g hfg
    refine (Spec.Arr.transpose π a).get_congr fun j hj => hfg j ?_
    rw [shape_transpose, tShape_length] at hj
    rw [tShape_length, ← hn.1]
    exact hj

theorem idwtnStep_get_sum {st : List (Stage R)} {S : List ℕ} {band : Key → Arr M}
    (hb : ∀ k, (band k).shape = S) {idx : ℕ → ℕ} (hidx : InB (synthShape st S) idx) :
    (Arr.idwtnStep st band S).get idx = ((words st.length).map fun k => ((band k).resynth st k).get idx).sum := by
  unfold Arr.idwtnStep
  rw [Arr.get_ofFn _ hidx]
  intro f g hfg
  refine congrArg List.sum (List.map_congr_left fun k _ => ?_)
  apply Arr.get_congr
  intro j hj
  apply hfg
  rwa [resynth_shape_length, hb, ← synthShape_length st S] at hj

theorem synthFits_transpose {st : List (Stage R)} {S : List ℕ} (hπ : ∀ j, π j < S.length ↔ j < S.length)
    (hf : SynthFits st S) : SynthFits (st.map (tStage π)) (tShape π S) := by
  refine ⟨?_, fun s hs => ?_⟩
  · have : (st.map (tStage π)).map (·.1) = (st.map (·.1)).map π.symm := by
      rw [List.map_map, List.map_map]
      rfl
    rw [this]
    exact hf.1.map π.symm.injective
  · obtain ⟨u, hu, rfl⟩ := List.mem_map.mp hs
    obtain ⟨h1, h2⟩ := hf.2 u hu
    rw [show (tStage π u).1 = π.symm u.1 from rfl, tShape_getD_symm hπ h1, tShape_length]
    exact ⟨(perm_symm_lt hπ u.1).mpr h1, h2⟩

theorem resynth_shape_full : ∀ (st : List (Stage R)) (k : Key) (x : Arr M), k.length = st.length →
    (x.resynth st k).shape = synthShape st x.shape
  | [], k, x, _ => by cases k <;> rfl
  | s :: st, [], x, hk => by simp at hk
  | s :: st, ch :: k, x, hk => by
      rw [Arr.resynth, Arr.shape_along, resynth_shape_full st k x (by simpa using hk)]
      rfl

theorem idwtnStep_transpose {st : List (Stage R)} {S : List ℕ} {band : Key → Arr M}
    (hπ : ∀ j, π j < S.length ↔ j < S.length) (hs : ∀ k, (band k).shape = S) (hb : ∀ s ∈ st, s.1 < S.length) :
    Arr.idwtnStep (st.map (tStage π)) (fun k => Spec.Arr.transpose π (band k)) (tShape π S) =
      Spec.Arr.transpose π (Arr.idwtnStep st band S) := by
  have hl := synthShape_length st S
  have hπ' : ∀ j, π j < (synthShape st S).length ↔ j < (synthShape st S).length := by rw [hl]; exact hπ
  refine Arr.ext_get (synthShape_transpose hπ hb) fun idx hidx => ?_
  have h1 : InB (synthShape (st.map (tStage π)) (tShape π S)) idx := hidx
  have h2 : InB (tShape π (synthShape st S)) idx := by rw [← synthShape_transpose hπ hb]; exact h1
  rw [idwtnStep_get_sum (fun k => by rw [shape_transpose, hs]) h1, transpose_get (x := Arr.idwtnStep st band S) hπ' h2,
    idwtnStep_get_sum hs ((inB_transpose hπ').mp h2), List.length_map]
  congr 1
  refine List.map_congr_left fun k hk => ?_
  have hsh : ((band k).resynth st k).shape = synthShape st S := by
    rw [resynth_shape_full st k _ (mem_words.mp hk).1, hs]
  rw [resynth_transpose (by rw [hs]; exact hπ) (by rw [hs]; exact hb),
    transpose_get (x := (band k).resynth st k) (by rw [hsh]; exact hπ') (by rw [hsh]; exact h2)]

theorem dictOk_transpose {d : List (Key × Arr M)} {m : ℕ} {S : List ℕ} (h : DictOk d m S) :
    DictOk (mapDict (Spec.Arr.transpose π) d) m (tShape π S) := by
  refine ⟨by rw [mapDict, List.map_map]; exact h.1, ?_⟩
  intro p hp
  obtain ⟨q, hq, rfl⟩ := List.mem_map.mp hp
  exact ⟨(h.2 q hq).1, by rw [shape_transpose, (h.2 q hq).2]⟩

theorem near_transpose {a b : List ℕ} (hπ : ∀ j, π j < b.length ↔ j < b.length) (h : Near a b) : Near (tShape π a) (tShape π b) := by
  refine ⟨by rw [tShape_length, tShape_length, h.1], fun j hj => ?_⟩
  rw [tShape_length] at hj
  rw [tShape_getD hj, tShape_getD (by rw [h.1]; exact hj)]
  exact h.2 _ ((hπ j).mpr hj)

theorem waverecnCascade_transpose {st : List (Stage R)} : ∀ {ds : List (List (Key × Arr M))} {A : Arr M},
    (∀ j, π j < A.shape.length ↔ j < A.shape.length) → RecnFits st ds A.shape →
    RecnFits (st.map (tStage π)) (ds.map (mapDict (Spec.Arr.transpose π))) (tShape π A.shape) ∧
    waverecnCascade (st.map (tStage π)) (ds.map (mapDict (Spec.Arr.transpose π))) (Spec.Arr.transpose π A) =
      Spec.Arr.transpose π (waverecnCascade st ds A)
  | [], A, _, _ => ⟨trivial, rfl⟩
  | d :: ds, A, hπ, hf => by
      obtain ⟨f1, f2, f3, f4⟩ := hf
      have hπ' : ∀ j, π j < (detailShape d A.shape).length ↔ j < (detailShape d A.shape).length := by rw [← f2.1]; exact hπ
      have hb : ∀ s ∈ st, s.1 < (detailShape d A.shape).length := fun s hs => (f3.2 s hs).1
      have hstep := idwtnStep_transpose (π := π) (st := st) (S := detailShape d A.shape)
        (band := bandOf d (A.crop (detailShape d A.shape)) st.length) hπ'
        (fun k => bandOf_shape (A := A.crop (detailShape d A.shape)) f1 k) hb
      have hl := synthShape_length st (detailShape d A.shape)
      have ih := waverecnCascade_transpose (st := st) (ds := ds)
        (A := Arr.idwtnStep st (bandOf d (A.crop (detailShape d A.shape)) st.length) (detailShape d A.shape))
        (by rw [idwtnStep_shape', hl]; exact hπ') f4
      rw [idwtnStep_shape'] at ih
      refine ⟨⟨?_, ?_, ?_, ?_⟩, ?_⟩
      · rw [detailShape_transpose, List.length_map]
        exact dictOk_transpose f1
      · rw [detailShape_transpose]
        exact near_transpose hπ' f2
      · rw [detailShape_transpose]
        exact synthFits_transpose hπ' f3
      · rw [detailShape_transpose, synthShape_transpose hπ' hb]
        exact ih.1
      · rw [List.map_cons, waverecnCascade, waverecnCascade, shape_transpose, detailShape_transpose, List.length_map,
          crop_transpose hπ f2,
          show bandOf (mapDict (Spec.Arr.transpose π) d) (Spec.Arr.transpose π (A.crop (detailShape d A.shape))) st.length =
            fun k => Spec.Arr.transpose π (bandOf d (A.crop (detailShape d A.shape)) st.length k) from
            funext fun k => bandOf_transpose (A := A.crop (detailShape d A.shape)) hπ' _ k, hstep]
        exact ih.2

end Pywt
