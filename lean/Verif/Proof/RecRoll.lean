import Verif.Spec.RecRoll
import Verif.Proof.RecTranspose

/-!
# Proofs for C90
-/

namespace Pywt

open Finset Spec

set_option autoImplicit false
set_option linter.unusedSectionVars false

variable {R M : Type} [CommRing R] [AddCommGroup M] [Module R M]

theorem synthesis1_eq_synthesis (mode : Mode) (f : List R) (a : List M) : synthesis1 mode f a = synthesis mode f [] a a := by
  cases mode <;> simp [synthesis1, synthesis, conv]

theorem isMat_synthesis1 (mode : Mode) (f : List R) (m : ℕ) :
    IsMat R (M := M) m (synthLen mode m f.length) (synthesis1 mode f) :=
  isMat_of_natural (g' := synthesis1 mode f)
    (fun φ l => by rw [synthesis1_eq_synthesis, synthesis1_eq_synthesis, synthesis_map])
    (fun l hl => by rw [synthesis1_length, hl])

theorem resynth_extent_out {ax : ℕ} : ∀ {st : List (Stage R)} {k : Key} {x : Arr M}, ax ∉ st.map (·.1) →
    (x.resynth st k).shape.getD ax 0 = x.shape.getD ax 0
  | [], k, x, _ => by cases k <;> rfl
  | s :: st, [], x, _ => rfl
  | s :: st, ch :: k, x, h => by
      simp only [List.map_cons, List.mem_cons, not_or] at h
      rw [Arr.resynth, Arr.shape_along, List.getD_eq_getElem?_getD, List.getElem?_set_ne (Ne.symm h.1),
        ← List.getD_eq_getElem?_getD, resynth_extent_out h.2]

/-- Synthesis along one axis commutes with rolls along another one. -/
theorem synth_roll_other {s : Stage R} (hw : s.2.1.Ok) {ax : ℕ} {y : Arr M} (hne : s.1 ≠ ax) (hs : s.1 < y.shape.length)
    (ha : ax < y.shape.length) (ch : Char) (c : ℤ) :
    (Spec.Arr.roll ax c y).along s.1 (synthLen s.2.2 (y.shape.getD s.1 0) s.2.1.rec_len) (synthesis1 s.2.2 (s.2.1.recFilter ch)) =
      Spec.Arr.roll ax c
        (y.along s.1 (synthLen s.2.2 (y.shape.getD s.1 0) s.2.1.rec_len) (synthesis1 s.2.2 (s.2.1.recFilter ch))) := by
  have h := along_comm (R := R) (x := y) (Ne.symm hne) ha hs rfl rfl (isMat_shift _ c)
    (isMat_synthesis1 s.2.2 (s.2.1.recFilter ch) _)
  unfold Spec.Arr.roll
  rw [recFilter_length hw] at h
  rw [h, Arr.shape_along, getD_set hs, if_neg (Ne.symm hne)]

/-- Synthesis along an axis doubles rolls along it. -/
theorem synth_roll_self {s : Stage R} (hw : s.2.1.Ok) (hp : s.2.2 = .periodization) {y : Arr M} (hs : s.1 < y.shape.length)
    (h1 : 1 ≤ y.shape.getD s.1 0) (ch : Char) (c : ℤ) :
    (Spec.Arr.roll s.1 c y).along s.1 (synthLen s.2.2 (y.shape.getD s.1 0) s.2.1.rec_len) (synthesis1 s.2.2 (s.2.1.recFilter ch)) =
      Spec.Arr.roll s.1 (2 * c)
        (y.along s.1 (synthLen s.2.2 (y.shape.getD s.1 0) s.2.1.rec_len) (synthesis1 s.2.2 (s.2.1.recFilter ch))) := by
  unfold Spec.Arr.roll
  rw [Arr.shape_along, getD_set hs, if_pos rfl, Arr.along_along hs (fun l hl => by rw [shift_length, hl]),
    Arr.along_along hs (fun l hl => by rw [synthesis1_length, hl, recFilter_length hw])]
  refine Arr.along_congr fun l hl => ?_
  rw [hp, synthesis1_eq_synthesis, synthesis1_eq_synthesis, synthesis_roll (by omega) rfl]

theorem resynth_roll_out {ax : ℕ} (c : ℤ) : ∀ {st : List (Stage R)} {k : Key} {x : Arr M}, (st.map (·.1)).Nodup →
    ax ∉ st.map (·.1) → (∀ s ∈ st, s.1 < x.shape.length ∧ s.2.1.Ok) → ax < x.shape.length →
    (Spec.Arr.roll ax c x).resynth st k = Spec.Arr.roll ax c (x.resynth st k)
  | [], k, x, _, _, _, _ => by cases k <;> rfl
  | s :: st, [], x, _, _, _, _ => rfl
  | s :: st, ch :: k, x, hn, ho, hb, ha => by
      simp only [List.map_cons, List.nodup_cons] at hn
      simp only [List.map_cons, List.mem_cons, not_or] at ho
      have hl := resynth_shape_length st k x
      have he := resynth_extent_out (k := k) (x := x) hn.1
      rw [Arr.resynth, Arr.resynth, shape_roll, resynth_roll_out c hn.2 ho.2 (fun t ht => hb t (by simp [ht])) ha, ← he]
      exact synth_roll_other (hb s (by simp)).2 (Ne.symm ho.1) (by rw [hl]; exact (hb s (by simp)).1) (by rw [hl]; exact ha) ch c

theorem resynth_roll_in {ax : ℕ} (c : ℤ) : ∀ {st : List (Stage R)} {k : Key} {x : Arr M}, (st.map (·.1)).Nodup →
    k.length = st.length → ax ∈ st.map (·.1) → (∀ s ∈ st, s.1 = ax → s.2.2 = .periodization) →
    (∀ s ∈ st, s.1 < x.shape.length ∧ s.2.1.Ok) → 1 ≤ x.shape.getD ax 0 →
    (Spec.Arr.roll ax c x).resynth st k = Spec.Arr.roll ax (2 * c) (x.resynth st k)
  | [], k, x, _, _, hm, _, _, _ => by simp at hm
  | s :: st, [], x, _, hk, _, _, _, _ => by simp at hk
  | s :: st, ch :: k, x, hn, hk, hm, hp, hb, h1 => by
      simp only [List.map_cons, List.nodup_cons] at hn
      have hbs := hb s (by simp)
      have hl := resynth_shape_length st k x
      have he := resynth_extent_out (k := k) (x := x) hn.1
      rw [Arr.resynth, Arr.resynth, shape_roll, ← he]
      by_cases hs : s.1 = ax
      · subst hs
        rw [resynth_roll_out c hn.2 hn.1 (fun t ht => hb t (by simp [ht])) hbs.1]
        exact synth_roll_self hbs.2 (hp s (by simp) rfl) (by rw [hl]; exact hbs.1) (by rw [he]; exact h1) ch c
      · have hm' : ax ∈ st.map (·.1) := by
          simp only [List.map_cons, List.mem_cons] at hm
          rcases hm with h | h
          · exact absurd h.symm hs
          · exact h
        obtain ⟨t, ht, hta⟩ := List.mem_map.mp hm'
        have ha : ax < x.shape.length := by
          rw [← hta]
          exact (hb t (by simp [ht])).1
        rw [resynth_roll_in c hn.2 (by simpa using hk) hm' (fun t ht => hp t (by simp [ht])) (fun t ht => hb t (by simp [ht])) h1]
        exact synth_roll_other hbs.2 hs (by rw [hl]; exact hbs.1) (by rw [hl]; exact ha) ch (2 * c)

/-- Both cases: the factor of the roll is 2 along a transformed axis, 1 along the others. -/
theorem resynth_roll {ax : ℕ} (c : ℤ) {st : List (Stage R)} {S : List ℕ} (hf : SynthFits st S) (ha : ax < S.length)
    (hp : ∀ s ∈ st, s.1 = ax → s.2.2 = .periodization) {k : Key} (hk : k ∈ words st.length) {x : Arr M} (hx : x.shape = S) :
    (Spec.Arr.roll ax c x).resynth st k =
      Spec.Arr.roll ax ((if ax ∈ st.map (·.1) then 2 else 1) * c) (x.resynth st k) := by
  subst hx
  have hb : ∀ s ∈ st, s.1 < x.shape.length ∧ s.2.1.Ok := fun s hs => ⟨(hf.2 s hs).1, (hf.2 s hs).2.1⟩
  by_cases hm : ax ∈ st.map (·.1)
  · rw [if_pos hm]
    obtain ⟨t, ht, hta⟩ := List.mem_map.mp hm
    have h1 := (hf.2 t ht).2.2
    rw [hta, hp t ht hta, synthLen, if_pos rfl] at h1
    exact resynth_roll_in c hf.1 (mem_words.mp hk).1 hm hp hb (by omega)
  · rw [if_neg hm, one_mul]
    exact resynth_roll_out c hf.1 hm hb ha

theorem roll_index_inB {S : List ℕ} {ax : ℕ} {idx : ℕ → ℕ} (h : InB S idx) (c : ℤ) :
    InB S (Function.update idx ax (((idx ax : ℤ) - c) % (S.getD ax 0 : ℕ)).toNat) := by
  intro j hj
  by_cases e : j = ax
  · subst e
    have h1 := h j hj
    have h2 : ((idx j : ℤ) - c) % (S.getD j 0 : ℕ) < (S.getD j 0 : ℕ) := Int.emod_lt_of_pos _ (by omega)
    have h3 : 0 ≤ ((idx j : ℤ) - c) % (S.getD j 0 : ℕ) := Int.emod_nonneg _ (by omega)
    rw [Function.update_self]
    omega
  · rw [Function.update_of_ne e]
    exact h j hj

theorem idwtnStep_roll {ax : ℕ} (c : ℤ) {st : List (Stage R)} {S : List ℕ} (hf : SynthFits st S) (ha : ax < S.length)
    (hp : ∀ s ∈ st, s.1 = ax → s.2.2 = .periodization) {band : Key → Arr M} (hs : ∀ k, (band k).shape = S) :
    Arr.idwtnStep st (fun k => Spec.Arr.roll ax c (band k)) S =
      Spec.Arr.roll ax ((if ax ∈ st.map (·.1) then 2 else 1) * c) (Arr.idwtnStep st band S) := by
  have hl := synthShape_length st S
  refine Arr.ext_get (by rw [shape_roll]; rfl) fun idx hidx => ?_
  have h1 : InB (synthShape st S) idx := hidx
  have hsh := idwtnStep_shape' st band S
  rw [idwtnStep_get_sum (fun k => by rw [shape_roll, hs]) h1,
    (C84_roll_values (x := Arr.idwtnStep st band S) (by rw [hsh, hl]; exact ha) _).2 idx (by rw [hsh]; exact h1), hsh,
    idwtnStep_get_sum hs (roll_index_inB h1 _)]
  congr 1
  refine List.map_congr_left fun k hk => ?_
  have hrs := resynth_shape_full st k (band k) (mem_words.mp hk).1
  rw [hs] at hrs
  rw [resynth_roll c hf ha hp hk (hs k),
    (C84_roll_values (x := (band k).resynth st k) (by rw [hrs, hl]; exact ha) _).2 idx (by rw [hrs]; exact h1), hrs]

theorem crop_roll {ax : ℕ} (c : ℤ) {a : Arr M} {S : List ℕ} (ha : ax < a.shape.length) (hn : Near a.shape S)
    (he : S.getD ax 0 = a.shape.getD ax 0) : (Spec.Arr.roll ax c a).crop S = Spec.Arr.roll ax c (a.crop S) := by
  refine Arr.ext_get (by rw [shape_roll]; rfl) fun idx hidx => ?_
  have h1 : InB S idx := hidx
  have hsub : ∀ i, InB S i → InB a.shape i := by
    intro i h k hk
    have := h k (by rw [← hn.1]; exact hk)
    have := hn.2 k (by rw [← hn.1]; exact hk)
    omega
  have hloc : ∀ f g : ℕ → ℕ, (∀ j < S.length, f j = g j) → a.get f = a.get g :=
    fun f g hfg => a.get_congr fun j hj => hfg j (by rw [← hn.1]; exact hj)
  have hloc' : ∀ f g : ℕ → ℕ, (∀ j < S.length, f j = g j) → (Spec.Arr.roll ax c a).get f = (Spec.Arr.roll ax c a).get g :=
    fun f g hfg => (Spec.Arr.roll ax c a).get_congr fun j hj => hfg j (by rw [shape_roll] at hj; rw [← hn.1]; exact hj)
  rw [(C84_roll_values (x := a.crop S) (show ax < S.length by rw [← hn.1]; exact ha) c).2 idx h1,
    show (a.crop S).shape = S from rfl]
  unfold Arr.crop
  rw [Arr.get_ofFn hloc' h1, Arr.get_ofFn hloc (roll_index_inB h1 c), (C84_roll_values ha c).2 idx (hsub _ h1), he]

theorem dictOk_roll {ax : ℕ} {c : ℤ} {d : List (Key × Arr M)} {m : ℕ} {S : List ℕ} (h : DictOk d m S) :
    DictOk (mapDict (Spec.Arr.roll ax c) d) m S := by
  refine ⟨by rw [mapDict, List.map_map]; exact h.1, ?_⟩
  intro p hp
  obtain ⟨q, hq, rfl⟩ := List.mem_map.mp hp
  exact ⟨(h.2 q hq).1, by rw [shape_roll, (h.2 q hq).2]⟩

theorem detailShape_roll {ax : ℕ} {c : ℤ} (d : List (Key × Arr M)) (sh : List ℕ) :
    detailShape (mapDict (Spec.Arr.roll ax c) d) sh = detailShape d sh := by
  cases d with
  | nil => rfl
  | cons p d => exact shape_roll ax c p.2

theorem waverecnCascade_roll {ax : ℕ} {st : List (Stage R)} (hp : ∀ s ∈ st, s.1 = ax → s.2.2 = .periodization) :
    ∀ {ds : List (List (Key × Arr M))} {A : Arr M} (c : ℤ), ax < A.shape.length → RecnFits st ds A.shape →
    ExactAlong st ax ds A.shape →
    RecnFits st (ds.mapIdx fun i d => mapDict (Spec.Arr.roll ax ((if ax ∈ st.map (·.1) then 2 else 1) ^ i * c)) d) A.shape ∧
    waverecnCascade st (ds.mapIdx fun i d => mapDict (Spec.Arr.roll ax ((if ax ∈ st.map (·.1) then 2 else 1) ^ i * c)) d)
      (Spec.Arr.roll ax c A) =
      Spec.Arr.roll ax ((if ax ∈ st.map (·.1) then 2 else 1) ^ ds.length * c) (waverecnCascade st ds A)
  | [], A, c, _, _, _ => by
      refine ⟨trivial, ?_⟩
      rw [List.length_nil, pow_zero, one_mul]
      rfl
  | d :: ds, A, c, ha, hf, he => by
      obtain ⟨f1, f2, f3, f4⟩ := hf
      obtain ⟨e1, e2⟩ := he
      have ha' : ax < (detailShape d A.shape).length := by rw [← f2.1]; exact ha
      have hstep := idwtnStep_roll (ax := ax) c f3 ha' hp (band := bandOf d (A.crop (detailShape d A.shape)) st.length)
        (fun k => bandOf_shape (A := A.crop (detailShape d A.shape)) f1 k)
      have hl := synthShape_length st (detailShape d A.shape)
      have ih := waverecnCascade_roll hp (ds := ds)
        (A := Arr.idwtnStep st (bandOf d (A.crop (detailShape d A.shape)) st.length) (detailShape d A.shape))
        ((if ax ∈ st.map (·.1) then 2 else 1) * c) (by rw [idwtnStep_shape', hl]; exact ha') f4 e2
      rw [idwtnStep_shape'] at ih
      have hpow : ∀ i : ℕ, (if ax ∈ st.map (·.1) then (2 : ℤ) else 1) ^ i * ((if ax ∈ st.map (·.1) then 2 else 1) * c) =
          (if ax ∈ st.map (·.1) then 2 else 1) ^ (i + 1) * c := fun i => by ring
      simp only [hpow] at ih
      rw [List.mapIdx_cons, pow_zero, one_mul]
      refine ⟨⟨?_, ?_, ?_, ?_⟩, ?_⟩
      · rw [detailShape_roll]
        exact dictOk_roll f1
      · rw [detailShape_roll]
        exact f2
      · rw [detailShape_roll]
        exact f3
      · rw [detailShape_roll]
        exact ih.1
      · rw [waverecnCascade, waverecnCascade, shape_roll, detailShape_roll, crop_roll c ha f2 e1,
          show bandOf (mapDict (Spec.Arr.roll ax c) d) (Spec.Arr.roll ax c (A.crop (detailShape d A.shape))) st.length =
            fun k => Spec.Arr.roll ax c (bandOf d (A.crop (detailShape d A.shape)) st.length k) from
            funext fun k => bandOf_roll (A := A.crop (detailShape d A.shape)) c ha' _ k, hstep]
        exact ih.2

end Pywt
