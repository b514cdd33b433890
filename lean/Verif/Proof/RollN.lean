import Verif.Spec.RollN
import Verif.Proof.Roll
import Verif.Proof.LineOps
import Verif.Proof.MultilevelN

/-!
# Proofs for C84
-/

namespace Pywt

open Finset Spec

set_option autoImplicit false
set_option linter.unusedSectionVars false

variable {R M : Type} [CommRing R] [AddCommGroup M] [Module R M]

theorem shape_roll (ax : ℕ) (c : ℤ) (x : Arr M) : (Spec.Arr.roll ax c x).shape = x.shape := by
  unfold Spec.Arr.roll
  rw [Arr.shape_along]
  by_cases h : ax < x.shape.length
  · rw [List.getD_eq_getElem (hn := h), List.set_getElem_self]
  · rw [List.set_eq_of_length_le (by omega)]

theorem isMat_shift (m : ℕ) (c : ℤ) : IsMat R (M := M) m m (shift c) :=
  isMat_of_natural (g' := shift c) (fun φ l => by
    unfold shift
    rw [List.map_map, List.length_map]
    refine List.map_congr_left fun n _ => ?_
    rw [at'_map]
    rfl) (fun l hl => by rw [shift_length, hl])

theorem isMat_analysis (mode : Mode) (f : List R) (m : ℕ) :
    IsMat R (M := M) m (coeffLen mode m f.length) (analysis mode f) :=
  isMat_of_natural (g' := analysis mode f) (fun φ l => analysis_map φ mode f l) (fun l hl => by rw [analysis_length, hl])

/-- Analysis along one axis commutes with rolls along another one. -/
theorem analyze_roll_other {s : Stage R} (hw : s.2.1.Ok) {ax : ℕ} {x : Arr M} (hne : s.1 ≠ ax) (hs : s.1 < x.shape.length)
    (ha : ax < x.shape.length) (ch : Char) (c : ℤ) :
    (Spec.Arr.roll ax c x).analyze s ch = Spec.Arr.roll ax c (x.analyze s ch) := by
  have h := along_comm (R := R) (x := x) (Ne.symm hne) ha hs rfl rfl (isMat_shift _ c)
    (isMat_analysis s.2.2 (s.2.1.decFilter ch) _)
  unfold Arr.analyze
  rw [shape_roll]
  unfold Spec.Arr.roll
  rw [decFilter_length hw] at h
  rw [h, Arr.shape_along, getD_set hs, if_neg (Ne.symm hne)]

/-- Analysis along an axis halves rolls along it. -/
theorem analyze_roll_self {s : Stage R} (hw : s.2.1.Ok) (hp : s.2.2 = .periodization) {x : Arr M} (hs : s.1 < x.shape.length)
    (h1 : 1 ≤ x.shape.getD s.1 0) (h2 : x.shape.getD s.1 0 % 2 = 0) (ch : Char) (c : ℤ) :
    (Spec.Arr.roll s.1 (2 * c) x).analyze s ch = Spec.Arr.roll s.1 c (x.analyze s ch) := by
  unfold Arr.analyze
  rw [shape_roll]
  unfold Spec.Arr.roll
  rw [Arr.shape_along, getD_set hs, if_pos rfl, Arr.along_along hs (fun l hl => by rw [shift_length, hl]),
    Arr.along_along hs (fun l hl => by rw [analysis_length, hl, decFilter_length hw])]
  refine Arr.along_congr fun l hl => ?_
  rw [hp]
  exact analysis_roll (m := l.length / 2) (by omega) (by omega) _ _

theorem subband_roll_out {ax : ℕ} (c : ℤ) : ∀ {st : List (Stage R)} {k : Key} {x : Arr M}, ax ∉ st.map (·.1) →
    (∀ s ∈ st, s.1 < x.shape.length ∧ s.2.1.Ok) → ax < x.shape.length →
    (Spec.Arr.roll ax c x).subband st k = Spec.Arr.roll ax c (x.subband st k)
  | [], k, x, _, _, _ => by cases k <;> rfl
  | s :: st, [], x, _, _, _ => rfl
  | s :: st, ch :: k, x, hn, hb, ha => by
      simp only [List.map_cons, List.mem_cons, not_or] at hn
      rw [Arr.subband, Arr.subband, analyze_roll_other (hb s (by simp)).2 (Ne.symm hn.1) (hb s (by simp)).1 ha]
      refine subband_roll_out c hn.2 (fun t ht => ?_) ?_
      · rw [Arr.shape_analyze, List.length_set]
        exact hb t (by simp [ht])
      · rw [Arr.shape_analyze, List.length_set]
        exact ha

theorem subband_roll_in {ax : ℕ} (c : ℤ) : ∀ {st : List (Stage R)} {k : Key} {x : Arr M}, (st.map (·.1)).Nodup →
    k.length = st.length → ax ∈ st.map (·.1) → (∀ s ∈ st, s.1 = ax → s.2.2 = .periodization) →
    (∀ s ∈ st, s.1 < x.shape.length ∧ s.2.1.Ok) → 1 ≤ x.shape.getD ax 0 → x.shape.getD ax 0 % 2 = 0 →
    (Spec.Arr.roll ax (2 * c) x).subband st k = Spec.Arr.roll ax c (x.subband st k)
  | [], k, x, _, _, hm, _, _, _, _ => by simp at hm
  | s :: st, [], x, _, hk, _, _, _, _, _ => by simp at hk
  | s :: st, ch :: k, x, hn, hk, hm, hp, hb, h1, h2 => by
      simp only [List.map_cons, List.nodup_cons] at hn
      have hbs := hb s (by simp)
      have hb' : ∀ t ∈ st, t.1 < (x.analyze s ch).shape.length ∧ t.2.1.Ok := fun t ht => by
        rw [Arr.shape_analyze, List.length_set]
        exact hb t (by simp [ht])
      by_cases hs : s.1 = ax
      · subst hs
        rw [Arr.subband, Arr.subband, analyze_roll_self hbs.2 (hp s (by simp) rfl) hbs.1 h1 h2]
        exact subband_roll_out c hn.1 hb' (by rw [Arr.shape_analyze, List.length_set]; exact hbs.1)
      · have hm' : ax ∈ st.map (·.1) := by
          simp only [List.map_cons, List.mem_cons] at hm
          rcases hm with h | h
          · exact absurd h.symm hs
          · exact h
        obtain ⟨t, ht, hta⟩ := List.mem_map.mp hm'
        have ha : ax < x.shape.length := by
          rw [← hta]
          exact (hb t (by simp [ht])).1
        have hsh : (x.analyze s ch).shape.getD ax 0 = x.shape.getD ax 0 := by
          rw [Arr.shape_analyze, getD_set hbs.1, if_neg (Ne.symm hs)]
        rw [Arr.subband, Arr.subband, analyze_roll_other hbs.2 hs hbs.1 ha]
        exact subband_roll_in c hn.2 (by simpa using hk) hm' (fun t ht => hp t (by simp [ht])) hb' (by rw [hsh]; exact h1)
          (by rw [hsh]; exact h2)

theorem approxN_succ_roll (st : List (Stage R)) (j : ℕ) (y : Arr M) :
    y.approxN st (j + 1) = (y.approxN st j).subband st (List.replicate st.length 'a') := by
  simp only [Arr.approxN, Function.iterate_succ_apply']

theorem approxN_roll_out {ax : ℕ} (c : ℤ) {st : List (Stage R)} {x : Arr M} (hn : (st.map (·.1)).Nodup)
    (ho : ax ∉ st.map (·.1)) (hb : ∀ s ∈ st, s.1 < x.shape.length ∧ s.2.1.Ok) (ha : ax < x.shape.length) :
    ∀ j, (Spec.Arr.roll ax c x).approxN st j = Spec.Arr.roll ax c (x.approxN st j)
  | 0 => rfl
  | j + 1 => by
      have hl : (x.approxN st j).shape.length = x.shape.length := by
        rw [Arr.shape_approxN]
        exact (decShape_iter_getD hn (fun s hs => (hb s hs).1) j).1
      rw [approxN_succ_roll, approxN_succ_roll, approxN_roll_out c hn ho hb ha j,
        subband_roll_out c ho (fun s hs => by rw [hl]; exact hb s hs) (by rw [hl]; exact ha)]

/-- The extent along the axis and all that the step lemma needs, at every level. -/
theorem level_roll_in {ax : ℕ} {st : List (Stage R)} {x : Arr M} (hn : (st.map (·.1)).Nodup) (hm : ax ∈ st.map (·.1))
    (hp : ∀ s ∈ st, s.1 = ax → s.2.2 = .periodization) (hb : ∀ s ∈ st, s.1 < x.shape.length ∧ s.2.1.Ok)
    (h1 : 1 ≤ x.shape.getD ax 0) {l j : ℕ} (hl : 2 ^ l ∣ x.shape.getD ax 0) (hj : j < l) :
    (∀ s ∈ st, s.1 < (x.approxN st j).shape.length ∧ s.2.1.Ok) ∧ 1 ≤ (x.approxN st j).shape.getD ax 0 ∧
      (x.approxN st j).shape.getD ax 0 % 2 = 0 := by
  have hd := decShape_iter_getD hn (fun s hs => (hb s hs).1) j
  obtain ⟨s, hs, rfl⟩ := List.mem_map.mp hm
  rw [Arr.shape_approxN, hd.1, hd.2 s hs, hp s hs rfl]
  have hdv : 2 ^ (j + 1) ∣ x.shape.getD s.1 0 := dvd_trans (pow_dvd_pow 2 hj) hl
  have hpos : 1 ≤ x.shape.getD s.1 0 / 2 ^ (j + 1) := Nat.div_pos (Nat.le_of_dvd (by omega) hdv) (by positivity)
  have := half_len hdv
  rw [approxLen_per_div (dvd_trans (pow_dvd_pow 2 (by omega)) hdv)]
  exact ⟨hb, by omega, by omega⟩

theorem approxN_roll_in {ax : ℕ} (c : ℤ) {st : List (Stage R)} {x : Arr M} (hn : (st.map (·.1)).Nodup)
    (hm : ax ∈ st.map (·.1)) (hp : ∀ s ∈ st, s.1 = ax → s.2.2 = .periodization)
    (hb : ∀ s ∈ st, s.1 < x.shape.length ∧ s.2.1.Ok) (h1 : 1 ≤ x.shape.getD ax 0) {l : ℕ} (hl : 2 ^ l ∣ x.shape.getD ax 0) :
    ∀ j ≤ l, (Spec.Arr.roll ax (2 ^ l * c) x).approxN st j = Spec.Arr.roll ax (2 ^ (l - j) * c) (x.approxN st j)
  | 0, _ => rfl
  | j + 1, hj => by
      obtain ⟨e1, e2, e3⟩ := level_roll_in hn hm hp hb h1 hl (show j < l by omega)
      rw [approxN_succ_roll, approxN_succ_roll, approxN_roll_in c hn hm hp hb h1 hl j (by omega),
        show (2 : ℤ) ^ (l - j) * c = 2 * (2 ^ (l - (j + 1)) * c) by
          rw [show l - j = (l - (j + 1)) + 1 by omega, pow_succ]; ring,
        subband_roll_in _ hn (by simp) hm hp e1 e2 e3]

theorem band_roll_in {ax : ℕ} (c : ℤ) {st : List (Stage R)} {x : Arr M} (hn : (st.map (·.1)).Nodup)
    (hm : ax ∈ st.map (·.1)) (hp : ∀ s ∈ st, s.1 = ax → s.2.2 = .periodization)
    (hb : ∀ s ∈ st, s.1 < x.shape.length ∧ s.2.1.Ok) (h1 : 1 ≤ x.shape.getD ax 0) {l : ℕ} (hl : 2 ^ l ∣ x.shape.getD ax 0)
    {j : ℕ} (hj : j < l) {k : Key} (hk : k.length = st.length) :
    ((Spec.Arr.roll ax (2 ^ l * c) x).approxN st j).subband st k =
      Spec.Arr.roll ax (2 ^ (l - (j + 1)) * c) ((x.approxN st j).subband st k) := by
  obtain ⟨e1, e2, e3⟩ := level_roll_in hn hm hp hb h1 hl hj
  rw [approxN_roll_in c hn hm hp hb h1 hl j (by omega), show (2 : ℤ) ^ (l - j) * c = 2 * (2 ^ (l - (j + 1)) * c) by
      rw [show l - j = (l - (j + 1)) + 1 by omega, pow_succ]; ring, subband_roll_in _ hn hk hm hp e1 e2 e3]

/-- Lists of levels in reverse order. -/
theorem mapIdx_levels {α β : Type} {F : ℕ → α} {G : ℕ → β} {T : ℕ → α → β} {l : ℕ}
    (h : ∀ j < l, G j = T (l - (j + 1)) (F j)) :
    ((List.range l).map G).reverse = ((List.range l).map F).reverse.mapIdx T := by
  refine List.ext_getElem (by simp) fun i h1 h2 => ?_
  simp only [List.length_reverse, List.length_map, List.length_range] at h1
  rw [List.getElem_mapIdx, List.getElem_reverse, List.getElem_reverse]
  simp only [List.getElem_map, List.getElem_range, List.length_map, List.length_range]
  rw [h _ (by omega)]
  congr 1
  omega

theorem mapItem_ofDict (f : Arr M → Arr M) (d : List (Key × Arr M)) :
    mapItem f (Item.ofDict d) = Item.ofDict (d.map fun p => (p.1, f p.2)) := by
  simp [mapItem, Item.ofDict, Function.comp_def]

theorem detailsN_roll {T : Arr M → Arr M} {st : List (Stage R)} {j : ℕ} {x y : Arr M}
    (h : ∀ k : Key, k.length = st.length → (y.approxN st j).subband st k = T ((x.approxN st j).subband st k)) :
    Item.ofDict (y.detailsN st j) = mapItem T (Item.ofDict (x.detailsN st j)) := by
  rw [mapItem_ofDict]
  congr 1
  unfold Arr.detailsN
  rw [List.map_map]
  refine List.map_congr_left fun k hk => ?_
  simp only [Function.comp_apply, Prod.mk.injEq, true_and]
  exact h k ((mem_words.mp (List.mem_filter.mp hk).1).1)

theorem cascadeN_roll_in {ax : ℕ} (c : ℤ) {st : List (Stage R)} {x : Arr M} (hn : (st.map (·.1)).Nodup)
    (hm : ax ∈ st.map (·.1)) (hp : ∀ s ∈ st, s.1 = ax → s.2.2 = .periodization)
    (hb : ∀ s ∈ st, s.1 < x.shape.length ∧ s.2.1.Ok) (h1 : 1 ≤ x.shape.getD ax 0) {l : ℕ} (hl : 2 ^ l ∣ x.shape.getD ax 0) :
    (Spec.Arr.roll ax (2 ^ l * c) x).cascadeN st l = rollLevels ax c (x.cascadeN st l) := by
  unfold Arr.cascadeN rollLevels
  rw [approxN_roll_in c hn hm hp hb h1 hl l le_rfl, Nat.sub_self, pow_zero, one_mul]
  congr 1
  exact mapIdx_levels fun j hj => detailsN_roll fun k hk => band_roll_in c hn hm hp hb h1 hl hj hk

theorem cascade2_roll_in {ax : ℕ} (c : ℤ) {s t : Stage R} {x : Arr M} (hn : (([s, t] : List (Stage R)).map (·.1)).Nodup)
    (hm : ax ∈ ([s, t] : List (Stage R)).map (·.1)) (hp : ∀ u ∈ [s, t], u.1 = ax → u.2.2 = .periodization)
    (hb : ∀ u ∈ [s, t], u.1 < x.shape.length ∧ u.2.1.Ok) (h1 : 1 ≤ x.shape.getD ax 0) {l : ℕ} (hl : 2 ^ l ∣ x.shape.getD ax 0) :
    (Spec.Arr.roll ax (2 ^ l * c) x).cascade2 [s, t] l = rollLevels ax c (x.cascade2 [s, t] l) := by
  unfold Arr.cascade2 rollLevels
  rw [approxN_roll_in c hn hm hp hb h1 hl l le_rfl, Nat.sub_self, pow_zero, one_mul]
  congr 1
  refine mapIdx_levels fun j hj => ?_
  rw [band_roll_in c hn hm hp hb h1 hl hj rfl, band_roll_in c hn hm hp hb h1 hl hj rfl,
    band_roll_in c hn hm hp hb h1 hl hj rfl]
  rfl

theorem cascadeN_roll_out {ax : ℕ} (c : ℤ) {st : List (Stage R)} {x : Arr M} (hn : (st.map (·.1)).Nodup)
    (ho : ax ∉ st.map (·.1)) (hb : ∀ s ∈ st, s.1 < x.shape.length ∧ s.2.1.Ok) (ha : ax < x.shape.length) (l : ℕ) :
    (Spec.Arr.roll ax c x).cascadeN st l = (x.cascadeN st l).map (mapItem (Spec.Arr.roll ax c)) := by
  unfold Arr.cascadeN
  rw [approxN_roll_out c hn ho hb ha l, List.map_cons, List.map_reverse, List.map_map]
  congr 2
  refine List.map_congr_left fun j _ => detailsN_roll fun k hk => ?_
  have hl : (x.approxN st j).shape.length = x.shape.length := by
    rw [Arr.shape_approxN]
    exact (decShape_iter_getD hn (fun s hs => (hb s hs).1) j).1
  rw [approxN_roll_out c hn ho hb ha j, subband_roll_out c ho (fun s hs => by rw [hl]; exact hb s hs) (by rw [hl]; exact ha)]

end Pywt
