import Verif.Spec.Transpose
import Verif.Proof.RollN
import Verif.Proof.Waverec2
import Verif.Proof.MultiDimTop

/-!
# Proofs for C86
-/

namespace Pywt

open Finset Spec

set_option autoImplicit false
set_option linter.unusedSectionVars false

variable {R M : Type} [CommRing R] [AddCommGroup M] [Module R M]

theorem tShape_length (π : Equiv.Perm ℕ) (sh : List ℕ) : (tShape π sh).length = sh.length := by simp [tShape]

theorem tShape_getD {π : Equiv.Perm ℕ} {sh : List ℕ} {j : ℕ} (hj : j < sh.length) :
    (tShape π sh).getD j 0 = sh.getD (π j) 0 := by
  rw [List.getD_eq_getElem (hn := by rw [tShape_length]; exact hj)]
  simp [tShape]

/-- The permutation moves the axes of the array only. -/
theorem perm_symm_lt {π : Equiv.Perm ℕ} {n : ℕ} (hπ : ∀ j, π j < n ↔ j < n) (j : ℕ) : π.symm j < n ↔ j < n := by
  rw [← hπ (π.symm j), Equiv.apply_symm_apply]

theorem tShape_getD_symm {π : Equiv.Perm ℕ} {sh : List ℕ} (hπ : ∀ j, π j < sh.length ↔ j < sh.length) {a : ℕ} (ha : a < sh.length) :
    (tShape π sh).getD (π.symm a) 0 = sh.getD a 0 := by
  rw [tShape_getD ((perm_symm_lt hπ a).mpr ha), Equiv.apply_symm_apply]

theorem tShape_set {π : Equiv.Perm ℕ} {sh : List ℕ} (hπ : ∀ j, π j < sh.length ↔ j < sh.length) {a : ℕ} (ha : a < sh.length)
    (m : ℕ) : (tShape π sh).set (π.symm a) m = tShape π (sh.set a m) := by
  refine List.ext_getElem (by simp [tShape]) fun j h1 h2 => ?_
  rw [List.length_set, tShape_length] at h1
  rw [← List.getD_eq_getElem _ 0, ← List.getD_eq_getElem _ 0,
    getD_set (by rw [tShape_length]; exact (perm_symm_lt hπ a).mpr ha), tShape_getD h1,
    tShape_getD (by rw [List.length_set]; exact h1), getD_set ha]
  by_cases h : j = π.symm a
  · rw [if_pos h, if_pos (by rw [h, Equiv.apply_symm_apply])]
  · rw [if_neg h, if_neg (fun e => h (by rw [← e, Equiv.symm_apply_apply]))]

theorem shape_transpose (π : Equiv.Perm ℕ) (x : Arr M) : (Spec.Arr.transpose π x).shape = tShape π x.shape := rfl

theorem transpose_get {π : Equiv.Perm ℕ} {x : Arr M} (hπ : ∀ j, π j < x.shape.length ↔ j < x.shape.length) {idx : ℕ → ℕ}
    (h : InB (tShape π x.shape) idx) : (Spec.Arr.transpose π x).get idx = x.get fun k => idx (π.symm k) := by
  unfold Spec.Arr.transpose
  rw [Arr.get_ofFn (fun g h hgh => ?_) h]
  refine x.get_congr fun k hk => hgh _ ?_
  rw [tShape_length]
  exact (perm_symm_lt hπ k).mpr hk

theorem inB_transpose {π : Equiv.Perm ℕ} {sh : List ℕ} (hπ : ∀ j, π j < sh.length ↔ j < sh.length) {idx : ℕ → ℕ} :
    InB (tShape π sh) idx ↔ InB sh fun k => idx (π.symm k) := by
  constructor
  · intro h k hk
    have := h (π.symm k) (by rw [tShape_length]; exact (perm_symm_lt hπ k).mpr hk)
    rwa [tShape_getD_symm hπ hk] at this
  · intro h k hk
    rw [tShape_length] at hk
    have := h (π k) ((hπ k).mpr hk)
    rw [tShape_getD hk]
    simpa using this

/-- An operation on lines along an axis commutes with transposing. -/
theorem along_transpose {π : Equiv.Perm ℕ} {x : Arr M} (hπ : ∀ j, π j < x.shape.length ↔ j < x.shape.length) {a : ℕ}
    (ha : a < x.shape.length) (n : ℕ) (g : List M → List M) :
    (Spec.Arr.transpose π x).along (π.symm a) n g = Spec.Arr.transpose π (x.along a n g) := by
  have hs : ((Spec.Arr.transpose π x).along (π.symm a) n g).shape = (Spec.Arr.transpose π (x.along a n g)).shape := by
    rw [Arr.shape_along, shape_transpose, shape_transpose, Arr.shape_along, tShape_set hπ ha]
  have ha' : π.symm a < (Spec.Arr.transpose π x).shape.length := by
    rw [shape_transpose, tShape_length]
    exact (perm_symm_lt hπ a).mpr ha
  refine Arr.ext_get hs fun idx hidx => ?_
  have hidx' := hidx
  rw [hs, shape_transpose] at hidx'
  have hin : InB (x.shape.set a n) fun k => idx (π.symm k) := by
    rw [Arr.shape_along] at hidx'
    exact (inB_transpose (by simpa using hπ)).mp hidx'
  rw [transpose_get (by simpa [Arr.shape_along] using hπ) hidx', Arr.along_get ha hin,
    Arr.along_get ha' (by rw [Arr.shape_along] at hidx; exact hidx)]
  congr 2
  unfold Arr.line
  rw [shape_transpose, tShape_getD_symm hπ ha]
  refine List.map_congr_left fun i hi => ?_
  rw [List.mem_range] at hi
  rw [transpose_get hπ]
  · congr 1
    funext k
    by_cases hk : k = a
    · subst hk; simp
    · rw [Function.update_of_ne (fun e => hk (π.symm.injective e)), Function.update_of_ne hk]
  · rw [inB_transpose hπ]
    intro k hk
    by_cases hka : k = a
    · subst hka; simpa using hi
    · show Function.update idx (π.symm a) i (π.symm k) < _
      rw [Function.update_of_ne (fun e => hka (π.symm.injective e))]
      have := hin k (by simpa using hk)
      rwa [getD_set ha, if_neg hka] at this

theorem analyze_transpose {π : Equiv.Perm ℕ} {x : Arr M} (hπ : ∀ j, π j < x.shape.length ↔ j < x.shape.length) {s : Stage R}
    (hs : s.1 < x.shape.length) (c : Char) :
    (Spec.Arr.transpose π x).analyze (tStage π s) c = Spec.Arr.transpose π (x.analyze s c) := by
  unfold Arr.analyze
  rw [show (tStage π s).1 = π.symm s.1 from rfl, show (tStage π s).2 = s.2 from rfl, shape_transpose, tShape_getD_symm hπ hs,
    along_transpose hπ hs]

theorem subband_transpose {π : Equiv.Perm ℕ} : ∀ {st : List (Stage R)} {k : Key} {x : Arr M},
    (∀ j, π j < x.shape.length ↔ j < x.shape.length) → (∀ s ∈ st, s.1 < x.shape.length) →
    (Spec.Arr.transpose π x).subband (st.map (tStage π)) k = Spec.Arr.transpose π (x.subband st k)
  | [], k, x, _, _ => by cases k <;> rfl
  | s :: st, [], x, _, _ => rfl
  | s :: st, ch :: k, x, hπ, hb => by
      rw [List.map_cons, Arr.subband, Arr.subband, analyze_transpose hπ (hb s (by simp))]
      refine subband_transpose ?_ fun t ht => ?_
      · rw [Arr.shape_analyze, List.length_set]; exact hπ
      · rw [Arr.shape_analyze, List.length_set]; exact hb t (by simp [ht])

theorem decShape_transpose {π : Equiv.Perm ℕ} : ∀ {st : List (Stage R)} {sh : List ℕ}, (∀ j, π j < sh.length ↔ j < sh.length) →
    (∀ s ∈ st, s.1 < sh.length) → decShape (st.map (tStage π)) (tShape π sh) = tShape π (decShape st sh)
  | [], sh, _, _ => rfl
  | s :: st, sh, hπ, hb => by
      have hs := hb s (by simp)
      unfold decShape
      rw [List.map_cons, List.foldl_cons, List.foldl_cons, show (tStage π s).1 = π.symm s.1 from rfl,
        show (tStage π s).2 = s.2 from rfl, tShape_getD_symm hπ hs, tShape_set hπ hs]
      exact decShape_transpose (st := st) (by simpa using hπ) fun t ht => by simpa using hb t (by simp [ht])

theorem stagesOk_transpose {π : Equiv.Perm ℕ} : ∀ {st : List (Stage R)} {sh : List ℕ}, (∀ j, π j < sh.length ↔ j < sh.length) →
    (∀ s ∈ st, s.1 < sh.length) → (StagesOk (st.map (tStage π)) (tShape π sh) ↔ StagesOk st sh)
  | [], sh, _, _ => Iff.rfl
  | s :: st, sh, hπ, hb => by
      have hs := hb s (by simp)
      rw [List.map_cons, StagesOk, StagesOk, show (tStage π s).1 = π.symm s.1 from rfl,
        show (tStage π s).2 = s.2 from rfl, tShape_getD_symm hπ hs, tShape_set hπ hs, tShape_length,
        stagesOk_transpose (st := st) (by simpa using hπ) fun t ht => by simpa using hb t (by simp [ht])]
      simp only [hs, (perm_symm_lt hπ s.1).mpr hs]

theorem decShape_length' (st : List (Stage R)) : ∀ (sh : List ℕ), (decShape st sh).length = sh.length := by
  induction st with
  | nil => intro sh; rfl
  | cons s st ih =>
    intro sh
    unfold decShape
    rw [List.foldl_cons]
    have := ih (sh.set s.1 (coeffLen s.2.2 (sh.getD s.1 0) s.2.1.dec_len))
    unfold decShape at this
    rw [this, List.length_set]

theorem decShape_iter_transpose {π : Equiv.Perm ℕ} {st : List (Stage R)} {sh : List ℕ} (hπ : ∀ j, π j < sh.length ↔ j < sh.length)
    (hb : ∀ s ∈ st, s.1 < sh.length) (j : ℕ) :
    (decShape (st.map (tStage π)))^[j] (tShape π sh) = tShape π ((decShape st)^[j] sh) ∧
      ((decShape st)^[j] sh).length = sh.length := by
  induction j with
  | zero => exact ⟨rfl, rfl⟩
  | succ j ih =>
    rw [Function.iterate_succ_apply', Function.iterate_succ_apply', ih.1]
    exact ⟨decShape_transpose (by rw [ih.2]; exact hπ) (by rw [ih.2]; exact hb), by rw [decShape_length', ih.2]⟩

theorem levelsOk_transpose {π : Equiv.Perm ℕ} {st : List (Stage R)} {sh : List ℕ} (hπ : ∀ j, π j < sh.length ↔ j < sh.length)
    (hb : ∀ s ∈ st, s.1 < sh.length) (n : ℕ) : LevelsOkN (st.map (tStage π)) (tShape π sh) n ↔ LevelsOkN st sh n := by
  unfold LevelsOkN
  refine forall_congr' fun j => imp_congr_right fun _ => ?_
  obtain ⟨h1, h2⟩ := decShape_iter_transpose hπ hb j
  rw [h1, stagesOk_transpose (by rw [h2]; exact hπ) (by rw [h2]; exact hb)]

theorem approxN_transpose {π : Equiv.Perm ℕ} {st : List (Stage R)} {x : Arr M}
    (hπ : ∀ j, π j < x.shape.length ↔ j < x.shape.length) (hb : ∀ s ∈ st, s.1 < x.shape.length) : ∀ j,
    (Spec.Arr.transpose π x).approxN (st.map (tStage π)) j = Spec.Arr.transpose π (x.approxN st j)
  | 0 => rfl
  | j + 1 => by
      have hl : (x.approxN st j).shape.length = x.shape.length := by
        rw [Arr.shape_approxN]
        exact (decShape_iter_transpose hπ hb j).2
      rw [approxN_succ_roll, approxN_succ_roll, approxN_transpose hπ hb j, List.length_map,
        subband_transpose (by rw [hl]; exact hπ) (by rw [hl]; exact hb)]

theorem band_transpose {π : Equiv.Perm ℕ} {st : List (Stage R)} {x : Arr M}
    (hπ : ∀ j, π j < x.shape.length ↔ j < x.shape.length) (hb : ∀ s ∈ st, s.1 < x.shape.length) (j : ℕ) (k : Key) :
    ((Spec.Arr.transpose π x).approxN (st.map (tStage π)) j).subband (st.map (tStage π)) k =
      Spec.Arr.transpose π ((x.approxN st j).subband st k) := by
  have hl : (x.approxN st j).shape.length = x.shape.length := by
    rw [Arr.shape_approxN]
    exact (decShape_iter_transpose hπ hb j).2
  rw [approxN_transpose hπ hb j, subband_transpose (by rw [hl]; exact hπ) (by rw [hl]; exact hb)]

theorem cascadeN_transpose {π : Equiv.Perm ℕ} {st : List (Stage R)} {x : Arr M}
    (hπ : ∀ j, π j < x.shape.length ↔ j < x.shape.length) (hb : ∀ s ∈ st, s.1 < x.shape.length) (l : ℕ) :
    (Spec.Arr.transpose π x).cascadeN (st.map (tStage π)) l = (x.cascadeN st l).map (mapItem (Spec.Arr.transpose π)) := by
  unfold Arr.cascadeN
  rw [approxN_transpose hπ hb, List.map_cons, List.map_reverse, List.map_map]
  congr 2
  refine List.map_congr_left fun j _ => ?_
  rw [Function.comp_apply, mapItem_ofDict]
  congr 1
  unfold Arr.detailsN
  rw [List.map_map, List.length_map]
  refine List.map_congr_left fun k hk => ?_
  simp only [Function.comp_apply, Prod.mk.injEq, true_and]
  exact band_transpose hπ hb j k

end Pywt

namespace Pywt

open Finset Spec

set_option autoImplicit false
set_option linter.unusedSectionVars false

variable {R M : Type} [CommRing R] [AddCommGroup M] [Module R M]

/-! ## Images -/

theorem decShape_swap {s t : Stage R} (hst : s.1 ≠ t.1) {sh : List ℕ} (hs : s.1 < sh.length) (ht : t.1 < sh.length) :
    decShape [s, t] sh = decShape [t, s] sh := by
  simp only [decShape, List.foldl_cons, List.foldl_nil]
  rw [getD_set hs, if_neg (Ne.symm hst), getD_set ht, if_neg hst]
  exact List.set_comm _ _ hst

theorem stagesOk_swap {s t : Stage R} (hst : s.1 ≠ t.1) {sh : List ℕ} (hs : s.1 < sh.length) (ht : t.1 < sh.length) :
    StagesOk [s, t] sh ↔ StagesOk [t, s] sh := by
  simp only [StagesOk, List.length_set]
  rw [getD_set hs, if_neg (Ne.symm hst), getD_set ht, if_neg hst]
  tauto

theorem levelsOk_swap {s t : Stage R} (hst : s.1 ≠ t.1) {sh : List ℕ} (hs : s.1 < sh.length) (ht : t.1 < sh.length) (n : ℕ) :
    LevelsOkN [s, t] sh n ↔ LevelsOkN [t, s] sh n := by
  have hl : ∀ j, ((decShape [s, t])^[j] sh).length = sh.length ∧ (decShape [s, t])^[j] sh = (decShape [t, s])^[j] sh := by
    intro j
    induction j with
    | zero => exact ⟨rfl, rfl⟩
    | succ j ih =>
      rw [Function.iterate_succ_apply', Function.iterate_succ_apply', decShape_length', ← ih.2]
      exact ⟨ih.1, decShape_swap hst (by rw [ih.1]; exact hs) (by rw [ih.1]; exact ht)⟩
  unfold LevelsOkN
  refine forall_congr' fun j => imp_congr_right fun _ => ?_
  rw [← (hl j).2, stagesOk_swap hst (by rw [(hl j).1]; exact hs) (by rw [(hl j).1]; exact ht)]

theorem swap_axes_lt {a b n : ℕ} (ha : a < n) (hb : b < n) (j : ℕ) : Equiv.swap a b j < n ↔ j < n := by
  by_cases h1 : j = a
  · subst h1; rw [Equiv.swap_apply_left]; tauto
  · by_cases h2 : j = b
    · subst h2; rw [Equiv.swap_apply_right]; tauto
    · rw [Equiv.swap_apply_of_ne_of_ne h1 h2]

theorem tStages_swap {s t : Stage R} (h : s.2 = t.2) : ([s, t] : List (Stage R)).map (tStage (Equiv.swap s.1 t.1)) = [t, s] := by
  obtain ⟨a, v⟩ := s
  obtain ⟨b, v'⟩ := t
  simp only at h
  subst h
  simp [tStage]

theorem subband_swap {s t : Stage R} (hst : s.1 ≠ t.1) (h2 : s.2 = t.2) {y : Arr M} (hs : s.1 < y.shape.length)
    (ht : t.1 < y.shape.length) (c d : Char) :
    (Spec.Arr.transpose (Equiv.swap s.1 t.1) y).subband [s, t] [c, d] =
      Spec.Arr.transpose (Equiv.swap s.1 t.1) (y.subband [s, t] [d, c]) := by
  have hπ := swap_axes_lt hs ht
  rw [← subband_transpose (st := [s, t]) hπ (by simp [hs, ht]), tStages_swap h2]
  simp only [Arr.subband]
  exact analyze_comm (Ne.symm hst) (by rw [shape_transpose, tShape_length]; exact ht)
    (by rw [shape_transpose, tShape_length]; exact hs) d c

theorem approxN_swap {s t : Stage R} (hst : s.1 ≠ t.1) (h2 : s.2 = t.2) {x : Arr M} (hs : s.1 < x.shape.length)
    (ht : t.1 < x.shape.length) : ∀ j, (x.approxN [s, t] j).shape.length = x.shape.length ∧
    (Spec.Arr.transpose (Equiv.swap s.1 t.1) x).approxN [s, t] j =
      Spec.Arr.transpose (Equiv.swap s.1 t.1) (x.approxN [s, t] j)
  | 0 => ⟨rfl, rfl⟩
  | j + 1 => by
      obtain ⟨h, ih⟩ := approxN_swap hst h2 hs ht j
      rw [approxN_succ_roll, approxN_succ_roll, ih, shape_subband (by simp), decShape_length']
      exact ⟨h, subband_swap hst h2 (by rw [h]; exact hs) (by rw [h]; exact ht) 'a' 'a'⟩

end Pywt

namespace Pywt

open Spec

set_option autoImplicit false

/-- One wavelet and one mode are given to both axes. -/
theorem stage_same {R : Type} [CommRing R] {n : ℕ} {w : Wavelet R} {mode : Mode} {axes : Option (List ℤ)} {s t : Stage R}
    (hr : Resolves n (.one w) (.one mode) axes [s, t]) : s.2 = t.2 := by
  obtain ⟨-, h1, h2⟩ := hr
  simp [PerAxis.expand, List.replicate] at h1 h2
  exact Prod.ext (h1.1.symm.trans h1.2) (h2.1.symm.trans h2.2)

end Pywt
