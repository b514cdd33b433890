import Verif.Proof.Rounding
import Verif.Proof.SimN2
import Verif.Spec.FloatN

/-!
# Rounding errors of the n-D transforms
-/

set_option linter.unusedSectionVars false
set_option autoImplicit false

namespace Pywt

open Finset Spec Sim

variable {fl : ℝ → ℝ} {u κ Ω : ℝ}

/-- The relation between machine numbers and exact numbers. -/
abbrev nearRel (fl : ℝ → ℝ) (u : ℝ) (n : ℕ) (B e : ℝ) : Fl fl → ℝ → Prop := fun a b => FlNear u n B e a.val b

theorem arrAccurate_iff {n : ℕ} {B e : ℝ} {x' : Arr (Fl fl)} {x : Arr ℝ} :
    ArrAccurate u n B e x' x ↔ ArrRel (nearRel fl u n B e) x' x :=
  ⟨fun h => ⟨h.1, h.2⟩, fun h => ⟨h.shape, h.data⟩⟩

theorem oarrAccurate_eq {n : ℕ} {B e : ℝ} :
    (Option.Rel (ArrAccurate u n B e) : Option (Arr (Fl fl)) → Option (Arr ℝ) → Prop) =
      Option.Rel (ArrRel (nearRel fl u n B e)) := by
  have : (ArrAccurate u n B e : Arr (Fl fl) → Arr ℝ → Prop) = ArrRel (nearRel fl u n B e) := by
    funext a b; exact propext arrAccurate_iff
  rw [this]

theorem dictAccurate_iff {n : ℕ} {B e : ℝ} {c' : CDict (Fl fl)} {c : CDict ℝ} :
    DictAccurate u n B e c' c ↔ CRel (nearRel fl u n B e) c' c := by
  unfold DictAccurate; rw [oarrAccurate_eq]

theorem itemAccurate_iff {n : ℕ} {B e : ℝ} {i' : Item (Fl fl)} {i : Item ℝ} :
    ItemAccurate u n B e i' i ↔ ItemRel (nearRel fl u n B e) i' i := by
  cases i' <;> cases i <;> simp only [ItemAccurate, ItemRel]
  · exact arrAccurate_iff
  · exact dictAccurate_iff
  · rw [oarrAccurate_eq]

theorem stageBound_nonneg {s : Wavelet ℝ × Mode} {X : ℝ} (hX : 0 ≤ X) : 0 ≤ stageBound κ s X := hX.trans (le_max_left _ _)

theorem recStageBound_nonneg {s : Wavelet ℝ × Mode} {X : ℝ} (hX : 0 ≤ X) : 0 ≤ recStageBound κ s X :=
  hX.trans (le_max_left _ _)

theorem le_stagesBound (l : List (Wavelet ℝ × Mode)) : ∀ X : ℝ, X ≤ stagesBound κ l X := by
  induction l with
  | nil => intro X; exact le_rfl
  | cons s l ih => intro X; exact (le_max_left _ _).trans (ih _)

theorem le_recStagesBound (l : List (Wavelet ℝ × Mode)) : ∀ X : ℝ, X ≤ recStagesBound κ l X := by
  induction l with
  | nil => intro X; exact le_rfl
  | cons s l ih => intro X; exact (le_max_left _ _).trans (ih _)

/-- `dwt_axis` with rounding. -/
theorem dwtStep_near (H : Rounds fl u κ Ω) {s : Wavelet ℝ × Mode} (hw : s.1.Ok) {d : ℕ} {X e : ℝ}
    (hX : 0 ≤ X) (he : 0 ≤ e) (hfit : DwtFits u κ Ω s.2 s.1 d X e) :
    DwtStep (nearRel fl u d X e) (s.1.toFl fl, s.2) s
      (nearRel fl u (d + dwtDepth s.2 s.1.dec_len) (stageBound κ s X) (stageBound 0 s e)) := by
  obtain ⟨w, mode⟩ := s
  intro ax x' x hx
  obtain ⟨h1, h2, h3, h4, h5⟩ := hw
  obtain ⟨f1, f2, f3⟩ := hfit
  simp only [Wavelet.dec_len] at *
  have f3' : (1 + u) ^ (d + dwtDepth mode w.dec_hi.length) *
      (dwtBound mode w.dec_hi κ X + dwtBound mode w.dec_hi 0 e) ≤ Ω := by
    rw [h3]; exact f3
  have f1' : (1 + u) ^ (d + extDepth mode w.dec_hi.length) *
      (extBound mode w.dec_hi.length κ X + extBound mode w.dec_hi.length 0 e) ≤ Ω := by
    rw [h3]; exact f1
  refine (dwtAxis_rel (w := w.toFl fl) (w' := w) (decCtx_taps H mode w.dec_lo d X e hX he f2)
    (decCtx_taps H mode w.dec_hi d X e hX he f3') hx hx
    (fun hm => decCtx_edge H mode w.dec_lo d X e hX he f2 (by omega) f1 hm)
    (fun hm => decCtx_edge H mode w.dec_hi d X e hX he f3' (by omega) f1' hm)).mono fun r r' hr => ?_
  refine ⟨hr.1.mono fun a b h => ?_, hr.2.mono fun a b h => ?_⟩
  · exact FlNear.mono H.u_nonneg (decCtx_S H mode _ d X e hX he f2 h) le_rfl ((le_max_left _ _).trans (le_max_right _ _))
      ((le_max_left _ _).trans (le_max_right _ _))
  · have := decCtx_S H mode _ d X e hX he f3' h
    rw [h3] at this
    exact FlNear.mono H.u_nonneg this le_rfl ((le_max_right _ _).trans (le_max_right _ _))
      ((le_max_right _ _).trans (le_max_right _ _))

/-- `idwt_axis` with rounding. -/
theorem idwtStep_near (H : Rounds fl u κ Ω) {s : Wavelet ℝ × Mode} {d : ℕ} {X e : ℝ}
    (hX : 0 ≤ X) (he : 0 ≤ e) (hfit : IdwtFits u κ Ω s.1 d X e) :
    IdwtStep (nearRel fl u d X e) (s.1.toFl fl, s.2) s
      (nearRel fl u (d + idwtDepth s.1) (recStageBound κ s X) (recStageBound 0 s e)) := by
  intro ax a' a d' dd ha hd
  refine (idwtAxis_rel (recCtx_ok H s.1 d X e hX he hfit) ha hd).mono fun r r' hr => ?_
  exact orel_arr_mono (fun a b h => FlNear.mono H.u_nonneg (recCtx_S H s.1 d X e hX he hfit h) le_rfl (le_max_right _ _)
    (le_max_right _ _)) hr

/-- The stages with machine numbers as coefficients. -/
def stagesFl (fl : ℝ → ℝ) (l : List (Wavelet ℝ × Mode)) : List (Wavelet (Fl fl) × Mode) :=
  l.map fun s => (s.1.toFl fl, s.2)

theorem steps_dwt (H : Rounds fl u κ Ω) : ∀ {l : List (Wavelet ℝ × Mode)} (_ : ∀ s ∈ l, s.1.Ok) {d : ℕ} {X e : ℝ}
    (_ : 0 ≤ X) (_ : 0 ≤ e) (_ : StagesFit u κ Ω l d X e),
    Steps DwtStep (nearRel fl u d X e) (stagesFl fl l) l
      (nearRel fl u (d + stagesDepth l) (stagesBound κ l X) (stagesBound 0 l e)) := by
  intro l
  induction l with
  | nil => intro _ d X e _ _ _; exact .nil
  | cons s l ih =>
    intro hw d X e hX he hf
    refine .cons (dwtStep_near H (hw s List.mem_cons_self) hX he hf.1) ?_
    have := ih (fun t ht => hw t (List.mem_cons_of_mem _ ht)) (stageBound_nonneg hX) (stageBound_nonneg he) hf.2
    rw [Nat.add_assoc] at this
    simp only [stagesDepth, List.map_cons, List.sum_cons, stagesBound] at this ⊢
    exact this

theorem steps_idwt (H : Rounds fl u κ Ω) : ∀ {l : List (Wavelet ℝ × Mode)} {d : ℕ} {X e : ℝ}
    (_ : 0 ≤ X) (_ : 0 ≤ e) (_ : RecStagesFit u κ Ω l d X e),
    Steps IdwtStep (nearRel fl u d X e) (stagesFl fl l) l
      (nearRel fl u (d + recStagesDepth l) (recStagesBound κ l X) (recStagesBound 0 l e)) := by
  intro l
  induction l with
  | nil => intro d X e _ _ _; exact .nil
  | cons s l ih =>
    intro d X e hX he hf
    refine .cons (idwtStep_near H hX he hf.1) ?_
    have := ih (recStageBound_nonneg hX) (recStageBound_nonneg he) hf.2
    rw [Nat.add_assoc] at this
    simp only [recStagesDepth, List.map_cons, List.sum_cons, recStagesBound] at this ⊢
    exact this

theorem expand_length {α : Type} {p : PerAxis α} {n : ℕ} {l : List α} (h : p.expand n = .ok l) : l.length = n := by
  cases p with
  | one a => cases h; simp
  | many q =>
    match q, h with
    | [], h =>
      unfold PerAxis.expand at h
      simp only at h
      split at h
      · cases h
      · next hh => cases h; simpa using hh
    | [a], h => cases h; simp
    | a :: b :: r, h =>
      unfold PerAxis.expand at h
      simp only at h
      split at h
      · cases h
      · next hh => cases h; simpa using hh

theorem expand_toFl {p : PerAxis (Wavelet ℝ)} {n : ℕ} {ws : List (Wavelet ℝ)} (h : p.expand n = .ok ws) :
    (p.toFl (fl := fl)).expand n = .ok (ws.map fun w => w.toFl fl) := by
  cases p with
  | one a => cases h; simp [PerAxis.toFl, PerAxis.expand]
  | many q =>
    match q, h with
    | [], h =>
      unfold PerAxis.expand at h
      simp only at h
      split at h
      · cases h
      · next hh => cases h; simp [PerAxis.toFl, PerAxis.expand] at hh ⊢; exact hh
    | [a], h => cases h; simp [PerAxis.toFl, PerAxis.expand]
    | a :: b :: r, h =>
      unfold PerAxis.expand at h
      simp only at h
      split at h
      · cases h
      · next hh => cases h; simp [PerAxis.toFl, PerAxis.expand] at hh ⊢; exact hh

theorem argRel_toFl {wv : PerAxis (Wavelet ℝ)} {mode : PerAxis Mode} {n : ℕ} {ws : List (Wavelet ℝ)} {ms : List Mode}
    (hw : wv.expand n = .ok ws) (hm : mode.expand n = .ok ms) :
    ArgRel (wv.toFl (fl := fl)) wv mode n (stagesFl fl (ws.zip ms)) (ws.zip ms) := by
  refine ⟨_, _, _, expand_toFl hw, hw, hm, by simpa using expand_length hw, expand_length hm, ?_, rfl⟩
  unfold stagesFl
  rw [List.zip_map_left]
  rfl

theorem toFl_dec_lens {wv : PerAxis (Wavelet ℝ)} (m : ℕ) (ws : List (Wavelet (Fl fl))) (ws' : List (Wavelet ℝ))
    (h : (wv.toFl (fl := fl)).expand m = .ok ws) (h' : wv.expand m = .ok ws') :
    ws.map (·.dec_len) = ws'.map (·.dec_len) := by
  rw [expand_toFl h'] at h
  injection h with h
  subst h
  simp [Wavelet.dec_len, Wavelet.toFl, Function.comp_def]

theorem mem_zip_ok {ws : List (Wavelet ℝ)} {ms : List Mode} (h : ∀ w ∈ ws, w.Ok) : ∀ s ∈ ws.zip ms, s.1.Ok :=
  fun s hs => h _ (List.of_mem_zip (a := s.1) (b := s.2) hs).1

theorem stagesFl_reverse (l : List (Wavelet ℝ × Mode)) : (stagesFl fl l).reverse = stagesFl fl l.reverse := by
  simp [stagesFl]

/-! ### Several levels -/

theorem stagesFit_append {l m : List (Wavelet ℝ × Mode)} : ∀ {d : ℕ} {X e : ℝ}, StagesFit u κ Ω (l ++ m) d X e ↔
    StagesFit u κ Ω l d X e ∧ StagesFit u κ Ω m (d + stagesDepth l) (stagesBound κ l X) (stagesBound 0 l e) := by
  induction l with
  | nil => intro d X e; simp [StagesFit, stagesDepth, stagesBound]
  | cons s l ih =>
    intro d X e
    simp only [List.cons_append, StagesFit, ih, stagesDepth, List.map_cons, List.sum_cons, stagesBound, and_assoc,
      Nat.add_assoc]

theorem recStagesFit_append {l m : List (Wavelet ℝ × Mode)} : ∀ {d : ℕ} {X e : ℝ},
    RecStagesFit u κ Ω (l ++ m) d X e ↔ RecStagesFit u κ Ω l d X e ∧
      RecStagesFit u κ Ω m (d + recStagesDepth l) (recStagesBound κ l X) (recStagesBound 0 l e) := by
  induction l with
  | nil => intro d X e; simp [RecStagesFit, recStagesDepth, recStagesBound]
  | cons s l ih =>
    intro d X e
    simp only [List.cons_append, RecStagesFit, ih, recStagesDepth, List.map_cons, List.sum_cons, recStagesBound, and_assoc,
      Nat.add_assoc]

theorem stagesBound_append (l m : List (Wavelet ℝ × Mode)) : ∀ X : ℝ,
    stagesBound κ (l ++ m) X = stagesBound κ m (stagesBound κ l X) := by
  induction l with
  | nil => intro X; rfl
  | cons s l ih => intro X; exact ih _

theorem recStagesBound_append (l m : List (Wavelet ℝ × Mode)) : ∀ X : ℝ,
    recStagesBound κ (l ++ m) X = recStagesBound κ m (recStagesBound κ l X) := by
  induction l with
  | nil => intro X; rfl
  | cons s l ih => intro X; exact ih _

theorem stagesDepth_append (l m : List (Wavelet ℝ × Mode)) : stagesDepth (l ++ m) = stagesDepth l + stagesDepth m := by
  simp [stagesDepth]

theorem recStagesDepth_append (l m : List (Wavelet ℝ × Mode)) :
    recStagesDepth (l ++ m) = recStagesDepth l + recStagesDepth m := by
  simp [recStagesDepth]

theorem levels_succ (k : ℕ) (l : List (Wavelet ℝ × Mode)) : levels (k + 1) l = levels k l ++ l := by
  simp [levels, List.replicate_succ']

theorem levels_add (j k : ℕ) (l : List (Wavelet ℝ × Mode)) : levels (j + k) l = levels j l ++ levels k l := by
  rw [levels, levels, levels, List.replicate_add, List.flatten_append]

/-- The relation after `k` levels. -/
noncomputable def levelRel (fl : ℝ → ℝ) (u κ : ℝ) (l : List (Wavelet ℝ × Mode)) (d : ℕ) (X e : ℝ) (k : ℕ) :
    Fl fl → ℝ → Prop :=
  nearRel fl u (d + stagesDepth (levels k l)) (stagesBound κ (levels k l) X) (stagesBound 0 (levels k l) e)

noncomputable def recLevelRel (fl : ℝ → ℝ) (u κ : ℝ) (l : List (Wavelet ℝ × Mode)) (d : ℕ) (X e : ℝ) (k : ℕ) :
    Fl fl → ℝ → Prop :=
  nearRel fl u (d + recStagesDepth (levels k l)) (recStagesBound κ (levels k l) X) (recStagesBound 0 (levels k l) e)

theorem levelRel_step (H : Rounds fl u κ Ω) {l : List (Wavelet ℝ × Mode)} (hw : ∀ s ∈ l, s.1.Ok) {d : ℕ} {X e : ℝ}
    (hX : 0 ≤ X) (he : 0 ≤ e) {n : ℕ} (hf : StagesFit u κ Ω (levels n l) d X e) (k : ℕ) (hk : k < n) :
    Steps DwtStep (levelRel fl u κ l d X e k) (stagesFl fl l) l (levelRel fl u κ l d X e (k + 1)) := by
  obtain ⟨j, rfl⟩ : ∃ j, n = k + 1 + j := ⟨n - (k + 1), by omega⟩
  rw [levels_add, stagesFit_append, levels_succ, stagesFit_append] at hf
  have := steps_dwt H hw (hX.trans (le_stagesBound _ _)) (he.trans (le_stagesBound _ _)) hf.1.2
  unfold levelRel
  rw [levels_succ, stagesDepth_append, stagesBound_append, stagesBound_append, ← Nat.add_assoc]
  exact this

theorem recLevelRel_step (H : Rounds fl u κ Ω) {l : List (Wavelet ℝ × Mode)} {d : ℕ} {X e : ℝ}
    (hX : 0 ≤ X) (he : 0 ≤ e) {n : ℕ} (hf : RecStagesFit u κ Ω (levels n l) d X e) (k : ℕ) (hk : k < n) :
    Steps IdwtStep (recLevelRel fl u κ l d X e k) (stagesFl fl l) l (recLevelRel fl u κ l d X e (k + 1)) := by
  obtain ⟨j, rfl⟩ : ∃ j, n = k + 1 + j := ⟨n - (k + 1), by omega⟩
  rw [levels_add, recStagesFit_append, levels_succ, recStagesFit_append] at hf
  have := steps_idwt H (hX.trans (le_recStagesBound _ _)) (he.trans (le_recStagesBound _ _)) hf.1.2
  unfold recLevelRel
  rw [levels_succ, recStagesDepth_append, recStagesBound_append, recStagesBound_append, ← Nat.add_assoc]
  exact this

theorem levelRel_mono (hu : 0 ≤ u) {l : List (Wavelet ℝ × Mode)} {d : ℕ} {X e : ℝ} {k n : ℕ} (hk : k ≤ n) (a : Fl fl) (b : ℝ)
    (h : levelRel fl u κ l d X e k a b) : levelRel fl u κ l d X e n a b := by
  obtain ⟨j, rfl⟩ : ∃ j, n = k + j := ⟨n - k, by omega⟩
  unfold levelRel at h ⊢
  rw [levels_add, stagesDepth_append, stagesBound_append, stagesBound_append]
  exact FlNear.mono hu h (by omega) (le_stagesBound _ _) (le_stagesBound _ _)

theorem recLevelRel_mono (hu : 0 ≤ u) {l : List (Wavelet ℝ × Mode)} {d : ℕ} {X e : ℝ} {k n : ℕ} (hk : k ≤ n) (a : Fl fl)
    (b : ℝ) (h : recLevelRel fl u κ l d X e k a b) : recLevelRel fl u κ l d X e n a b := by
  obtain ⟨j, rfl⟩ : ∃ j, n = k + j := ⟨n - k, by omega⟩
  unfold recLevelRel at h ⊢
  rw [levels_add, recStagesDepth_append, recStagesBound_append, recStagesBound_append]
  exact FlNear.mono hu h (by omega) (le_recStagesBound _ _) (le_recStagesBound _ _)

theorem recLevelRel_zero (hu : 0 ≤ u) {l : List (Wavelet ℝ × Mode)} {d : ℕ} {X e : ℝ} (hX : 0 ≤ X) (he : 0 ≤ e) (k : ℕ) :
    recLevelRel fl u κ l d X e k 0 0 :=
  FlNear.refl hu _ (by simpa using hX.trans (le_recStagesBound _ _)) (he.trans (le_recStagesBound _ _))

end Pywt
