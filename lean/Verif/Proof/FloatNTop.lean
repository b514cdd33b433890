import Verif.Proof.FloatN
import Verif.Proof.WithinLevels
import Verif.Proof.MultilevelN
import Verif.Proof.FloatTop

/-!
# Rounding errors of the n-D transforms: whole functions and the round trip
-/

set_option linter.unusedSectionVars false
set_option autoImplicit false

namespace Pywt

open Finset Spec Sim

variable {fl : ℝ → ℝ} {u κ Ω : ℝ}

theorem stageBound_zero (s : Wavelet ℝ × Mode) : stageBound 0 s 0 = 0 := by
  simp [stageBound, dwtBound_zero]

theorem stagesBound_zero (l : List (Wavelet ℝ × Mode)) : stagesBound 0 l 0 = 0 := by
  induction l with
  | nil => rfl
  | cons s l ih => rw [stagesBound, stageBound_zero, ih]

theorem recStageBound_zero (s : Wavelet ℝ × Mode) : recStageBound 0 s 0 = 0 := by
  simp [recStageBound, idwtBound_zero]

theorem recStagesBound_zero (l : List (Wavelet ℝ × Mode)) : recStagesBound 0 l 0 = 0 := by
  induction l with
  | nil => rfl
  | cons s l ih => rw [recStagesBound, recStageBound_zero, ih]

theorem toFl_arr (hu : 0 ≤ u) {x : Arr ℝ} {X : ℝ} (hX : ∀ v ∈ x.data, |v| ≤ X) (d : ℕ := 0) :
    ArrRel (nearRel fl u d X 0) (x.toFl fl) x := by
  refine ⟨rfl, ?_⟩
  show List.Forall₂ _ (toFl fl x.data) x.data
  unfold toFl
  rw [List.forall₂_map_left_iff, List.forall₂_same]
  exact fun v hv => FlNear.refl hu d (hX v hv) le_rfl

theorem stagesNear_ok {ε : ℝ} {st : List (Stage ℝ)} {shape : List ℕ} (h : StagesNear ε st shape) :
    StagesOk st shape := by
  obtain ⟨hn, h⟩ := h
  induction st generalizing shape with
  | nil => trivial
  | cons t st ih =>
    simp only [List.map_cons, List.nodup_cons] at hn
    obtain ⟨a1, a2, a3, a4⟩ := h t (by simp)
    refine ⟨a1, a2, a4, ih hn.2 ?_⟩
    intro s hs
    obtain ⟨b1, b2, b3, b4⟩ := h s (by simp [hs])
    refine ⟨by simpa using b1, b2, b3, ?_⟩
    rw [getD_set a1, if_neg]
    · exact b4
    · intro h
      exact hn.1 (h ▸ List.mem_map_of_mem hs)

theorem stagesOk_append {R : Type} {st st2 : List (Stage R)} : ∀ {shape : List ℕ}, StagesOk (st ++ st2) shape → StagesOk st shape := by
  induction st with
  | nil => intro _ _; trivial
  | cons s st ih => intro shape h; exact ⟨h.1, h.2.1, h.2.2.1, ih h.2.2.2⟩

theorem stagesZ_zip {R : Type} (st : List (Stage R)) :
    stagesZ st = (st.map fun s : Stage R => (s.1 : ℤ)).zip (st.map (·.2)) := by
  unfold stagesZ
  induction st with
  | nil => rfl
  | cons s st ih => simp only [List.map_cons, List.zip_cons_cons, ih]

theorem zip_stages {R : Type} (st : List (Stage R)) : (st.map (·.2.1)).zip (st.map (·.2.2)) = st.map (·.2) := by
  induction st with
  | nil => rfl
  | cons s st ih => simp only [List.map_cons, List.zip_cons_cons, ih]

/-- How large the coefficients are. -/
theorem subband_le (H : Rounds fl u κ Ω) {st : List (Stage ℝ)} {x : Arr ℝ} (hst : StagesOk st x.shape) {X : ℝ} {d : ℕ}
    (hX0 : 0 ≤ X) (hX : ∀ v ∈ x.data, |v| ≤ X) (hw : ∀ s ∈ st, s.2.1.Ok)
    (hf : StagesFit u κ Ω (st.map (·.2)) d X 0) (k : Key) (hk : k ∈ words st.length) :
    ∀ v ∈ (x.subband st k).data, |v| ≤ stagesBound κ (st.map (·.2)) X := by
  have h1 := dwtnLoop_ok (st := st) (shape := x.shape) (cs := [([], x)]) (by simp) hst
  have hs := steps_dwt H (l := st.map (·.2)) (by
    intro s hs
    obtain ⟨t, ht, rfl⟩ := List.mem_map.mp hs
    exact hw t ht) hX0 le_rfl hf
  rw [stagesZ_zip] at h1
  obtain ⟨r, -, hr⟩ := dwtnLoop_rel hs (axes := st.map fun s : Stage ℝ => (s.1 : ℤ)) (by simp [stagesFl])
    (c := [([], x.toFl fl)]) (.cons ⟨rfl, toFl_arr H.u_nonneg hX d⟩ .nil) _ h1
  have : ∀ p' ∈ (words st.length).map fun k => (k, x.subband st k), ∀ v ∈ p'.2.data, |v| ≤ stagesBound κ (st.map (·.2)) X := by
    simp only [List.flatMap_cons, List.flatMap_nil, List.append_nil, List.nil_append] at hr
    generalize (words st.length).map (fun k => (k, x.subband st k)) = D at hr
    intro p hp
    induction hr with
    | nil => simp at hp
    | @cons p1 p2 D1 D2 h _ ih =>
      rcases List.mem_cons.mp hp with rfl | hp
      · intro v hv
        have hd := h.2.data
        generalize p1.2.data = A at hd
        generalize p.2.data = A' at hd hv
        induction hd with
        | nil => simp at hv
        | cons h _ ih =>
          rcases List.mem_cons.mp hv with rfl | hv
          · exact h.1
          · exact ih hv
      · exact ih hp
  exact this (k, x.subband st k) (List.mem_map_of_mem hk)

theorem arrRel_get {n : ℕ} {B : ℝ} (hu : 0 ≤ u) (hB : 0 ≤ B) {a : Arr (Fl fl)} {b : Arr ℝ}
    (h : ArrRel (nearRel fl u n B 0) a b) (idx : ℕ → ℕ) : FlNear u n B 0 (a.get idx).val (b.get idx) := by
  unfold Arr.get
  rw [h.shape]
  generalize ravelIx b.shape idx b.shape.length = i
  have h2 := h.data
  rw [List.forall₂_iff_get] at h2
  by_cases hi : i < b.data.length
  · rw [List.getD_eq_getElem _ _ hi, List.getD_eq_getElem _ _ (by rw [h2.1]; exact hi)]
    exact h2.2 i (by rw [h2.1]; exact hi) hi
  · rw [List.getD_eq_default _ _ (by omega), List.getD_eq_default _ _ (by omega)]
    exact FlNear.refl hu n (s := 0) (by simpa using hB) le_rfl

/-- The round trip in floating point. -/
theorem idwtn_dwtn_near (H : Rounds fl u κ Ω) {ε : ℝ} (hε : 0 ≤ ε) {x : Arr ℝ} {wavelet : PerAxis (Wavelet ℝ)}
    {mode : PerAxis Mode} {axes : Option (List ℤ)} {st : List (Stage ℝ)} (hd : 1 ≤ x.ndim)
    (hr : Resolves x.ndim wavelet mode axes st) (hinv : StagesNear ε st x.shape) {X : ℝ} (hX0 : 0 ≤ X)
    (hX : ∀ v ∈ x.data, |v| ≤ X) (hf : StagesFit u κ Ω (st.map (·.2)) 0 X 0)
    (hf' : RecStagesFit u κ Ω (st.map (·.2)).reverse (stagesDepth (st.map (·.2))) (stagesBound κ (st.map (·.2)) X) 0) :
    ∃ c y, dwtn (x.toFl fl) (wavelet.toFl fl) mode axes = .ok c ∧
      idwtn (c.map fun p => (p.1, some p.2)) (wavelet.toFl fl) mode axes = .ok (some y) ∧
      y.shape.length = x.shape.length ∧
      (∀ s ∈ st, y.shape.getD s.1 0 = x.shape.getD s.1 0 + x.shape.getD s.1 0 % 2) ∧
      (∀ j, j ∉ st.map (·.1) → y.shape.getD j 0 = x.shape.getD j 0) ∧
      ∀ idx, InB x.shape idx → |(y.get idx).val - x.get idx| ≤
        stagesErr ε (stagesBound κ (st.map (·.2)) X) (st.map (·.2)).reverse 0 +
        ((1 + u) ^ (stagesDepth (st.map (·.2)) + recStagesDepth (st.map (·.2)).reverse) - 1) *
          recStagesBound κ (st.map (·.2)).reverse (stagesBound κ (st.map (·.2)) X) := by
  have hu := H.u_nonneg
  have hok := stagesNear_ok hinv
  have hwOk : ∀ s ∈ st, s.2.1.Ok := fun s hs => (hinv.2 s hs).2.1
  have hwOk' : ∀ s ∈ st.map (·.2), s.1.Ok := by
    intro s hs
    obtain ⟨t, ht, rfl⟩ := List.mem_map.mp hs
    exact hwOk t ht
  have hB0 : 0 ≤ stagesBound κ (st.map (·.2)) X := hX0.trans (le_stagesBound _ _)
  obtain ⟨y, i1, i2, i3, i4, i5⟩ := idwtn_dwtn_within hε hB0 hr hinv (by
    rintro st' ⟨st2, rfl⟩ k hk v hv
    rw [List.map_append, stagesFit_append] at hf
    have := subband_le H (stagesOk_append hok) hX0 hX (fun s hs => hwOk s (by simp [hs])) hf.1 k hk v hv
    rw [List.map_append, stagesBound_append]
    exact this.trans (le_stagesBound _ _))
  have hargs := argRel_toFl (fl := fl) hr.2.1 hr.2.2
  rw [zip_stages] at hargs
  obtain ⟨c, g1, g2⟩ := dwtn_rel (toFl_arr hu hX) (axes := axes) hr.length hargs (steps_dwt H hwOk' hX0 le_rfl hf) _
    (dwtn_ok hd hr hok)
  rw [Nat.zero_add, stagesBound_zero] at g2
  have hax : idwtnAxes ((words st.length).map fun k => (k, some (x.subband st k))) axes = st.length := by
    unfold idwtnAxes
    rw [dropNone_map]
    have hne : words st.length ≠ [] := by
      have : 0 < (words st.length).length := by
        have := List.length_pos_of_mem (mem_words (n := st.length) (k := List.replicate st.length 'a') |>.mpr
          ⟨by simp, by intro c hc; rw [List.eq_of_mem_replicate hc]; simp⟩)
        exact this
      exact List.length_pos_iff.mp this
    obtain ⟨k0, ks, hk⟩ := List.exists_cons_of_ne_nil hne
    rw [hk]
    simp only [List.map_cons]
    have hk0 : k0.length = st.length := (mem_words.mp (by rw [hk]; simp)).1
    cases axes with
    | some a => exact hr.length
    | none => simp [rangeAxes, hk0]
  have hcc : CRel (nearRel fl u (stagesDepth (st.map (·.2))) (stagesBound κ (st.map (·.2)) X) 0)
      (c.map fun p => (p.1, some p.2)) ((words st.length).map fun k => (k, some (x.subband st k))) := by
    have := DRel.some g2
    rw [List.map_map] at this
    exact this
  obtain ⟨y', j1, j2⟩ := idwtn_rel hcc (by rw [hax]; exact hargs) (by
    rw [stagesFl_reverse]; exact steps_idwt H hB0 le_rfl hf') _ i1
  cases j2 with
  | @some y' _ j2 =>
    rw [recStagesBound_zero] at j2
    refine ⟨c, y', g1, j1, by rw [j2.shape]; exact i2, by rw [j2.shape]; exact i3, by rw [j2.shape]; exact i4, ?_⟩
    intro idx hidx
    have e1 := (arrRel_get hu (hB0.trans (le_recStagesBound _ _)) j2 idx).2.2
    have e2 := i5.2.2 idx hidx
    have := abs_sub_le ((y'.get idx).val) (y.get idx) (x.get idx)
    rw [add_zero] at e1
    linarith

theorem repeats_iff {mode : Mode} (h : Repeats mode) : ¬ (mode = .smooth ∨ mode = .antireflect) := by
  rintro (h' | h')
  · exact h.1 h'
  · exact h.2 h'

/-- One inequality for all stages. -/
theorem stagesFit_of (hu : 0 ≤ u) : ∀ {l : List (Wavelet ℝ × Mode)} (_ : ∀ s ∈ l, Repeats s.2) {d : ℕ} {X : ℝ}
    (_ : 0 ≤ X) (_ : (1 + u) ^ (d + stagesDepth l) * stagesBound κ l X ≤ Ω), StagesFit u κ Ω l d X 0 := by
  intro l
  induction l with
  | nil => intros; trivial
  | cons s l ih =>
    intro hm d X hX h
    have hns := repeats_iff (hm s List.mem_cons_self)
    simp only [stagesDepth, List.map_cons, List.sum_cons] at h ih
    have hB : stageBound κ s X ≤ stagesBound κ (s :: l) X := le_stagesBound l _
    have hB0 : 0 ≤ stageBound κ s X := hX.trans (le_max_left _ _)
    have key : ∀ n ≤ d + dwtDepth s.2 s.1.dec_len, ∀ b ≤ stageBound κ s X, (1 + u) ^ n * b ≤ Ω := by
      intro n hn b hb
      refine (mul_le_mul_of_nonneg_left (hb.trans hB) (pow_nonneg (by linarith) n)).trans (le_trans ?_ h)
      refine mul_le_mul_of_nonneg_right (pow_le_pow_right₀ (by linarith) (by omega)) (hB0.trans hB)
    refine ⟨⟨?_, ?_, ?_⟩, ?_⟩
    · have e : ∀ F κ X, extBound s.2 F κ X = X := by intro F κ X; unfold extBound; rw [if_neg hns]
      rw [e, e, add_zero]
      exact key _ (by unfold dwtDepth; omega) _ (le_max_left _ _)
    · rw [dwtBound_zero, add_zero]
      exact key _ le_rfl _ ((le_max_left _ _).trans (le_max_right _ _))
    · rw [dwtBound_zero, add_zero]
      exact key _ le_rfl _ ((le_max_right _ _).trans (le_max_right _ _))
    · rw [stageBound_zero]
      exact ih (fun t ht => hm t (List.mem_cons_of_mem _ ht)) hB0 (by rw [Nat.add_assoc]; exact h)

theorem recStagesFit_of (hu : 0 ≤ u) : ∀ {l : List (Wavelet ℝ × Mode)} {d : ℕ} {X : ℝ}
    (_ : 0 ≤ X) (_ : (1 + u) ^ (d + recStagesDepth l) * recStagesBound κ l X ≤ Ω), RecStagesFit u κ Ω l d X 0 := by
  intro l
  induction l with
  | nil => intros; trivial
  | cons s l ih =>
    intro d X hX h
    simp only [recStagesDepth, List.map_cons, List.sum_cons] at h ih
    have hB : recStageBound κ s X ≤ recStagesBound κ (s :: l) X := le_recStagesBound l _
    have hB0 : 0 ≤ recStageBound κ s X := hX.trans (le_max_left _ _)
    refine ⟨?_, ?_⟩
    · unfold IdwtFits
      rw [idwtBound_zero, add_zero]
      refine (mul_le_mul_of_nonneg_left ((le_max_right _ _).trans hB) (pow_nonneg (by linarith) _)).trans (le_trans ?_ h)
      refine mul_le_mul_of_nonneg_right (pow_le_pow_right₀ (by linarith) (by omega)) (hB0.trans hB)
    · rw [recStageBound_zero]
      exact ih hB0 (by rw [Nat.add_assoc]; exact h)

/-- What is known of the stored coefficients. -/
theorem builtinBank_facts {single : Bool} {ε : ℝ} {w : Wavelet ℝ} (h : BuiltinBank single ε w) :
    w.Ok ∧ PRWithin ε w.dec_lo w.dec_hi w.rec_lo w.rec_hi ∧ w.dec_len ≤ 102 ∧ l1 w.dec_lo ≤ 4 ∧ l1 w.dec_hi ≤ 4 ∧
      l1 w.rec_lo ≤ 4 ∧ l1 w.rec_hi ≤ 4 := by
  obtain ⟨name, fam, order, o, h1, h2, h3, rfl, h5⟩ := h
  obtain ⟨o', g1, g2, g3, -, -, -, g4⟩ := builtin_ok (single := single) h1 h2
  rw [h3] at g1
  cases g1
  obtain ⟨n0, n1, n2, n3, n4⟩ := builtin_norm h1 h2 g2
  have hl : (realBank o.w).dec_len = o.w.dec_len := by simp [realBank, Wavelet.dec_len]
  exact ⟨realBank_ok g3, fun p hp => (g4 p hp).trans h5, by omega, n1, n2, n3, n4⟩

theorem builtin_stages (hκ : 0 ≤ κ) {single : Bool} {ε : ℝ} : ∀ {l : List (Wavelet ℝ × Mode)}
    (_ : ∀ s ∈ l, BuiltinBank single ε s.1 ∧ Repeats s.2),
    (∀ X, 0 ≤ X → stagesBound κ l X ≤ 4 ^ l.length * (X + 68 * κ) - 68 * κ) ∧
    (∀ X, 0 ≤ X → recStagesBound κ l X ≤ 8 ^ l.length * (X + 59 * κ) - 59 * κ) ∧
    (∀ B t, 0 ≤ ε * B → 0 ≤ t → stagesErr ε B l t ≤ 8 ^ l.length * (t + ε * B) - ε * B) ∧
    stagesDepth l ≤ 103 * l.length ∧ recStagesDepth l ≤ 207 * l.length := by
  intro l
  induction l with
  | nil =>
    intro _
    simp [stagesBound, recStagesBound, stagesErr, stagesDepth, recStagesDepth]
  | cons s l ih =>
    intro hl
    obtain ⟨i1, i2, i3, i4, i5⟩ := ih fun t ht => hl t (List.mem_cons_of_mem _ ht)
    obtain ⟨hb, hm⟩ := hl s List.mem_cons_self
    have hns := repeats_iff hm
    obtain ⟨⟨w1, w2, l1', l2', l3'⟩, -, hF, n1, n2, n3, n4⟩ := builtinBank_facts hb
    have hFr : (s.1.dec_len : ℝ) ≤ 102 := by exact_mod_cast hF
    have hFκ := mul_le_mul_of_nonneg_right hFr hκ
    have hdb : ∀ (f : List ℝ), f.length = s.1.dec_len → l1 f ≤ 4 → ∀ Y, 0 ≤ Y →
        dwtBound s.2 f κ Y ≤ 4 * Y + 204 * κ := by
      intro f hf h Y hY
      unfold dwtBound extBound
      rw [if_neg hns, hf]
      have := mul_le_mul_of_nonneg_right h hY
      linarith
    have hrl : (s.1.rec_lo.length : ℝ) = s.1.dec_len := congrArg Nat.cast l2'
    have hrh : (s.1.rec_hi.length : ℝ) = s.1.dec_len := congrArg Nat.cast l3'
    have hpw4 : (1 : ℝ) ≤ 4 ^ l.length := one_le_pow₀ (by norm_num)
    have hpw8 : (1 : ℝ) ≤ 8 ^ l.length := one_le_pow₀ (by norm_num)
    refine ⟨fun X hX => ?_, fun X hX => ?_, fun B t hB ht => ?_, ?_, ?_⟩
    · have e : stageBound κ s X ≤ 4 * X + 204 * κ :=
        max_le (by linarith) (max_le (hdb _ rfl n1 X hX) (hdb _ l1' n2 X hX))
      refine (i1 (stageBound κ s X) (hX.trans (le_max_left _ _))).trans ?_
      rw [List.length_cons, pow_succ]
      have := mul_le_mul_of_nonneg_left e (show (0 : ℝ) ≤ 4 ^ l.length by linarith)
      nlinarith
    · have e : recStageBound κ s X ≤ 8 * X + 410 * κ := by
        refine max_le (by linarith) ?_
        unfold idwtBound
        rw [hrl, hrh]
        have h5 : (l1 s.1.rec_lo + l1 s.1.rec_hi) * X ≤ 8 * X := mul_le_mul_of_nonneg_right (by linarith) hX
        linarith
      refine (i2 (recStageBound κ s X) (hX.trans (le_max_left _ _))).trans ?_
      rw [List.length_cons, pow_succ]
      have := mul_le_mul_of_nonneg_left e (show (0 : ℝ) ≤ 8 ^ l.length by linarith)
      nlinarith
    · have e : idwtBound s.1 0 t + ε * extMax s.2 s.1.dec_len B ≤ 8 * t + ε * B := by
        unfold idwtBound extMax
        rw [if_neg hns]
        have h5 : (l1 s.1.rec_lo + l1 s.1.rec_hi) * t ≤ 8 * t := mul_le_mul_of_nonneg_right (by linarith) ht
        linarith
      have e0 : 0 ≤ idwtBound s.1 0 t + ε * extMax s.2 s.1.dec_len B := by
        unfold idwtBound extMax
        rw [if_neg hns]
        have := mul_nonneg (add_nonneg (l1_nonneg s.1.rec_lo) (l1_nonneg s.1.rec_hi)) ht
        linarith
      refine (i3 B _ hB e0).trans ?_
      rw [List.length_cons, pow_succ]
      have := mul_le_mul_of_nonneg_left e (show (0 : ℝ) ≤ 8 ^ l.length by linarith)
      have h6 : 0 ≤ 8 ^ l.length * (ε * B) := mul_nonneg (by positivity) hB
      nlinarith
    · simp only [stagesDepth, List.map_cons, List.sum_cons, List.length_cons] at i4 ⊢
      unfold dwtDepth extDepth at i4 ⊢
      have e : s.1.dec_len = s.1.dec_lo.length := rfl
      rw [if_neg hns]
      omega
    · simp only [recStagesDepth, List.map_cons, List.sum_cons, List.length_cons] at i5 ⊢
      unfold idwtDepth at i5 ⊢
      have e : s.1.dec_len = s.1.dec_lo.length := rfl
      rw [l2', l3']
      omega

/-- The error bounds for built-in wavelets. -/
theorem builtin_budget (H : Rounds fl u κ Ω) {single : Bool} {ε : ℝ} (hε : 0 ≤ ε) {l l' : List (Wavelet ℝ × Mode)}
    (hb : ∀ s ∈ l, BuiltinBank single ε s.1 ∧ Repeats s.2) (hb' : ∀ s ∈ l', BuiltinBank single ε s.1 ∧ Repeats s.2)
    {n : ℕ} (hlen : l.length = n) (hlen' : l'.length = n)
    {X : ℝ} (hX0 : 0 ≤ X) (hnu : 620 * n * u ≤ 1) (hΩ : 2 * (32 ^ n * (X + 128 * κ)) ≤ Ω) :
    StagesFit u κ Ω l 0 X 0 ∧ RecStagesFit u κ Ω l' (stagesDepth l) (stagesBound κ l X) 0 ∧
      stagesErr ε (stagesBound κ l X) l' 0 +
        ((1 + u) ^ (stagesDepth l + recStagesDepth l') - 1) * recStagesBound κ l' (stagesBound κ l X) ≤
        32 ^ n * (X + 128 * κ) * (ε + 620 * n * u) := by
  have hu := H.u_nonneg
  have hκ := H.κ_nonneg
  obtain ⟨b1, -, -, b4, -⟩ := builtin_stages hκ hb
  obtain ⟨-, b2, b3, -, b5⟩ := builtin_stages hκ hb'
  rw [hlen'] at b2 b3 b5
  rw [hlen] at b1 b4
  have b4' : stagesDepth l + recStagesDepth l' ≤ 310 * n := by omega
  have p4 : (1 : ℝ) ≤ 4 ^ n := one_le_pow₀ (by norm_num)
  have p8 : (1 : ℝ) ≤ 8 ^ n := one_le_pow₀ (by norm_num)
  have p32 : (32 : ℝ) ^ n = 8 ^ n * 4 ^ n := by rw [← mul_pow]; norm_num
  set B := stagesBound κ l X with hB
  have hB0 : 0 ≤ B := hX0.trans (le_stagesBound _ _)
  have hB1 : B ≤ 4 ^ n * (X + 68 * κ) - 68 * κ := b1 X hX0
  have hB2 : B + 59 * κ ≤ 4 ^ n * (X + 128 * κ) := by
    have := mul_le_mul_of_nonneg_right p4 (show 0 ≤ 60 * κ by linarith)
    linarith
  have hY0 : 0 ≤ 32 ^ n * (X + 128 * κ) := by positivity
  have hR : recStagesBound κ l' B ≤ 32 ^ n * (X + 128 * κ) := by
    have := b2 B hB0
    have h2 := mul_le_mul_of_nonneg_left hB2 (show (0 : ℝ) ≤ 8 ^ n by linarith)
    rw [p32]
    linarith
  have hpw : (1 + u) ^ (stagesDepth l + recStagesDepth l') - 1 ≤ 620 * n * u := by
    have h1 : (1 + u) ^ (stagesDepth l + recStagesDepth l') ≤ (1 + u) ^ (310 * n) :=
      pow_le_pow_right₀ (by linarith) b4'
    have h2 : (1 + u) ^ (310 * n) - 1 ≤ 2 * ((310 * n : ℕ) * u) := by
      refine (gamma_le hu (by push_cast; linarith)).trans ?_
      rw [div_le_iff₀ (by push_cast; linarith)]
      have : 0 ≤ ((310 * n : ℕ) : ℝ) * u := by positivity
      have h3 : ((310 * n : ℕ) : ℝ) * u ≤ 1 / 2 := by push_cast; linarith
      nlinarith
    push_cast at h2
    linarith
  have hp1 : ∀ k, 1 ≤ (1 + u) ^ k := fun k => one_le_pow₀ (by linarith)
  have hR0 : 0 ≤ recStagesBound κ l' B := hB0.trans (le_recStagesBound _ _)
  have hfit2 : (1 + u) ^ (stagesDepth l + recStagesDepth l') * recStagesBound κ l' B ≤ Ω := by
    have h1 : (1 + u) ^ (stagesDepth l + recStagesDepth l') ≤ 2 := by linarith
    have := mul_le_mul h1 hR hR0 (by norm_num)
    linarith
  have hfit1 : (1 + u) ^ (0 + stagesDepth l) * B ≤ Ω := by
    refine le_trans (mul_le_mul ?_ (le_recStagesBound l' B) hB0 (by linarith [hp1 (stagesDepth l + recStagesDepth l')])) hfit2
    exact pow_le_pow_right₀ (by linarith) (by omega)
  refine ⟨stagesFit_of hu (fun s hs => (hb s hs).2) hX0 hfit1, recStagesFit_of hu hB0 hfit2, ?_⟩
  have e1 := b3 B 0 (mul_nonneg hε hB0) le_rfl
  have e2 : ((1 + u) ^ (stagesDepth l + recStagesDepth l') - 1) * recStagesBound κ l' B ≤
      620 * n * u * (32 ^ n * (X + 128 * κ)) :=
    mul_le_mul hpw hR hR0 (by positivity)
  have e3 : 8 ^ n * (0 + ε * B) ≤ 32 ^ n * (X + 128 * κ) * ε := by
    have h2 := mul_le_mul_of_nonneg_left (show B ≤ 4 ^ n * (X + 128 * κ) by linarith)
      (mul_nonneg (show (0 : ℝ) ≤ 8 ^ n by linarith) hε)
    rw [p32]
    linarith
  have e4 := mul_nonneg hε hB0
  linarith

/-- Built-in wavelets, one for each axis. -/
theorem idwtn_dwtn_builtin (H : Rounds fl u κ Ω) {single : Bool} {ε : ℝ} (hε : 0 ≤ ε) {x : Arr ℝ}
    {wavelet : PerAxis (Wavelet ℝ)} {mode : PerAxis Mode} {axes : Option (List ℤ)} {st : List (Stage ℝ)} (hd : 1 ≤ x.ndim)
    (hr : Resolves x.ndim wavelet mode axes st) (hn : (st.map (·.1)).Nodup)
    (hst : ∀ s ∈ st, s.1 < x.ndim ∧ BuiltinBank single ε s.2.1 ∧ Repeats s.2.2 ∧ LenOk s.2.2 (x.shape.getD s.1 0))
    {X : ℝ} (hX0 : 0 ≤ X) (hX : ∀ v ∈ x.data, |v| ≤ X) (hnu : 620 * st.length * u ≤ 1)
    (hΩ : 2 * (32 ^ st.length * (X + 128 * κ)) ≤ Ω) :
    ∃ c y, dwtn (x.toFl fl) (wavelet.toFl fl) mode axes = .ok c ∧
      idwtn (c.map fun p => (p.1, some p.2)) (wavelet.toFl fl) mode axes = .ok (some y) ∧
      y.shape.length = x.shape.length ∧
      (∀ s ∈ st, y.shape.getD s.1 0 = x.shape.getD s.1 0 + x.shape.getD s.1 0 % 2) ∧
      (∀ j, j ∉ st.map (·.1) → y.shape.getD j 0 = x.shape.getD j 0) ∧
      ∀ idx, InB x.shape idx → |(y.get idx).val - x.get idx| ≤
        32 ^ st.length * (X + 128 * κ) * (ε + 620 * st.length * u) := by
  have hb : ∀ s ∈ st.map (·.2), BuiltinBank single ε s.1 ∧ Repeats s.2 := by
    intro s hs
    obtain ⟨t, ht, rfl⟩ := List.mem_map.mp hs
    exact ⟨(hst t ht).2.1, (hst t ht).2.2.1⟩
  obtain ⟨f1, f2, f3⟩ := builtin_budget H hε hb (l' := (st.map (·.2)).reverse) (fun s hs => hb s (List.mem_reverse.mp hs))
    (n := st.length) (by simp) (by simp) hX0 hnu hΩ
  obtain ⟨c, y, r1, r2, r3, r4, r5, r6⟩ := idwtn_dwtn_near H hε hd hr ⟨hn, fun s hs => by
      obtain ⟨a1, a2, -, a4⟩ := hst s hs
      obtain ⟨g1, g2, -⟩ := builtinBank_facts a2
      exact ⟨a1, g1, g2, a4⟩⟩ hX0 hX f1 f2
  exact ⟨c, y, r1, r2, r3, r4, r5, fun idx hidx => (r6 idx hidx).trans f3⟩

/-! ### Several levels -/

theorem approxN_le (H : Rounds fl u κ Ω) {st : List (Stage ℝ)} {x : Arr ℝ} {n : ℕ} (hlv : LevelsOkN st x.shape n) {X : ℝ}
    (hX0 : 0 ≤ X) (hX : ∀ v ∈ x.data, |v| ≤ X) (hw : ∀ s ∈ st, s.2.1.Ok)
    (hf : StagesFit u κ Ω (levels n (st.map (·.2))) 0 X 0) : ∀ j ≤ n, ∀ v ∈ (x.approxN st j).data,
    |v| ≤ stagesBound κ (levels j (st.map (·.2))) X := by
  intro j
  induction j with
  | zero => intro _ v hv; exact hX v hv
  | succ j ih =>
    intro hj
    obtain ⟨m, rfl⟩ : ∃ m, n = j + 1 + m := ⟨n - (j + 1), by omega⟩
    rw [levels_add, stagesFit_append, levels_succ, stagesFit_append, stagesBound_zero] at hf
    rw [levels_succ, stagesBound_append, Arr.approxN_succ]
    exact subband_le H (by rw [Arr.shape_approxN]; exact hlv j (by omega)) (hX0.trans (le_stagesBound _ _)) (ih (by omega)) hw
      hf.1.2 _ (replicate_a_mem _)

theorem levelsBand_le (H : Rounds fl u κ Ω) {st : List (Stage ℝ)} {x : Arr ℝ} {n : ℕ} (hlv : LevelsOkN st x.shape n) {X : ℝ}
    (hX0 : 0 ≤ X) (hX : ∀ v ∈ x.data, |v| ≤ X) (hw : ∀ s ∈ st, s.2.1.Ok)
    (hf : StagesFit u κ Ω (levels n (st.map (·.2))) 0 X 0) (j : ℕ) (hj : j < n) (st' : List (Stage ℝ)) (hst' : st' <+: st)
    (k : Key) (hk : k ∈ words st'.length) : ∀ v ∈ ((x.approxN st j).subband st' k).data,
    |v| ≤ stagesBound κ (levels n (st.map (·.2))) X := by
  have ha := approxN_le H hlv hX0 hX hw hf j hj.le
  have hok : StagesOk st (x.approxN st j).shape := by rw [Arr.shape_approxN]; exact hlv j hj
  obtain ⟨m, rfl⟩ : ∃ m, n = j + 1 + m := ⟨n - (j + 1), by omega⟩
  obtain ⟨st2, rfl⟩ := hst'
  rw [levels_add, stagesFit_append, levels_succ, stagesFit_append, stagesBound_zero] at hf
  have hf2 := hf.1.2
  rw [List.map_append, stagesFit_append, ← List.map_append] at hf2
  intro v hv
  refine (subband_le H (stagesOk_append hok) (hX0.trans (le_stagesBound _ _)) ha (fun s hs => hw s (by simp [hs])) hf2.1
    k hk v hv).trans ?_
  rw [levels_add, stagesBound_append, levels_succ, stagesBound_append]
  refine le_trans ?_ (le_stagesBound _ _)
  generalize stagesBound κ (levels j ((st' ++ st2).map (·.2))) X = Y
  rw [List.map_append, stagesBound_append]
  exact le_stagesBound _ _

/-- The multilevel round trip in floating point. -/
theorem waverecn_wavedecn_near (H : Rounds fl u κ Ω) {ε : ℝ} (hε : 0 ≤ ε) {x : Arr ℝ} {wavelet : PerAxis (Wavelet ℝ)}
    {mode : PerAxis Mode} {axes : Option (List ℤ)} {st : List (Stage ℝ)} (hd : 1 ≤ x.ndim) (hne : st ≠ [])
    (hr : Resolves x.ndim wavelet mode axes st) (hb : ∀ s ∈ st, s.1 < x.ndim ∧ s.2.1.Ok) (hn : (st.map (·.1)).Nodup)
    (hpr : ∀ s ∈ st, PRWithin ε s.2.1.dec_lo s.2.1.dec_hi s.2.1.rec_lo s.2.1.rec_hi) {n : ℕ} (h1n : 1 ≤ n)
    (hlv : LevelsOkN st x.shape n) {X : ℝ} (hX0 : 0 ≤ X)
    (hX : ∀ v ∈ x.data, |v| ≤ X) (hf : StagesFit u κ Ω (levels n (st.map (·.2))) 0 X 0)
    (hf' : RecStagesFit u κ Ω (levels n (st.map (·.2)).reverse) (stagesDepth (levels n (st.map (·.2))))
      (stagesBound κ (levels n (st.map (·.2))) X) 0) :
    ∃ cs y, wavedecn (x.toFl fl) (wavelet.toFl fl) mode (some (n : ℤ)) axes = .ok cs ∧
      waverecn cs (wavelet.toFl fl) mode axes = .ok (.arr y) ∧
      y.shape.length = x.shape.length ∧
      (∀ s ∈ st, y.shape.getD s.1 0 = x.shape.getD s.1 0 + x.shape.getD s.1 0 % 2) ∧
      (∀ j, j ∉ st.map (·.1) → y.shape.getD j 0 = x.shape.getD j 0) ∧
      ∀ idx, InB x.shape idx → |(y.get idx).val - x.get idx| ≤
        stagesErr ε (stagesBound κ (levels n (st.map (·.2))) X) (levels n (st.map (·.2)).reverse) 0 +
        ((1 + u) ^ (stagesDepth (levels n (st.map (·.2))) + recStagesDepth (levels n (st.map (·.2)).reverse)) - 1) *
          recStagesBound κ (levels n (st.map (·.2)).reverse) (stagesBound κ (levels n (st.map (·.2))) X) := by
  have hu := H.u_nonneg
  have hwOk : ∀ s ∈ st, s.2.1.Ok := fun s hs => (hb s hs).2
  have hwOk' : ∀ s ∈ st.map (·.2), s.1.Ok := by
    intro s hs
    obtain ⟨t, ht, rfl⟩ := List.mem_map.mp hs
    exact hwOk t ht
  have hB0 : 0 ≤ stagesBound κ (levels n (st.map (·.2))) X := hX0.trans (le_stagesBound _ _)
  obtain ⟨y, i1, i2, i3, i4, i5⟩ := waverecn_within hε hB0 hr hne hn hpr h1n (levelsBand_le H hlv hX0 hX hwOk hf) hlv
  have hargs := argRel_toFl (fl := fl) hr.2.1 hr.2.2
  rw [zip_stages] at hargs
  obtain ⟨L, -, hdec⟩ := wavedecn_eq hd hne hr hb hn
  have hdec := hdec (some (n : ℤ))
  have e0 : ¬ ((some (n : ℤ)).any (· < 0)) = true := by simp
  rw [if_neg e0] at hdec
  have e1 : ((some (n : ℤ)).map Int.toNat).getD L = n := by simp
  rw [e1, if_pos hlv] at hdec
  obtain ⟨cs, g1, g2⟩ := wavedecn_rel (X := levelRel fl u κ (st.map (·.2)) 0 X 0) (x := x.toFl fl) (x' := x)
    (toFl_arr hu hX) (by rw [hr.length]; exact hargs) (fun m ws ws' => toFl_dec_lens m ws ws')
    (fun k hk => levelRel_step H hwOk' hX0 le_rfl hf k hk) (fun k hk a b h => levelRel_mono hu hk a b h) _ hdec
  have g2' : List.Forall₂ (ItemRel (recLevelRel fl u κ (st.map (·.2)).reverse (stagesDepth (levels n (st.map (·.2))))
      (stagesBound κ (levels n (st.map (·.2))) X) 0 0)) cs (x.cascadeN st n) := by
    refine g2.imp fun a b h => ?_
    unfold levelRel at h
    rw [Nat.zero_add, stagesBound_zero] at h
    exact h
  obtain ⟨r, j1, j2⟩ := waverecn_rel (n := n) g2' (axes := axes) (by simp [Arr.cascadeN]) (m := st.length)
    (by intro a ha; subst ha; exact hr.length) (by
      intro ha
      subst ha
      have hst : st.length = x.ndim := by
        have := congrArg List.length hr.1
        simpa using this
      rw [hst]
      intro i hi a hia
      unfold Arr.cascadeN at hi
      rcases List.mem_cons.mp hi with rfl | hi
      · rcases hia with hia | ⟨c, k, hia, -⟩
        · cases hia; exact Arr.approxN_ndim st n x
        · cases hia
      · rw [List.mem_reverse, List.mem_map] at hi
        obtain ⟨j, -, rfl⟩ := hi
        rcases hia with hia | ⟨c, k, hia, hk⟩
        · cases hia
        · simp only [Item.ofDict, Item.dict.injEq] at hia
          subst hia
          obtain ⟨p, hp, hpe⟩ := List.mem_map.mp hk
          obtain ⟨h1, -, h3⟩ := mem_detailsN hp
          injection hpe with e1 e2
          injection e2 with e2
          subst e2
          rw [h3]
          unfold Arr.ndim
          rw [shape_subband (mem_words.mp h1).1, decShape_length]
          exact Arr.approxN_ndim st j x) hargs
    (fun k => recLevelRel_zero hu hB0 le_rfl k)
    (fun k hk => by rw [stagesFl_reverse]; exact recLevelRel_step H hB0 le_rfl hf' k hk)
    (fun k _ a b h => recLevelRel_mono hu (Nat.zero_le k) a b h) _ i1
  cases r with
  | null => exact j2.elim
  | dict c => exact j2.elim
  | tup c => exact j2.elim
  | arr y' =>
    have j2 : ArrRel _ y' y := j2
    unfold recLevelRel at j2
    rw [recStagesBound_zero] at j2
    refine ⟨cs, y', g1, j1, by rw [j2.shape]; exact i2, by rw [j2.shape]; exact i3, by rw [j2.shape]; exact i4, ?_⟩
    intro idx hidx
    have e1 := (arrRel_get hu (hB0.trans (le_recStagesBound _ _)) j2 idx).2.2
    have e2 := i5.2.2 idx hidx
    have := abs_sub_le ((y'.get idx).val) (y.get idx) (x.get idx)
    rw [add_zero] at e1
    linarith

theorem mem_levels {n : ℕ} {l : List (Wavelet ℝ × Mode)} {s : Wavelet ℝ × Mode} (h : s ∈ levels n l) : s ∈ l := by
  unfold levels at h
  obtain ⟨a, ha, hs⟩ := List.mem_flatten.mp h
  rw [List.eq_of_mem_replicate ha] at hs
  exact hs

theorem levels_length (n : ℕ) (l : List (Wavelet ℝ × Mode)) : (levels n l).length = n * l.length := by
  simp [levels]

/-- Built-in wavelets, one for each axis, over several levels. -/
theorem waverecn_wavedecn_builtin (H : Rounds fl u κ Ω) {single : Bool} {ε : ℝ} (hε : 0 ≤ ε) {x : Arr ℝ}
    {wavelet : PerAxis (Wavelet ℝ)} {mode : PerAxis Mode} {axes : Option (List ℤ)} {st : List (Stage ℝ)} (hd : 1 ≤ x.ndim)
    (hne : st ≠ []) (hr : Resolves x.ndim wavelet mode axes st) (hn : (st.map (·.1)).Nodup)
    (hst : ∀ s ∈ st, s.1 < x.ndim ∧ BuiltinBank single ε s.2.1 ∧ Repeats s.2.2) {n : ℕ} (h1n : 1 ≤ n)
    (hlv : LevelsOkN st x.shape n)
    {X : ℝ} (hX0 : 0 ≤ X) (hX : ∀ v ∈ x.data, |v| ≤ X) (hnu : 620 * (n * st.length : ℕ) * u ≤ 1)
    (hΩ : 2 * (32 ^ (n * st.length) * (X + 128 * κ)) ≤ Ω) :
    ∃ cs y, wavedecn (x.toFl fl) (wavelet.toFl fl) mode (some (n : ℤ)) axes = .ok cs ∧
      waverecn cs (wavelet.toFl fl) mode axes = .ok (.arr y) ∧
      y.shape.length = x.shape.length ∧
      (∀ s ∈ st, y.shape.getD s.1 0 = x.shape.getD s.1 0 + x.shape.getD s.1 0 % 2) ∧
      (∀ j, j ∉ st.map (·.1) → y.shape.getD j 0 = x.shape.getD j 0) ∧
      ∀ idx, InB x.shape idx → |(y.get idx).val - x.get idx| ≤
        32 ^ (n * st.length) * (X + 128 * κ) * (ε + 620 * (n * st.length : ℕ) * u) := by
  have hb : ∀ s ∈ st.map (·.2), BuiltinBank single ε s.1 ∧ Repeats s.2 := by
    intro s hs
    obtain ⟨t, ht, rfl⟩ := List.mem_map.mp hs
    exact ⟨(hst t ht).2.1, (hst t ht).2.2⟩
  obtain ⟨f1, f2, f3⟩ := builtin_budget H hε (l := levels n (st.map (·.2))) (l' := levels n (st.map (·.2)).reverse)
    (fun s hs => hb s (mem_levels hs)) (fun s hs => hb s (List.mem_reverse.mp (mem_levels hs)))
    (n := n * st.length) (by simp [levels_length]) (by simp [levels_length]) hX0 hnu hΩ
  obtain ⟨c, y, r1, r2, r3, r4, r5, r6⟩ := waverecn_wavedecn_near H hε hd hne hr (fun s hs =>
      ⟨(hst s hs).1, (builtinBank_facts (hst s hs).2.1).1⟩) hn (fun s hs => (builtinBank_facts (hst s hs).2.1).2.1)
    h1n hlv hX0 hX f1 f2
  exact ⟨c, y, r1, r2, r3, r4, r5, fun idx hidx => (r6 idx hidx).trans f3⟩

end Pywt
