import Verif.Proof.DwtIdwtN
import Verif.Props.Swt

/-! Energy of n-D arrays. -/

namespace Pywt

open Finset Spec

set_option linter.unusedSectionVars false

section Sums

variable {B : Type} [AddCommMonoid B]

/-- Sum over the positions along axis `k`. -/
def sumAxis (shape : List ℕ) (k : ℕ) (F : (ℕ → ℕ) → B) (idx : ℕ → ℕ) : B :=
  ∑ v ∈ range (shape.getD k 0), F (Function.update idx k v)

theorem sumAxis_comm (shape : List ℕ) (k l : ℕ) (F : (ℕ → ℕ) → B) :
    sumAxis shape l (sumAxis shape k F) = sumAxis shape k (sumAxis shape l F) := by
  by_cases h : k = l
  · rw [h]
  · funext idx
    unfold sumAxis
    rw [sum_comm]
    refine sum_congr rfl fun v _ => sum_congr rfl fun u _ => ?_
    rw [Function.update_comm h]

theorem sum_range_mul (G : ℕ → B) (m n : ℕ) :
    ∑ p ∈ range (m * n), G p = ∑ q ∈ range m, ∑ v ∈ range n, G (q * n + v) := by
  induction m with
  | zero => simp
  | succ m ih => rw [Nat.succ_mul, sum_range_add, ih, sum_range_succ]

theorem sum_box (shape : List ℕ) (j : ℕ) : ∀ (D : ℕ → B) (idx : ℕ → ℕ),
    (List.range j).foldr (sumAxis shape) (fun i => D (ravelIx shape i j)) idx =
      ∑ p ∈ range (prodTo shape j), D p := by
  induction j with
  | zero => intro D idx; simp [prodTo, ravelIx]
  | succ j ih =>
    intro D idx
    rw [List.range_succ, List.foldr_append]
    have : [j].foldr (sumAxis shape) (fun i => D (ravelIx shape i (j + 1))) =
        fun i => (fun q => ∑ v ∈ range (shape.getD j 0), D (q * shape.getD j 0 + v)) (ravelIx shape i j) := by
      funext i
      simp only [List.foldr_cons, List.foldr_nil, sumAxis, ravelIx, Function.update_self]
      refine sum_congr rfl fun v _ => ?_
      rw [ravelIx_congr (g := i)]
      intro k hk
      rw [Function.update_of_ne (by omega)]
    rw [this]
    exact (ih (fun q => ∑ v ∈ range (shape.getD j 0), D (q * shape.getD j 0 + v)) idx).trans
      (by rw [prodTo, sum_range_mul])

theorem foldr_sumAxis_congr {shape shape' : List ℕ} {F G : (ℕ → ℕ) → B} (K : List ℕ) :
    ∀ (D : List ℕ), (∀ k ∈ K, shape.getD k 0 = shape'.getD k 0) →
      (∀ idx : ℕ → ℕ, (∀ k ∈ D ++ K, idx k < shape.getD k 0) → F idx = G idx) →
      ∀ idx : ℕ → ℕ, (∀ k ∈ D, idx k < shape.getD k 0) →
        K.foldr (sumAxis shape) F idx = K.foldr (sumAxis shape') G idx := by
  induction K with
  | nil => intro D _ h idx hidx; exact h idx (by simpa using hidx)
  | cons k K ih =>
    intro D hs h idx hidx
    simp only [List.foldr_cons, sumAxis]
    rw [← hs k (by simp)]
    refine sum_congr rfl fun v hv => ?_
    rw [mem_range] at hv
    refine ih (k :: D) (fun l hl => hs l (by simp [hl])) ?_ _ ?_
    · intro i hi
      refine h i fun l hl => hi l ?_
      simp only [List.mem_append, List.mem_cons] at hl ⊢
      tauto
    · intro l hl
      by_cases e : l = k
      · rw [e, Function.update_self]; exact hv
      · rw [Function.update_of_ne e]
        exact hidx l (by simpa [e] using hl)

theorem foldr_sumAxis_add {shape : List ℕ} (F G : (ℕ → ℕ) → B) (K : List ℕ) :
    K.foldr (sumAxis shape) (fun i => F i + G i) =
      fun idx => K.foldr (sumAxis shape) F idx + K.foldr (sumAxis shape) G idx := by
  induction K with
  | nil => rfl
  | cons k K ih =>
    funext idx
    simp only [List.foldr_cons, ih, sumAxis, sum_add_distrib]

variable {M : Type} [AddCommGroup M]

/-- The sum of `φ` over all cells of an array. -/
def Arr.sumBy (φ : M → B) (x : Arr M) : B := (x.data.map φ).sum

theorem list_sum_range (φ : M → B) (l : List M) : (l.map φ).sum = ∑ p ∈ range l.length, φ (l.getD p 0) := by
  induction l using List.reverseRecOn with
  | nil => simp
  | append_singleton x v ih =>
    rw [List.map_append, List.sum_append, ih, List.length_append]
    simp only [List.length_singleton, sum_range_succ, List.map_cons, List.map_nil, List.sum_cons,
      List.sum_nil, add_zero]
    congr 1
    · refine sum_congr rfl fun n hn => ?_
      rw [mem_range] at hn
      rw [List.getD_append _ _ _ _ hn]
    · rw [List.getD_append_right _ _ _ _ le_rfl]
      simp

theorem Arr.sumBy_box (φ : M → B) (x : Arr M) (idx : ℕ → ℕ) :
    x.sumBy φ = (List.range x.shape.length).foldr (sumAxis x.shape) (fun i => φ (x.get i)) idx := by
  have := sum_box x.shape x.shape.length (fun p => φ (x.data.getD p 0)) idx
  unfold Arr.sumBy
  rw [list_sum_range, x.ok, ← prodTo_length, ← this]
  rfl

/-- The sum over all cells is the sum over the lines along an axis. -/
theorem Arr.sumBy_lines (φ : M → B) (x : Arr M) {axis : ℕ} (ha : axis < x.shape.length) (idx : ℕ → ℕ) :
    x.sumBy φ = ((List.range x.shape.length).erase axis).foldr (sumAxis x.shape)
      (fun i => ((x.line axis i).map φ).sum) idx := by
  rw [x.sumBy_box φ idx]
  have hp : (List.range x.shape.length).Perm ((List.range x.shape.length).erase axis ++ [axis]) :=
    (List.perm_cons_erase (List.mem_range.mpr ha)).trans (List.perm_append_singleton _ _).symm
  rw [hp.foldr_eq' (f := sumAxis x.shape) (fun k _ l _ F => sumAxis_comm _ _ _ _), List.foldr_append]
  have : [axis].foldr (sumAxis x.shape) (fun i => φ (x.get i)) = fun i => ((x.line axis i).map φ).sum := by
    funext i
    simp only [List.foldr_cons, List.foldr_nil, sumAxis, Arr.line, List.map_map]
    rfl
  rw [this]

end Sums

/-! ### The transforms -/

variable {R M B : Type} [CommRing R] [AddCommGroup M] [Module R M] [AddCommMonoid B]

/-- The 1-D analysis of signals of even length preserves the sum of `φ`. -/
def Preserves (φ : M → B) (w : Wavelet R) : Prop :=
  ∀ l : List M, l.length % 2 = 0 →
    ((analysis .periodization w.dec_lo l).map φ).sum + ((analysis .periodization w.dec_hi l).map φ).sum = (l.map φ).sum

theorem sumBy_analyze {φ : M → B} {s : Stage R} (hm : s.2.2 = .periodization) (hw : s.2.1.Ok)
    (hp : Preserves φ s.2.1) {x : Arr M} (ha : s.1 < x.shape.length) (he : x.shape.getD s.1 0 % 2 = 0) :
    (x.analyze s 'a').sumBy φ + (x.analyze s 'd').sumBy φ = x.sumBy φ := by
  have hsh : ∀ c, (x.analyze s c).shape.length = x.shape.length := fun c => by
    rw [Arr.shape_analyze, List.length_set]
  have hline : ∀ (c : Char) (idx : ℕ → ℕ), (∀ k ∈ (List.range x.shape.length).erase s.1, idx k < x.shape.getD k 0) →
      (x.analyze s c).line s.1 idx = analysis .periodization (s.2.1.decFilter c) (x.line s.1 idx) := by
    intro c idx hidx
    unfold Arr.analyze
    rw [Arr.line_along ha]
    · rw [hm]
    · intro k hk hka
      exact hidx k (by rw [List.Nodup.mem_erase_iff List.nodup_range]; simp [hka, hk])
    · rw [analysis_length, Arr.line_length, decFilter_length hw]
  have hone : ∀ c, (x.analyze s c).sumBy φ = ((List.range x.shape.length).erase s.1).foldr (sumAxis x.shape)
      (fun i => ((analysis .periodization (s.2.1.decFilter c) (x.line s.1 i)).map φ).sum) fun _ => 0 := by
    intro c
    rw [Arr.sumBy_lines φ _ (axis := s.1) (by rw [hsh]; exact ha) (fun _ => 0), hsh]
    symm
    apply foldr_sumAxis_congr _ []
    · intro k hk
      rw [List.Nodup.mem_erase_iff List.nodup_range] at hk
      rw [Arr.shape_analyze, getD_set ha, if_neg hk.1]
    · intro idx hidx
      rw [hline c idx (by simpa using hidx)]
    · simp
  rw [hone, hone, x.sumBy_lines φ ha fun _ => 0]
  have := congrFun (foldr_sumAxis_add (shape := x.shape)
    (fun i => ((analysis .periodization (s.2.1.decFilter 'a') (x.line s.1 i)).map φ).sum)
    (fun i => ((analysis .periodization (s.2.1.decFilter 'd') (x.line s.1 i)).map φ).sum)
    ((List.range x.shape.length).erase s.1)) fun _ => 0
  rw [← this]
  apply foldr_sumAxis_congr _ []
  · intro k _; rfl
  · intro idx _
    exact hp _ (by rw [Arr.line_length]; exact he)
  · simp

/-- All subbands together. -/
theorem sumBy_subbands {φ : M → B} {st : List (Stage R)} (hn : (st.map (·.1)).Nodup) :
    ∀ {x : Arr M}, (∀ s ∈ st, s.2.2 = .periodization ∧ s.2.1.Ok ∧ Preserves φ s.2.1 ∧ s.1 < x.shape.length ∧
      x.shape.getD s.1 0 % 2 = 0) →
      ((words st.length).map fun k => (x.subband st k).sumBy φ).sum = x.sumBy φ := by
  induction st with
  | nil => intro x _; simp [words, Arr.subband]
  | cons s st ih =>
    intro x h
    simp only [List.map_cons, List.nodup_cons] at hn
    obtain ⟨h1, h2, h3, h4, h5⟩ := h s (by simp)
    have hrec : ∀ c, ((words st.length).map fun k => ((x.analyze s c).subband st k).sumBy φ).sum =
        (x.analyze s c).sumBy φ := by
      intro c
      refine ih hn.2 fun t ht => ?_
      obtain ⟨t1, t2, t3, t4, t5⟩ := h t (by simp [ht])
      refine ⟨t1, t2, t3, by rw [Arr.shape_analyze, List.length_set]; exact t4, ?_⟩
      rw [Arr.shape_analyze, getD_set h4, if_neg]
      · exact t5
      · intro e
        exact hn.1 (e ▸ List.mem_map_of_mem ht)
    rw [List.length_cons, words, List.map_append, List.sum_append, List.map_map, List.map_map]
    simp only [Function.comp_def, Arr.subband]
    rw [hrec, hrec, sumBy_analyze h1 h2 h3 h4 h5]

theorem words_split (n : ℕ) (F : Key → B) : ((words n).map F).sum =
    F (List.replicate n 'a') + (((words n).filter fun k => k ≠ List.replicate n 'a').map F).sum := by
  have h := List.perm_cons_erase (replicate_a_mem n)
  rw [(h.map F).sum_eq, List.map_cons, List.sum_cons, (words_nodup n).erase_eq_filter]
  congr 3
  apply List.filter_congr
  intro k _
  by_cases h : k = List.replicate n 'a' <;> simp [h]

/-- The cascade. -/
theorem sumBy_cascade {φ : M → B} {st : List (Stage R)} (hn : (st.map (·.1)).Nodup) (n : ℕ) :
    ∀ {x : Arr M}, (∀ s ∈ st, s.2.2 = .periodization ∧ s.2.1.Ok ∧ Preserves φ s.2.1 ∧ s.1 < x.shape.length ∧
      2 ^ n ∣ x.shape.getD s.1 0) →
      (x.approxN st n).sumBy φ +
        ((List.range n).map fun j => ((x.detailsN st j).map fun p => p.2.sumBy φ).sum).sum = x.sumBy φ := by
  induction n with
  | zero => intro x _; simp [Arr.approxN]
  | succ n ih =>
    intro x h
    have hlen := fun s hs => (h s hs).2.2.2.1
    have hdiv : ∀ s ∈ st, ((x.approxN st n).shape.getD s.1 0) % 2 = 0 ∧ s.1 < (x.approxN st n).shape.length := by
      intro s hs
      obtain ⟨h1, h2, h3, h4, h5⟩ := h s hs
      obtain ⟨d1, d2⟩ := decShape_iter_getD hn hlen n
      rw [Arr.shape_approxN, d1, d2 s hs, h1]
      refine ⟨?_, h4⟩
      have : ∀ (n m : ℕ), approxLen .periodization s.2.1.dec_len (2 ^ n * m) n = m := by
        intro n
        induction n with
        | zero => intro m; simp [approxLen]
        | succ n ih =>
          intro m
          have e : coeffLen .periodization (2 ^ (n + 1) * m) s.2.1.dec_len = 2 ^ n * m := by
            simp only [coeffLen, if_pos]
            rw [pow_succ, Nat.mul_right_comm]
            omega
          unfold approxLen at ih ⊢
          rw [Function.iterate_succ_apply, e, ih]
      obtain ⟨m, hm⟩ := h5
      rw [hm, pow_succ, Nat.mul_assoc, this]
      omega
    have hsub := sumBy_subbands (φ := φ) hn (x := x.approxN st n) fun s hs => by
      obtain ⟨h1, h2, h3, h4, h5⟩ := h s hs
      exact ⟨h1, h2, h3, (hdiv s hs).2, (hdiv s hs).1⟩
    have := ih (x := x) fun s hs => by
      obtain ⟨h1, h2, h3, h4, h5⟩ := h s hs
      exact ⟨h1, h2, h3, h4, (pow_dvd_pow 2 (by omega)).trans h5⟩
    rw [← this, List.range_succ, List.map_append, List.sum_append, ← hsub, words_split, Arr.approxN_succ]
    simp only [List.map_cons, List.map_nil, List.sum_cons, List.sum_nil, add_zero]
    rw [add_right_comm, add_assoc]
    congr 2
    unfold Arr.detailsN
    rw [List.map_map]
    rfl

end Pywt
