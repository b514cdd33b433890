import Verif.Proof.SwtSlice

/-! One level of the n-D inverse stationary transform. -/

namespace Pywt

open Finset Spec

set_option linter.unusedSectionVars false

variable {R M : Type} [Ring R] [AddCommGroup M] [Module R M]

theorem sum_comm_list {α β : Type} (l : List α) (l' : List β) (f : α → β → M) :
    (l.map fun a => (l'.map fun b => f a b).sum).sum = (l'.map fun b => (l.map fun a => f a b).sum).sum := by
  induction l with
  | nil => simp
  | cons a l ih => simp only [List.map_cons, List.sum_cons, ih, ← List.sum_map_add]

theorem list_sum_apply {α : Type} (l : List α) (f : α → (ℕ → ℕ) → M) (idx : ℕ → ℕ) :
    (l.map f).sum idx = (l.map fun a => f a idx).sum := by
  induction l with
  | nil => rfl
  | cons a l ih => simp only [List.map_cons, List.sum_cons, Pi.add_apply, ih]

/-- What one parity (`i = 0` even, `i ≠ 0` odd) of the residue class `r` contributes, as an operation on
the whole line. -/
def oddOp (f : List R) (s n r i : ℕ) : (ℕ → M) →+ (ℕ → M) :=
  post (fun j => if i ≠ 0 then (j + 2 * n - 1) % (2 * n) else j)
    (pre (fun j => (if i ≠ 0 then r + s else r) + j * (2 * s)) (synT .periodization f n))

theorem oddOp_sum {f : List R} {s n r : ℕ} (hr : r < s) (hn : 1 ≤ n) :
    (oddOp f s n r 0 + oddOp f s n r 1 : (ℕ → M) →+ (ℕ → M)) =
      post (fun j => r + j * s) (ainv f s (s * (2 * n))) := by
  apply AddMonoidHom.ext
  intro u
  funext j
  have h := two_phase (f := f) hr hn u j
  have e1 : ∀ k, u (r + 2 * s * k) = u (r + k * (2 * s)) := fun k => by rw [mul_comm]
  have e2 : ∀ k, u (r + s + 2 * s * k) = u (r + s + k * (2 * s)) := fun k => by rw [mul_comm]
  have e3 : r + s * j = r + j * s := by rw [mul_comm]
  simp only [e1, e2, e3] at h
  exact h

/-- The periodization stages of an inverse stationary transform. -/
def perStages (st : List (SStage R)) : List (Stage R) := st.map fun s => (s.1, s.2, .periodization)

theorem perStages_axes (st : List (SStage R)) : (perStages st).map (·.1) = st.map (·.1) := by
  simp [perStages]

theorem perStages_length (st : List (SStage R)) : (perStages st).length = st.length := by
  simp [perStages]

theorem SwtFits.div {st : List (SStage R)} {step : ℕ} {S : List ℕ} (h : SwtFits st step S)
    {s : SStage R} (hs : s ∈ st) : 1 ≤ step ∧ 1 ≤ S.getD s.1 0 / (2 * step) ∧
      S.getD s.1 0 = step * (2 * (S.getD s.1 0 / (2 * step))) := by
  obtain ⟨-, -, h1, c, hc⟩ := h.2 s hs
  have hs0 : 0 < step := by
    rcases Nat.eq_zero_or_pos step with h | h
    · subst h; omega
    · exact h
  rw [hc, Nat.mul_div_cancel_left _ (by omega)]
  refine ⟨hs0, ?_, by ring⟩
  rcases Nat.eq_zero_or_pos c with h | h
  · subst h; omega
  · exact h

theorem SwtFits.synthFits {st : List (SStage R)} {step : ℕ} {S : List ℕ} (h : SwtFits st step S) :
    SynthFits (perStages st) (latShape (st.map (·.1)) S (2 * step)) := by
  refine ⟨by rw [perStages_axes]; exact h.1, ?_⟩
  intro t ht
  obtain ⟨s, hs, rfl⟩ := List.mem_map.mp ht
  obtain ⟨h1, h2, -, -⟩ := h.2 s hs
  refine ⟨by rw [latShape_length]; exact h1, h2, ?_⟩
  simp only
  rw [latShape_getD h1, if_pos (List.mem_map_of_mem hs)]
  have := (h.div hs).2.1
  simp only [synthLen, if_true]
  omega

theorem SwtFits.synthShape {st : List (SStage R)} {step : ℕ} {S : List ℕ} (h : SwtFits st step S) :
    Pywt.synthShape (perStages st) (latShape (st.map (·.1)) S (2 * step)) =
      latShape (st.map (·.1)) S step := by
  apply list_ext_getD
  · rw [synthShape_length, latShape_length, latShape_length]
  intro k hk
  rw [synthShape_length, latShape_length] at hk
  rw [latShape_getD hk]
  by_cases hm : k ∈ st.map (·.1)
  · obtain ⟨s, hs, rfl⟩ := List.mem_map.mp hm
    have h1 := (h.2 s hs).1
    have hmem : ((s.1, s.2, Mode.periodization) : Stage R) ∈ perStages st := List.mem_map_of_mem hs
    have := synthShape_eq (by rw [perStages_axes]; exact h.1) hmem
      (S := latShape (st.map (·.1)) S (2 * step)) (by rw [latShape_length]; exact h1)
    simp only at this
    rw [this, if_pos hm, latShape_getD h1, if_pos hm]
    obtain ⟨d1, d2, d3⟩ := h.div hs
    simp only [synthLen, if_true]
    conv_rhs => rw [d3]
    rw [Nat.mul_div_cancel_left _ d1]
  · rw [if_neg hm, synthShape_ne (by rw [perStages_axes]; exact hm), latShape_getD hk, if_neg hm]

/-- The operations of one subband on the residue class `r`, for both parities. -/
def lops (st : List (SStage R)) (k : Key) (S : List ℕ) (step : ℕ) (r : ℕ → ℕ) :
    List (ℕ × (ℕ → (ℕ → M) →+ (ℕ → M))) :=
  List.zipWith (fun s c =>
    (s.1, fun i => oddOp (s.2.recFilter c) step (S.getD s.1 0 / (2 * step)) (r s.1) i)) st k

/-- The operations of one subband on the whole array. -/
def ainvOps (st : List (SStage R)) (k : Key) (S : List ℕ) (step : ℕ) :
    List (ℕ × ((ℕ → M) →+ (ℕ → M))) :=
  List.zipWith (fun s c => (s.1, ainv (s.2.recFilter c) step (S.getD s.1 0))) st k

theorem ainvOps_axes {st : List (SStage R)} {k : Key} (h : k.length = st.length) (S : List ℕ) (step : ℕ) :
    (ainvOps (M := M) st k S step).map (·.1) = st.map (·.1) := by
  unfold ainvOps
  rw [List.map_zipWith]
  induction st generalizing k with
  | nil => rfl
  | cons s st ih =>
    cases k with
    | nil => simp at h
    | cons c k => simp only [List.zipWith_cons_cons, List.map_cons]; rw [ih (by simpa using h)]

theorem lops_length {st : List (SStage R)} {k : Key} (h : k.length = st.length) (S : List ℕ) (step : ℕ)
    (r : ℕ → ℕ) : (lops (M := M) st k S step r).length = st.length := by
  simp [lops, h]

theorem ops_eq {st : List (SStage R)} {k : Key} (h : k.length = st.length) {S : List ℕ} {step : ℕ}
    (hf : SwtFits st step S) (r o : ℕ → ℕ) :
    (((synOps (M := M) (perStages st) k (latShape (st.map (·.1)) S (2 * step))).map fun p =>
        (p.1, pre (latPos (st.map (·.1)) (2 * step) (fun k => if o k ≠ 0 then r k + step else r k) p.1) p.2)).map
      fun p => (p.1, post ((fun k i => if k ∈ st.map (·.1) then
        (if o k ≠ 0 then (i + (latShape (st.map (·.1)) S step).getD k 0 - 1) %
          (latShape (st.map (·.1)) S step).getD k 0 else i) else i) p.1) p.2)) =
      List.zipWith (fun p i => (p.1, p.2 i)) (lops st k S step r) ((st.map (·.1)).map o) := by
  apply List.ext_getElem
  · simp [synOps, perStages, lops, h]
  intro i h1 h2
  have hi : i < st.length := by simp [synOps, perStages, h] at h1; exact h1
  have hmem : st[i].1 ∈ st.map (·.1) := List.mem_map_of_mem (List.getElem_mem hi)
  have hlt := (hf.2 _ (List.getElem_mem hi)).1
  obtain ⟨d1, d2, d3⟩ := hf.div (List.getElem_mem hi)
  simp only [List.getElem_map, List.getElem_zipWith, synOps, perStages, lops, latShape_getD hlt,
    if_pos hmem]
  congr 1
  have e : S.getD st[i].1 0 / step = 2 * (S.getD st[i].1 0 / (2 * step)) := by
    conv_lhs => rw [d3]
    rw [Nat.mul_div_cancel_left _ d1]
  unfold oddOp
  congr 1
  · funext j
    rw [e]
  · congr 1
    funext j
    unfold latPos
    rw [if_pos hmem]

/-- The value on the residue class `r` of the inverse DWT of one combination of parities, after
rolling. -/
theorem odd_value {st : List (SStage R)} {step : ℕ} {S : List ℕ} (hf : SwtFits st step S)
    {r o : ℕ → ℕ} {C : Key → Arr M} {g : Key → Arr M} {X : Arr M}
    (hX : X.shape = latShape (st.map (·.1)) S step)
    (hg : ∀ k ∈ words st.length, ∀ idx, InB (latShape (st.map (·.1)) S (2 * step)) idx →
      (g k).get idx = (C k).get fun j => latPos (st.map (·.1)) (2 * step)
        (fun k => if o k ≠ 0 then r k + step else r k) j (idx j))
    (hXg : ∀ idx, InB X.shape idx → X.get idx = ((words st.length).map fun k =>
      nest (synOps (perStages st) k (latShape (st.map (·.1)) S (2 * step))) (g k).get idx).sum)
    {idx : ℕ → ℕ} (hidx : InB X.shape idx) :
    (rollOdds (st.map (·.1)) ((st.map (·.1)).map o) X).get idx =
      ((words st.length).map fun k =>
        nest (List.zipWith (fun p i => (p.1, p.2 i)) (lops st k S step r) ((st.map (·.1)).map o))
          (C k).get idx).sum := by
  have hax : ∀ k ∈ st.map (·.1), k < S.length := by
    intro k hk
    obtain ⟨s, hs, rfl⟩ := List.mem_map.mp hk
    exact (hf.2 s hs).1
  obtain ⟨-, hroll⟩ := rollOdds_map (st.map (·.1)) o X
    (by rw [hX, latShape_length]; exact hax) hf.1
  rw [hroll idx hidx, hXg]
  · congr 1
    apply List.map_congr_left
    intro k hk
    have hkl := (mem_words.mp hk).1
    have hsl : k.length = (perStages st).length := by rw [perStages_length]; exact hkl
    have haxes : (synOps (M := M) (perStages st) k (latShape (st.map (·.1)) S (2 * step))).map (·.1) =
        st.map (·.1) := by rw [synOps_axes hsl, perStages_axes]
    rw [nest_congr S.length (fun j => (latShape (st.map (·.1)) S (2 * step)).getD j 0) _
      (synOps_local hf.synthFits k) (G := psub (latPos (st.map (·.1)) (2 * step)
        (fun k => if o k ≠ 0 then r k + step else r k)) (C k).get)
      (fun idx' hidx' => hg k hk idx' (fun j hj => hidx' j (by rw [latShape_length] at hj; exact hj)))]
    · rw [nest_psub _ (by rw [haxes]; exact hf.1), haxes]
      have e0 : (fun k' => if k' ∈ st.map (·.1) then id else
          latPos (st.map (·.1)) (2 * step) (fun k => if o k ≠ 0 then r k + step else r k) k') =
          fun _ => id := by
        funext k'
        by_cases hm : k' ∈ st.map (·.1)
        · rw [if_pos hm]
        · rw [if_neg hm]; funext i; unfold latPos; rw [if_neg hm]; rfl
      rw [e0, psub_id]
      rw [← ops_eq hkl hf r o]
      have h3 := psub_nest ((synOps (M := M) (perStages st) k (latShape (st.map (·.1)) S (2 * step))).map fun p =>
        (p.1, pre (latPos (st.map (·.1)) (2 * step) (fun k => if o k ≠ 0 then r k + step else r k) p.1) p.2))
        (by rw [List.map_map]; simp only [Function.comp_def]; rw [haxes]; exact hf.1) (C k).get
        (fun k i => if k ∈ st.map (·.1) then
          (if o k ≠ 0 then (i + (latShape (st.map (·.1)) S step).getD k 0 - 1) %
            (latShape (st.map (·.1)) S step).getD k 0 else i) else i)
      have e1 : (fun k' => if k' ∈ ((synOps (M := M) (perStages st) k (latShape (st.map (·.1)) S (2 * step))).map fun p =>
          (p.1, pre (latPos (st.map (·.1)) (2 * step) (fun k => if o k ≠ 0 then r k + step else r k) p.1) p.2)).map (·.1)
          then id else (fun k i => if k ∈ st.map (·.1) then
          (if o k ≠ 0 then (i + (latShape (st.map (·.1)) S step).getD k 0 - 1) %
            (latShape (st.map (·.1)) S step).getD k 0 else i) else i) k') = fun _ => id := by
        funext k'
        rw [List.map_map]
        simp only [Function.comp_def]
        rw [haxes]
        by_cases hm : k' ∈ st.map (·.1)
        · rw [if_pos hm]
        · rw [if_neg hm]; funext i; rw [if_neg hm]; rfl
      rw [e1, psub_id] at h3
      rw [← h3, hX]
      rfl
    · intro j hj hjm
      rw [haxes] at hjm
      have := hidx j (by rw [hX, latShape_length]; exact hj)
      rw [hX, latShape_getD hj, if_neg hjm] at this
      simp only [if_neg hjm]
      rw [latShape_getD hj, if_neg hjm]
      exact this
  · intro j hj
    have := hidx j hj
    by_cases hm : j ∈ st.map (·.1)
    · simp only [if_pos hm]
      split
      · exact Nat.mod_lt _ (by omega)
      · exact this
    · simp only [if_neg hm]; exact this

/-- The contributions of all combinations of parities add up to filtering the whole array. -/
theorem odds_total {st : List (SStage R)} {step : ℕ} {S : List ℕ} (hf : SwtFits st step S)
    {r : ℕ → ℕ} (hr : ∀ k ∈ st.map (·.1), r k < step) {k : Key} (hk : k.length = st.length)
    (F : (ℕ → ℕ) → M) (idx : ℕ → ℕ) :
    ((product [0, 1] st.length).map fun o : List ℕ =>
      nest (List.zipWith (fun p i => (p.1, p.2 i)) (lops st k S step r) o) F idx).sum =
      nest (ainvOps st k S step) F fun j => latPos (st.map (·.1)) step r j (idx j) := by
  rw [← list_sum_apply _ (fun o : List ℕ =>
    nest (List.zipWith (fun p i => (p.1, p.2 i)) (lops st k S step r) o) F)]
  rw [← lops_length (M := M) hk S step r, nest_sum_odds]
  have h3 := psub_nest (ainvOps (M := M) st k S step) (by rw [ainvOps_axes hk]; exact hf.1) F
    (latPos (st.map (·.1)) step r)
  have e1 : (fun k' => if k' ∈ (ainvOps (M := M) st k S step).map (·.1) then id else
      latPos (st.map (·.1)) step r k') = fun _ => id := by
    funext k'
    rw [ainvOps_axes hk]
    by_cases hm : k' ∈ st.map (·.1)
    · rw [if_pos hm]
    · rw [if_neg hm]; funext i; unfold latPos; rw [if_neg hm]; rfl
  rw [e1, psub_id] at h3
  have h4 := congrFun h3 idx
  unfold psub at h4
  rw [h4]
  refine congrFun (congrArg (fun l => nest l F) ?_) idx
  apply List.ext_getElem
  · simp [lops, ainvOps]
  intro i h1 h2
  have hi : i < st.length := by simp [lops, hk] at h1; exact h1
  have hmem : st[i].1 ∈ st.map (·.1) := List.mem_map_of_mem (List.getElem_mem hi)
  obtain ⟨d1, d2, d3⟩ := hf.div (List.getElem_mem hi)
  simp only [List.getElem_map, List.getElem_zipWith, lops, ainvOps]
  rw [oddOp_sum (hr _ hmem) d2, ← d3]
  congr 2
  funext j
  unfold latPos
  rw [if_pos hmem]

end Pywt
