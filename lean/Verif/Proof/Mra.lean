import Verif.Model.Mra
import Verif.Proof.Fs
import Verif.Proof.Iswt
import Verif.Proof.SwtTop
import Mathlib.LinearAlgebra.Pi
import Mathlib.Algebra.BigOperators.Pi

/-! Multiresolution analysis: the components add up. -/

namespace Pywt

open Finset Spec

set_option linter.unusedSectionVars false

variable {R M : Type} [Ring R] [AddCommGroup M] [Module R M]

/-! ### Isolating one list of a list of lists -/

/-- All lists replaced by zeros except number `j`. -/
def isolate (ls : List (List M)) (j : ℕ) : List (List M) :=
  ls.mapIdx fun k l => if k = j then l else zeros l.length

theorem sum_isolate {recP : List (List (ℕ → M)) → List (ℕ → M)} {recM : List (List M) → List M}
    (hnat : ∀ (φ : (ℕ → M) →ₗ[R] M) (L : List (List (ℕ → M))),
      recM (L.map (List.map φ)) = (recP L).map φ) (ls : List (List M)) (n : ℕ) :
    ∑ j ∈ range ls.length, (recM (isolate ls j)).getD n 0 = (recM ls).getD n 0 := by
  let LL : List (List (ℕ → M)) := ls.mapIdx fun k l =>
    l.map (LinearMap.single R (fun _ : ℕ => M) k)
  have h1 : ∀ j, LL.map (List.map (LinearMap.proj (R := R) (φ := fun _ : ℕ => M) j)) =
      isolate ls j := by
    intro j
    apply List.ext_getElem (by simp [LL, isolate])
    intro k hk1 hk2
    simp only [LL, isolate, List.getElem_map, List.getElem_mapIdx, List.map_map]
    split
    · rename_i h; subst h
      apply List.ext_getElem (by simp)
      intro i _ _
      simp
    · rename_i h
      apply List.ext_getElem (by simp [zeros])
      intro i _ _
      simp [zeros, Ne.symm h]
  let σ : (ℕ → M) →ₗ[R] M :=
    ∑ j ∈ range ls.length, LinearMap.proj (R := R) (φ := fun _ : ℕ => M) j
  have h2 : LL.map (List.map σ) = ls := by
    apply List.ext_getElem (by simp [LL])
    intro k hk1 hk2
    simp only [LL, List.getElem_map, List.getElem_mapIdx, List.map_map]
    apply List.ext_getElem (by simp)
    intro i _ _
    simp [σ, Pi.single_apply, hk2]
  have h3 : ∀ φ : (ℕ → M) →ₗ[R] M, ((recP LL).map φ).getD n 0 = φ ((recP LL).getD n 0) := by
    intro φ
    rw [show (0 : M) = φ 0 by simp, List.getD_map]
  have h5 : recM ls = (recP LL).map σ := by rw [← hnat, h2]
  have h6 : ∀ j, recM (isolate ls j) =
      (recP LL).map (LinearMap.proj (R := R) (φ := fun _ : ℕ => M) j) := by
    intro j; rw [← hnat, h1]
  rw [h5, h3]
  simp only [h6, h3]
  simp [σ]

theorem isolate_eq_set {ls : List (List M)} {j : ℕ} (hj : j < ls.length) :
    (ls.map fun l => zeros l.length).set j ls[j] = isolate ls j := by
  apply List.ext_getElem (by simp [isolate])
  intro k h1 h2
  rw [List.getElem_set]
  simp only [isolate, List.getElem_mapIdx, List.getElem_map]
  by_cases h : j = k
  · subst h; simp
  · rw [if_neg h, if_neg (Ne.symm h)]

/-! ### The loop -/

theorem mraLoop_ok {A : Type} {inverse : List A → Py A} {trim : A → Py A} {zero : A → A}
    {wav zs : List A} {t : ℕ → A} (js : List ℕ) (acc : List A)
    (h : ∀ j ∈ js, ∃ hj : j < wav.length, ∃ r, zs[j]? = some (zero wav[j]) ∧
      inverse (zs.set j wav[j]) = .ok r ∧ trim r = .ok (t j)) :
    mraLoop inverse trim zero wav js zs acc = .ok (acc ++ js.map t) := by
  induction js generalizing acc with
  | nil => simp [mraLoop, Py_pure]
  | cons j js ih =>
    obtain ⟨hj, r, h1, h2, h3⟩ := h j (by simp)
    have h4 : (zs.set j wav[j]).set j (zero wav[j]) = zs := by
      rw [List.set_set]
      apply List.ext_getElem?
      intro k
      rw [List.getElem?_set]
      split
      · rename_i hjk; subst hjk
        have : j < zs.length := by
          rcases Nat.lt_or_ge j zs.length with h | h
          · exact h
          · rw [List.getElem?_eq_none h] at h1; simp at h1
        rw [if_pos this, h1]
      · rfl
    simp only [mraLoop, List.getElem?_eq_getElem hj, h2, h3, Py_bind_ok, h4]
    rw [ih _ fun k hk => h k (by simp [hk])]
    simp

/-! ### Sums of arrays -/

theorem Arr.add_ok {a b : Arr M} (h : b.shape = a.shape) :
    ∃ c, a.add b = .ok c ∧ c.shape = a.shape ∧ ∀ idx, c.get idx = a.get idx + b.get idx := by
  refine ⟨_, dif_pos h.symm, rfl, fun idx => ?_⟩
  simp only [Arr.get, h]
  generalize ravelIx a.shape idx a.shape.length = p
  have hl : a.data.length = b.data.length := by rw [a.ok, b.ok, h]
  by_cases hp : p < a.data.length
  · rw [List.getD_eq_getElem (hn := by simp; omega), List.getD_eq_getElem (hn := hp),
      List.getD_eq_getElem (hn := by omega)]
    simp
  · rw [List.getD_eq_default _ _ (by simp; omega), List.getD_eq_default _ _ (by omega),
      List.getD_eq_default _ _ (by omega), add_zero]

theorem foldAdd_ok (l : List (Arr M)) : ∀ a : Arr M, (∀ c ∈ l, c.shape = a.shape) →
    ∃ y, l.foldlM Arr.add a = .ok y ∧ y.shape = a.shape ∧
      ∀ idx, y.get idx = a.get idx + (l.map fun c => c.get idx).sum := by
  induction l with
  | nil => intro a _; exact ⟨a, rfl, rfl, by simp⟩
  | cons b l ih =>
    intro a h
    obtain ⟨c, c1, c2, c3⟩ := Arr.add_ok (h b (by simp))
    obtain ⟨y, y1, y2, y3⟩ := ih c fun d hd => by rw [c2]; exact h d (by simp [hd])
    refine ⟨y, ?_, by rw [y2, c2], fun idx => ?_⟩
    · rw [List.foldlM_cons, c1]; exact y1
    · rw [y3, c3, List.map_cons, List.sum_cons, add_assoc]

theorem imra_ok {l : List (Arr M)} {S : List ℕ} (hne : l ≠ []) (h : ∀ c ∈ l, c.shape = S) :
    ∃ y, imra l = .ok y ∧ y.shape = S ∧ ∀ idx, y.get idx = (l.map fun c => c.get idx).sum := by
  cases l with
  | nil => exact absurd rfl hne
  | cons a l =>
    have ha := h a (by simp)
    obtain ⟨y, y1, y2, y3⟩ := foldAdd_ok l a fun c hc => by rw [ha]; exact h c (by simp [hc])
    exact ⟨y, y1, by rw [y2, ha], by simpa using y3⟩

/-! ### `transform='dwt'` -/

/-- Shapes that `waverec` accepts. -/
def RecShapes (F : ℕ) (mode : Mode) (axis : ℤ) (ax : ℕ) : List (List ℕ) → Prop
  | [] => False
  | s :: ss => AxisIs s.length axis ax ∧ (∀ t ∈ ss, SameBut ax t s) ∧
      RecOk mode F (s.getD ax 0) (ss.map fun t => t.getD ax 0)

/-- The shape of the result. -/
def recShape (F : ℕ) (mode : Mode) (ax : ℕ) : List (List ℕ) → List ℕ
  | [] => []
  | s :: ss => s.set ax (recLen mode F (s.getD ax 0) (ss.map fun t => t.getD ax 0))

/-- `recombine` on a list. -/
def recAll (mode : Mode) (lo hi : List R) : List (List M) → List M
  | [] => []
  | a :: ds => recombine mode lo hi a ds

theorem recAll_map {M' : Type} [AddCommGroup M'] [Module R M'] (φ : M →ₗ[R] M') (mode : Mode)
    (lo hi : List R) (L : List (List M)) :
    recAll mode lo hi (L.map (List.map φ)) = (recAll mode lo hi L).map φ := by
  cases L with
  | nil => rfl
  | cons a ds => exact recombine_map φ mode lo hi a ds

theorem mraWaverec_ok {w : Wavelet R} (hw : w.Ok) {mode : Mode} {axis : ℤ} {ax : ℕ}
    {cs : List (Arr M)} (h : RecShapes w.rec_len mode axis ax (cs.map Arr.shape)) :
    ∃ y, mraWaverec w mode axis cs = .ok y ∧ waverecA w mode axis (cs.map some) = .ok (some y) ∧
      y.shape = recShape w.rec_len mode ax (cs.map Arr.shape) ∧
      ∀ idx : ℕ → ℕ, (∀ k < y.shape.length, k ≠ ax → idx k < y.shape.getD k 0) →
        y.line ax idx = recAll mode w.rec_lo w.rec_hi (cs.map fun c => c.line ax idx) := by
  cases cs with
  | nil => exact absurd h (by simp [RecShapes])
  | cons a ds =>
    obtain ⟨h1, h2, h3⟩ := h
    have hax : ax < a.shape.length := h1.2
    rw [List.map_map] at h3
    obtain ⟨y, y1, y2, y3⟩ := waverecALoop_ok hw ds a h1
      (fun d hd => h2 d.shape (List.mem_map_of_mem hd)) h3
    have hy : waverecA w mode axis ((a :: ds).map some) = .ok (some y) := by
      rw [← y1]
      cases ds <;> rfl
    refine ⟨y, ?_, hy, ?_, ?_⟩
    · unfold mraWaverec; rw [hy]; rfl
    · rw [y2]; simp only [recShape, List.map_cons, List.map_map]; rfl
    · intro idx hidx
      rw [y2, List.length_set] at hidx
      refine y3 idx fun k hk hka => ?_
      have := hidx k hk hka
      rwa [getD_set hax, if_neg hka] at this

theorem zerosLike_line (c : Arr M) (ax : ℕ) (idx : ℕ → ℕ) :
    c.zerosLike.line ax idx = zeros (c.line ax idx).length := by
  unfold Arr.line zeros
  rw [List.length_map, List.length_range]
  apply List.ext_getElem
  · simp [Arr.zerosLike]
  · intro j h1 h2
    simp [Arr.get, Arr.zerosLike, zeros, List.getD_eq_getElem?_getD, List.getElem?_replicate]
    split <;> rfl

/-- All arrays replaced by zeros except number `j`. -/
theorem isolateA_shape {cs : List (Arr M)} {j : ℕ} (hj : j < cs.length) :
    ((cs.map Arr.zerosLike).set j cs[j]).map Arr.shape = cs.map Arr.shape := by
  apply List.ext_getElem (by simp)
  intro k h1 h2
  rw [List.getElem_map, List.getElem_set]
  split
  · rename_i h; subst h; simp
  · simp [Arr.zerosLike]

theorem isolateA_line {cs : List (Arr M)} {j : ℕ} (hj : j < cs.length) (ax : ℕ) (idx : ℕ → ℕ) :
    ((cs.map Arr.zerosLike).set j cs[j]).map (fun c => c.line ax idx) =
      isolate (cs.map fun c => c.line ax idx) j := by
  rw [← isolate_eq_set (by simpa using hj), List.map_set, List.map_map, List.map_map,
    List.getElem_map]
  congr 1
  apply List.map_congr_left
  intro c _
  exact zerosLike_line c ax idx

theorem getSlices_crop {r : Arr M} {S : List ℕ} (hl : r.shape.length = S.length)
    (hle : ∀ k < S.length, S.getD k 0 ≤ r.shape.getD k 0) :
    ∃ b, r.getSlices (S.map fun s => ⟨0, some s⟩) = .ok b ∧ b.shape = S ∧ r.Extends b := by
  have hsl : SlFor r.shape (S.map fun s => (⟨0, some s⟩ : Slice)) (fun _ => 0) S := by
    refine ⟨by simp [hl], hl.symm, ?_⟩
    intro k hk
    have hk' : k < S.length := by omega
    have hle' := hle k hk'
    rw [List.getD_eq_getElem (hn := by simpa using hk'), List.getElem_map]
    rw [List.getD_eq_getElem (hn := hk')] at hle'
    constructor
    · simp [Slice.lo]
    · simp only [Slice.len, Slice.lo, Option.getD_some]
      rw [List.getD_eq_getElem (hn := hk')]
      omega
  have e : ¬ r.ndim < (S.map fun s => (⟨0, some s⟩ : Slice)).length := by
    simp [Arr.ndim, hl]
  refine ⟨Arr.ofFn S fun idx => r.get idx, ?_, rfl, ?_⟩
  · simp only [Arr.getSlices, if_neg e, Py_pure, sliceShape_eq hsl]
    congr 1
    refine Arr.ext_get rfl fun idx hidx => ?_
    simp only [Arr.shape_ofFn] at hidx
    rw [Arr.get_ofFn _ hidx, Arr.get_ofFn _ hidx]
    · refine r.get_congr fun k hk => ?_
      rw [sliceLo_eq hsl hk, Nat.zero_add]
    · intro f g hfg
      exact r.get_congr fun k hk => hfg k (by omega)
    · intro f g hfg
      exact r.get_congr fun k hk => by rw [hfg k (by omega)]
  · refine ⟨hl, hle, fun idx hidx => ?_⟩
    have hidx' : InB S idx := hidx
    rw [Arr.get_ofFn _ hidx']
    intro f g hfg
    exact r.get_congr fun k hk => hfg k (by omega)

theorem mraTrim_ok {x r : Arr M} (hl : r.shape.length = x.shape.length)
    (hle : ∀ k < x.shape.length, x.shape.getD k 0 ≤ r.shape.getD k 0) :
    ∃ b, mraTrim x r = .ok b ∧ b.shape = x.shape ∧ r.Extends b := by
  unfold mraTrim
  by_cases h : r.shape = x.shape
  · rw [if_neg (by simpa using h)]
    exact ⟨r, rfl, h, rfl, fun _ _ => le_rfl, fun _ _ => rfl⟩
  · rw [if_pos h]
    exact getSlices_crop hl hle

theorem sum_map_range (n : ℕ) (f : ℕ → M) : ((List.range n).map f).sum = ∑ j ∈ range n, f j :=
  (Finset.sum_range_induction f (fun n => ((List.range n).map f).sum) (by simp)
    n (fun k _ => by simp [List.range_succ])).symm

/-- The components of a list of coefficient arrays whose reconstruction covers `x`. -/
theorem mraLoop_dwt {w : Wavelet R} (hw : w.Ok) {mode : Mode} {axis : ℤ} {ax : ℕ}
    {x : Arr M} {cs : List (Arr M)}
    (h : RecShapes w.rec_len mode axis ax (cs.map Arr.shape))
    (hl : (recShape w.rec_len mode ax (cs.map Arr.shape)).length = x.shape.length)
    (hle : ∀ k < x.shape.length,
      x.shape.getD k 0 ≤ (recShape w.rec_len mode ax (cs.map Arr.shape)).getD k 0) :
    ∃ (t : ℕ → Arr M) (y : Arr M),
      mraLoop (mraWaverec w mode axis) (mraTrim x) Arr.zerosLike cs (List.range cs.length)
        (cs.map Arr.zerosLike) [] = .ok ((List.range cs.length).map t) ∧
      waverecA w mode axis (cs.map some) = .ok (some y) ∧
      (∀ j, (hj : j < cs.length) → (t j).shape = x.shape ∧
        ∃ r, waverecA w mode axis (((cs.map Arr.zerosLike).set j cs[j]).map some) = .ok (some r) ∧
          r.Extends (t j)) ∧
      ∀ idx, InB x.shape idx → ∑ j ∈ range cs.length, (t j).get idx = y.get idx := by
  have key : ∀ j, ∃ t : Arr M, (hj : j < cs.length) → t.shape = x.shape ∧
      ∃ r, mraWaverec w mode axis ((cs.map Arr.zerosLike).set j cs[j]) = .ok r ∧
        waverecA w mode axis (((cs.map Arr.zerosLike).set j cs[j]).map some) = .ok (some r) ∧
        r.shape = recShape w.rec_len mode ax (cs.map Arr.shape) ∧
        mraTrim x r = .ok t ∧ r.Extends t ∧
        ∀ idx : ℕ → ℕ, (∀ k < r.shape.length, k ≠ ax → idx k < r.shape.getD k 0) →
          r.line ax idx = recAll mode w.rec_lo w.rec_hi
            (isolate (cs.map fun c => c.line ax idx) j) := by
    intro j
    by_cases hj : j < cs.length
    · obtain ⟨r, r1, r2, r3, r4⟩ := mraWaverec_ok hw
        (cs := (cs.map Arr.zerosLike).set j cs[j]) (by rw [isolateA_shape hj]; exact h)
      rw [isolateA_shape hj] at r3
      obtain ⟨b, b1, b2, b3⟩ := mraTrim_ok (x := x) (r := r) (by rw [r3, hl]) (by rw [r3]; exact hle)
      refine ⟨b, fun _ => ⟨b2, r, r1, r2, r3, b1, b3, fun idx hidx => ?_⟩⟩
      rw [r4 idx hidx, isolateA_line hj]
    · exact ⟨x, fun hj' => absurd hj' hj⟩
  choose t ht using key
  obtain ⟨y, -, y1, y2, y3⟩ := mraWaverec_ok hw (cs := cs) h
  have hax : ax < y.shape.length := by
    rw [y2]
    cases cs with
    | nil => exact absurd h (by simp [RecShapes])
    | cons a ds => simpa [recShape] using h.1.2
  refine ⟨t, y, ?_, y1, fun j hj => ?_, fun idx hidx => ?_⟩
  · rw [mraLoop_ok (t := t)]
    · simp
    · intro j hj
      have hj : j < cs.length := by simpa using hj
      obtain ⟨-, r, r1, -, -, r4, -⟩ := ht j hj
      exact ⟨hj, r, by simp [hj], r1, r4⟩
  · obtain ⟨h1, r, -, h3, -, -, h6, -⟩ := ht j hj
    exact ⟨h1, r, h3, h6⟩
  · have hoff : ∀ k < y.shape.length, k ≠ ax → idx k < y.shape.getD k 0 := by
      intro k hk _
      rw [y2] at hk ⊢
      exact lt_of_lt_of_le (hidx k (by omega)) (hle k (by omega))
    have hget : ∀ r : Arr M, r.shape = y.shape → r.get idx = (r.line ax idx).getD (idx ax) 0 := by
      intro r hr
      have hi : idx ax < r.shape.getD ax 0 := by
        rw [hr, y2]
        rw [y2, hl] at hax
        exact lt_of_lt_of_le (hidx ax hax) (hle ax hax)
      rw [List.getD_eq_getElem (hn := by rw [Arr.line_length]; exact hi), Arr.line_getElem,
        Function.update_eq_self]
    rw [hget y rfl, y3 idx hoff, ← sum_isolate (R := R) (recP := recAll mode w.rec_lo w.rec_hi)
      (fun φ L => recAll_map φ mode w.rec_lo w.rec_hi L), List.length_map]
    apply sum_congr rfl
    intro j hj
    rw [mem_range] at hj
    obtain ⟨h1, r, -, -, h4, -, h6, h7⟩ := ht j hj
    have hr : r.shape = y.shape := by rw [h4, y2]
    rw [← h7 idx (by rw [hr]; exact hoff), ← hget r hr]
    exact (h6.2.2 idx (by rw [h1]; exact hidx)).symm

end Pywt

namespace Pywt

open Finset Spec

set_option linter.unusedSectionVars false

variable {R M : Type} [Ring R] [AddCommGroup M] [Module R M]

/-! ### `transform='swt'` -/

theorem swt_trimmed_is {w : Wavelet R} (hw : w.Ok) {level : Option ℤ} {norm : Option R}
    {x : List M} {r : SwtCoeffs (List M)} (h : swt w level 0 true norm x = .ok r) :
    ∃ l, 1 ≤ l ∧ 1 ≤ x.length ∧ 2 ^ l ∣ x.length ∧
      r = .trimmed (swtApprox (w.normed norm).dec_lo 0 x l ::
        ((List.range l).map fun j =>
          swtDetail (w.normed norm).dec_lo (w.normed norm).dec_hi 0 x j).reverse) := by
  have key : ∀ l : ℕ, swt w (some (l : ℤ)) ((0 : ℕ) : ℤ) true norm x = .ok r →
      ∃ l, 1 ≤ l ∧ 1 ≤ x.length ∧ 2 ^ l ∣ x.length ∧
      r = .trimmed (swtApprox (w.normed norm).dec_lo 0 x l ::
        ((List.range l).map fun j =>
          swtDetail (w.normed norm).dec_lo (w.normed norm).dec_hi 0 x j).reverse) := by
    intro l h
    rw [swt_eq hw] at h
    split at h
    swap
    · simp at h
    rename_i hc
    simp only [Except.ok.injEq, swtResult, if_true, zero_add] at h hc
    exact ⟨l, hc.1, hc.2.1, hc.2.2, h.symm⟩
  cases level with
  | none =>
    rcases Nat.eq_zero_or_pos x.length with h0 | h0
    · have : swtMaxLevel x.length = .error .value := by
        unfold swtMaxLevel
        rw [if_pos (by omega)]
      unfold swt at h
      rw [this] at h
      simp at h
    · rw [show (0 : ℤ) = ((0 : ℕ) : ℤ) from rfl, swt_none_eq 0 true norm h0] at h
      exact key _ h
  | some l =>
    rcases lt_or_ge l 0 with hl | hl
    · unfold swt at h
      simp only [if_pos hl] at h
      simp [Py_throw] at h
    · obtain ⟨l, rfl⟩ := Int.eq_ofNat_of_zero_le hl
      exact key l h

variable [Invertible (2 : R)]

/-- `iswtCascade` on a list. -/
def iswtAll (lo hi : List R) : List (List M) → List M
  | [] => []
  | a :: ds => iswtCascade lo hi ds a

theorem iswtAll_map {M' : Type} [AddCommGroup M'] [Module R M'] (φ : M →ₗ[R] M') (lo hi : List R)
    (L : List (List M)) : iswtAll lo hi (L.map (List.map φ)) = (iswtAll lo hi L).map φ := by
  cases L with
  | nil => rfl
  | cons a ds => exact iswtCascade_map φ lo hi ds a

theorem iswt_trimmed {w : Wavelet R} (hw : w.Ok) (norm : Option R) {cs : List (List M)} {N : ℕ}
    (hne : cs ≠ []) (hN : 1 ≤ N) (hl : ∀ c ∈ cs, c.length = N) (hd : 2 ^ (cs.length - 1) ∣ N) :
    iswt w norm (.trimmed cs) = .ok (iswtAll (w.normed norm).rec_lo (w.normed norm).rec_hi cs) := by
  cases cs with
  | nil => exact absurd rfl hne
  | cons a ds =>
    have ha := hl a (by simp)
    exact iswtLoop_gen (hw.normed norm) ds a (by omega) (by rw [ha]; simpa using hd)
      fun d hd => by rw [ha]; exact hl d (by simp [hd])

theorem iswtAll_length (lo hi : List R) {cs : List (List M)} {N : ℕ}
    (hne : cs ≠ []) (hl : ∀ c ∈ cs, c.length = N) : (iswtAll lo hi cs).length = N := by
  cases cs with
  | nil => exact absurd rfl hne
  | cons a ds =>
    have ha := hl a (by simp)
    rw [iswtAll, iswtCascade_length _ _ _ _ fun d hd => by rw [ha]; exact hl d (by simp [hd]), ha]

theorem isolate_lengths {cs : List (List M)} {N : ℕ} (hl : ∀ c ∈ cs, c.length = N) (j : ℕ) :
    ∀ c ∈ isolate cs j, c.length = N := by
  intro c hc
  rw [List.mem_iff_getElem] at hc
  obtain ⟨k, hk, rfl⟩ := hc
  have hk' : k < cs.length := by simpa [isolate] using hk
  have := hl cs[k] (List.getElem_mem hk')
  simp only [isolate, List.getElem_mapIdx]
  split
  · exact this
  · simp [zeros, this]

theorem mraLoop_swt {w : Wavelet R} (hw : w.Ok) (norm : Option R) {x : List M}
    {cs : List (List M)} (hne : cs ≠ []) (hN : 1 ≤ x.length) (hl : ∀ c ∈ cs, c.length = x.length)
    (hd : 2 ^ (cs.length - 1) ∣ x.length) :
    mraLoop (fun tmp => iswt w norm (.trimmed tmp)) (mraTrim1 x) (fun _ => zeros x.length) cs
      (List.range cs.length) (List.replicate cs.length (zeros x.length)) [] =
      .ok ((List.range cs.length).map fun j =>
        iswtAll (w.normed norm).rec_lo (w.normed norm).rec_hi (isolate cs j)) := by
  rw [mraLoop_ok (t := fun j =>
        iswtAll (w.normed norm).rec_lo (w.normed norm).rec_hi (isolate cs j))]
  · simp
  · intro j hj
    have hj : j < cs.length := by simpa using hj
    have hne' : isolate cs j ≠ [] := by
      intro h0
      apply hne
      rw [← List.length_eq_zero_iff] at h0 ⊢
      simpa [isolate] using h0
    have hil := isolate_lengths hl j
    refine ⟨hj, iswtAll (w.normed norm).rec_lo (w.normed norm).rec_hi (isolate cs j), ?_, ?_, ?_⟩
    · simp [hj]
    · have : List.replicate cs.length (zeros x.length : List M) =
          cs.map fun l => zeros l.length := by
        symm
        rw [List.eq_replicate_iff]
        refine ⟨by simp, ?_⟩
        · intro b hb
          rw [List.mem_map] at hb
          obtain ⟨c, hc, rfl⟩ := hb
          rw [hl c hc]
      rw [this, isolate_eq_set hj]
      exact iswt_trimmed hw norm hne' hN hil (by simpa [isolate] using hd)
    · unfold mraTrim1
      rw [if_neg (by rw [iswtAll_length _ _ hne' hil]; simp)]
      rfl

/-! ### Heaps -/

theorem heapRead_append {h : List (Arr M)} {r : ℕ} {a : Arr M} (ha : h[r]? = some a)
    (t : List (Arr M)) : (h ++ t)[r]? = some a := by
  have : r < h.length := by
    rcases Nat.lt_or_ge r h.length with h' | h'
    · exact h'
    · rw [List.getElem?_eq_none h'] at ha; simp at ha
  rw [List.getElem?_append_left this, ha]

theorem heapAdd_fold (l : List ℕ) : ∀ (arrs : List (Arr M)) (h : List (Arr M)) (a : ℕ) (v y : Arr M),
    h[a]? = some v → l.map (h[·]?) = arrs.map some → arrs.foldlM Arr.add v = .ok y →
    ∃ t r, l.foldlM Heap.add (h, a) = .ok (h ++ t, r) ∧ (h ++ t)[r]? = some y ∧
      (l ≠ [] → h.length ≤ r) := by
  induction l with
  | nil =>
    intro arrs h a v y hv hl hy
    have : arrs = [] := by simpa using hl.symm
    subst this
    simp only [List.foldlM_nil, Py_pure, Except.ok.injEq] at hy
    subst hy
    exact ⟨[], a, by simp [Py_pure], by simpa using hv, fun h => absurd rfl h⟩
  | cons b l ih =>
    intro arrs h a v y hv hl hy
    cases arrs with
    | nil => simp at hl
    | cons u arrs =>
      simp only [List.map_cons, List.cons.injEq] at hl
      rw [List.foldlM_cons] at hy
      cases hc : v.add u with
      | error e => rw [hc] at hy; simp at hy
      | ok c =>
        rw [hc] at hy
        simp only [Py_bind_ok] at hy
        have hl2 : l.map ((h ++ [c])[·]?) = arrs.map some := by
          rw [← hl.2]
          apply List.map_congr_left
          intro k hk
          have : h[k]? ∈ arrs.map some := by rw [← hl.2]; exact List.mem_map_of_mem hk
          obtain ⟨z, -, hz⟩ := List.mem_map.mp this
          rw [heapRead_append hz.symm, hz]
        obtain ⟨t, r, t1, t2, t3⟩ := ih arrs (h ++ [c]) h.length c y (by simp) hl2 hy
        refine ⟨c :: t, r, ?_, by simpa using t2, fun _ => ?_⟩
        · rw [List.foldlM_cons]
          simp only [Heap.add, Heap.read, hv, hl.1, Py_bind_ok, hc, Py_pure]
          rw [t1]
          simp
        · by_cases h0 : l = []
          · subst h0
            simp only [List.foldlM_nil, Py_pure, Except.ok.injEq, Prod.mk.injEq] at t1
            omega
          · have := t3 h0
            simp at this
            omega

theorem heapIadd_fold (a : ℕ) (ds : List ℕ) : ∀ (arrs : List (Arr M)) (h : List (Arr M)) (v y : Arr M),
    a ∉ ds → h[a]? = some v → ds.map (h[·]?) = arrs.map some → arrs.foldlM Arr.add v = .ok y →
    ds.foldlM (Heap.iadd a) h = .ok (h.set a y) := by
  induction ds with
  | nil =>
    intro arrs h v y _ hv hl hy
    have : arrs = [] := by simpa using hl.symm
    subst this
    simp only [List.foldlM_nil, Py_pure, Except.ok.injEq] at hy ⊢
    subst hy
    apply List.ext_getElem?
    intro k
    rw [List.getElem?_set]
    split
    · rename_i hk; subst hk
      rw [hv]
      have : a < h.length := by
        rcases Nat.lt_or_ge a h.length with h' | h'
        · exact h'
        · rw [List.getElem?_eq_none h'] at hv; simp at hv
      rw [if_pos this]
    · rfl
  | cons b ds ih =>
    intro arrs h v y hn hv hl hy
    have ha : a < h.length := by
      rcases Nat.lt_or_ge a h.length with h' | h'
      · exact h'
      · rw [List.getElem?_eq_none h'] at hv; simp at hv
    cases arrs with
    | nil => simp at hl
    | cons u arrs =>
      simp only [List.map_cons, List.cons.injEq] at hl
      rw [List.foldlM_cons] at hy
      cases hc : v.add u with
      | error e => rw [hc] at hy; simp at hy
      | ok c =>
        rw [hc] at hy
        simp only [Py_bind_ok] at hy
        have hl2 : ds.map ((h.set a c)[·]?) = arrs.map some := by
          rw [← hl.2]
          apply List.map_congr_left
          intro k hk
          rw [List.getElem?_set_ne]
          rintro rfl
          exact hn (by simp [hk])
        have := ih arrs (h.set a c) c y (fun h' => hn (by simp [h'])) (by simp [ha]) hl2 hy
        rw [List.foldlM_cons]
        simp only [Heap.iadd, Heap.read, hv, hl.1, Py_bind_ok, hc, Py_pure]
        rw [this, List.set_set]

end Pywt
