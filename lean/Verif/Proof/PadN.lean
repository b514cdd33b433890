import Verif.Proof.Pad
import Verif.Proof.Lin
import Verif.Model.PadN
import Verif.Spec.PadN
import Verif.Proof.AxisMulti
import Verif.Proof.IswtAxis
import Mathlib.Algebra.Module.Pi

/-! `pad` on n-D arrays. -/

namespace Pywt

open Finset Spec

set_option linter.unusedSectionVars false

variable {M : Type} [AddCommGroup M]

/-! ### The extension exists and is unique -/

theorem laws_map {M' : Type} [AddCommGroup M'] (φ : M →ₗ[ℤ] M') {mode : Mode} {x : List M} (h : LenOk mode x.length)
    {e : ℤ → M} (he : ExtLaws mode x e) : ExtLaws mode (x.map φ) fun t => φ (e t) := by
  rw [laws_unique h he (ext_laws h)]
  have : (fun t => φ (Spec.ext mode x t)) = Spec.ext mode (x.map φ) := by
    funext t
    rw [ext_map]
  rw [this]
  exact ext_laws (by simpa using h)

/-- Laws that hold in every component hold for functions. -/
theorem laws_pi {ι : Type} {mode : Mode} {x : List (ι → M)} (h : LenOk mode x.length) {e : ℤ → ι → M}
    (he : ∀ i, ExtLaws mode (x.map fun v => v i) fun t => e t i) : ExtLaws mode x e := by
  have : e = Spec.ext mode x := by
    funext t i
    have h1 := laws_unique (by simpa using h) (he i) (ext_laws (by simpa using h))
    have h2 := ext_map (LinearMap.proj (R := ℤ) (φ := fun _ : ι => M) i) mode x t
    exact (congrFun h1 t).trans h2
  rw [this]
  exact ext_laws h

/-- The extension at a position, as a linear map of the samples. -/
def extLin (mode : Mode) (n : ℕ) (p : ℤ) : (ℕ → M) →ₗ[ℤ] M where
  toFun v := Spec.ext mode ((List.range n).map v) p
  map_add' v w := by
    have h := fun (φ : M × M →ₗ[ℤ] M) => ext_map φ mode ((List.range n).map fun i => (v i, w i)) p
    have h1 := h (LinearMap.fst ℤ M M)
    have h2 := h (LinearMap.snd ℤ M M)
    have h3 := h (LinearMap.fst ℤ M M + LinearMap.snd ℤ M M)
    simp only [List.map_map, Function.comp_def, LinearMap.fst_apply, LinearMap.snd_apply, LinearMap.add_apply] at h1 h2 h3
    simp only [Pi.add_def]
    rw [h1, h2, h3]
  map_smul' c v := by
    have h := ext_map (c • LinearMap.id (R := ℤ) (M := M)) mode ((List.range n).map v) p
    simp only [List.map_map, Function.comp_def, LinearMap.smul_apply, LinearMap.id_apply] at h
    simp only [RingHom.id_apply, Pi.smul_def]
    exact h

/-- The extension along one axis. -/
def extAlong (mode : Mode) (n k : ℕ) (f : (ℕ → ℤ) → M) (p : ℕ → ℤ) : M :=
  extLin (M := M) mode n (p k) fun i => f (Function.update p k i)

/-- The extension along the axes below `j`. -/
def extN (modes : ℕ → Mode) (x : Arr M) : ℕ → (ℕ → ℤ) → M
  | 0 => fun p => x.get fun k => (p k).toNat
  | j + 1 => extAlong (modes j) (x.shape.getD j 0) j (extN modes x j)

theorem extN_local (modes : ℕ → Mode) (x : Arr M) (j : ℕ) : ∀ p q : ℕ → ℤ, (∀ k < x.shape.length, p k = q k) →
    j ≤ x.shape.length → extN modes x j p = extN modes x j q := by
  induction j with
  | zero =>
    intro p q h _
    exact x.get_congr fun k hk => by rw [h k hk]
  | succ j ih =>
    intro p q h hj
    simp only [extN, extAlong]
    rw [h j (by omega)]
    congr 1
    funext i
    apply ih _ _ _ (by omega)
    intro k hk
    by_cases hkj : k = j
    · subst hkj; simp
    · rw [Function.update_of_ne hkj, Function.update_of_ne hkj, h k hk]

theorem extN_in {modes : ℕ → Mode} {x : Arr M} {idx : ℕ → ℕ} (h : InB x.shape idx) (j : ℕ) (hj : j ≤ x.shape.length) :
    extN modes x j (fun k => (idx k : ℤ)) = x.get idx := by
  induction j with
  | zero => simp [extN]
  | succ j ih =>
    have hlt := h j (by omega)
    change Spec.ext (modes j) ((List.range (x.shape.getD j 0)).map fun i : ℕ =>
      extN modes x j (Function.update (fun k => (idx k : ℤ)) j (i : ℤ))) ((idx j : ℕ) : ℤ) = _
    rw [ext_in _ _ (by simpa using hlt), List.getD_eq_getElem _ _ (by simpa using hlt)]
    simp only [List.getElem_map, List.getElem_range]
    rw [Function.update_eq_self_iff.2 rfl]
    exact ih (by omega)

theorem extN_laws {modes : ℕ → Mode} {x : Arr M} (hx : ShapeOk modes x.shape) (j : ℕ) (hj : j ≤ x.shape.length) :
    ∀ k < j, ∀ p : ℕ → ℤ,
    ExtLaws (modes k) ((List.range (x.shape.getD k 0)).map fun i : ℕ => extN modes x j (Function.update p k i))
      (fun t => extN modes x j (Function.update p k t)) := by
  induction j with
  | zero => intro k hk; omega
  | succ j ih =>
    intro k hk p
    have hlen := hx k (by omega)
    by_cases hkj : k = j
    · subst hkj
      have key : (fun t => extN modes x (k + 1) (Function.update p k t)) =
          Spec.ext (modes k) ((List.range (x.shape.getD k 0)).map fun i : ℕ => extN modes x k (Function.update p k i)) := by
        funext t
        simp only [extN, extAlong, extLin, Function.update_self, Function.update_idem]
        rfl
      have hl : ((List.range (x.shape.getD k 0)).map fun i : ℕ => extN modes x (k + 1) (Function.update p k i)) =
          (List.range (x.shape.getD k 0)).map fun i : ℕ => extN modes x k (Function.update p k i) := by
        apply List.map_congr_left
        intro i hi
        rw [List.mem_range] at hi
        rw [show extN modes x (k + 1) (Function.update p k (i : ℤ)) = _ from congrFun key (i : ℤ), ext_in _ _ (by simpa using hi), List.getD_eq_getElem _ _ (by simpa using hi)]
        simp
      rw [key, hl]
      exact ext_laws (by simpa using hlen)
    · have hG := laws_pi (mode := modes k) (x := (List.range (x.shape.getD k 0)).map fun i : ℕ => fun i' : ℕ =>
          extN modes x j (Function.update (Function.update p j (i' : ℤ)) k (i : ℤ)))
        (e := fun t i' => extN modes x j (Function.update (Function.update p j (i' : ℤ)) k t)) (by simpa using hlen)
        (by
          intro i'
          simpa [List.map_map, Function.comp_def] using ih (by omega) k (by omega) (Function.update p j (i' : ℤ)))
      have hL := laws_map (extLin (M := M) (modes j) (x.shape.getD j 0) (p j)) (by simpa using hlen) hG
      have e1 : ∀ t : ℤ, extN modes x (j + 1) (Function.update p k t) =
          extLin (M := M) (modes j) (x.shape.getD j 0) (p j) fun i' : ℕ =>
            extN modes x j (Function.update (Function.update p j (i' : ℤ)) k t) := by
        intro t
        simp only [extN, extAlong]
        rw [Function.update_of_ne (Ne.symm hkj)]
        congr 1
        funext i'
        rw [Function.update_comm (Ne.symm hkj)]
      simp only [e1]
      rw [List.map_map] at hL
      exact hL

theorem extN_extends {modes : ℕ → Mode} {x : Arr M} (hx : ShapeOk modes x.shape) :
    ExtLawsN modes x (extN modes x x.shape.length) :=
  ⟨fun p q h => extN_local modes x _ p q h le_rfl, fun _ h => extN_in h _ le_rfl, extN_laws hx _ le_rfl⟩

theorem lawsN_unique {modes : ℕ → Mode} {x : Arr M} (hx : ShapeOk modes x.shape) {e e' : (ℕ → ℤ) → M}
    (he : ExtLawsN modes x e) (he' : ExtLawsN modes x e') : e = e' := by
  obtain ⟨hl, hb, h⟩ := he
  obtain ⟨hl', hb', h'⟩ := he'
  -- equal at points whose coordinates at and above `j` lie in the array
  have key : ∀ j ≤ x.shape.length, ∀ p : ℕ → ℤ, (∀ k < x.shape.length, j ≤ k → 0 ≤ p k ∧ p k < x.shape.getD k 0) →
      e p = e' p := by
    intro j
    induction j with
    | zero =>
      intro _ p hp
      have e1 : e p = e (fun k => (((p k).toNat : ℕ) : ℤ)) := hl _ _ fun k hk => by have := hp k hk (Nat.zero_le _); omega
      have e2 : e' p = e' (fun k => (((p k).toNat : ℕ) : ℤ)) := hl' _ _ fun k hk => by have := hp k hk (Nat.zero_le _); omega
      have hin : InB x.shape fun k => (p k).toNat := fun k hk => by
        have := hp k hk (Nat.zero_le _)
        simp only
        omega
      rw [e1, e2, hb _ hin, hb' _ hin]
    | succ j ih =>
      intro hj p hp
      have hlen := hx j (by omega)
      have a := h j (by omega) p
      have b := h' j (by omega) p
      have heq : ((List.range (x.shape.getD j 0)).map fun i : ℕ => e (Function.update p j i)) =
          (List.range (x.shape.getD j 0)).map fun i : ℕ => e' (Function.update p j i) := by
        apply List.map_congr_left
        intro i hi
        rw [List.mem_range] at hi
        apply ih (by omega)
        intro k hk hjk
        by_cases hkj : k = j
        · subst hkj; rw [Function.update_self]; omega
        · rw [Function.update_of_ne hkj]; exact hp k hk (by omega)
      rw [heq] at a
      have := congrFun (laws_unique (by simpa using hlen) a b) (p j)
      simpa using this
  funext p
  exact key _ le_rfl p fun k hk hk' => by omega

/-! ### `numpy.pad` -/

/-- The array `a` holds the values of `e` from the corner `-o` on. -/
def IsWin (e : (ℕ → ℤ) → M) (n : ℕ) (s o : ℕ → ℕ) (a : Arr M) : Prop :=
  a.shape = (List.range n).map s ∧ ∀ idx, (∀ k < n, idx k < s k) → a.get idx = e fun k => (idx k : ℤ) - o k

theorem range_map_getD (n : ℕ) (s : ℕ → ℕ) {k : ℕ} (hk : k < n) : ((List.range n).map s).getD k 0 = s k := by
  rw [List.getD_eq_getElem _ _ (by simpa using hk)]
  simp

theorem range_map_set (n : ℕ) (s : ℕ → ℕ) (k v : ℕ) :
    ((List.range n).map s).set k v = (List.range n).map (Function.update s k v) := by
  apply List.ext_getElem (by simp)
  intro i h1 h2
  simp only [List.getElem_set, List.getElem_map, List.getElem_range]
  by_cases hik : k = i
  · subst hik; simp
  · rw [if_neg hik, Function.update_of_ne (Ne.symm hik)]

/-- `numpy.pad` extends every line of `e` along the axis as `e` does. -/
def LineOk (m : NpMode) (e : (ℕ → ℤ) → M) (k N l r : ℕ) : Prop :=
  1 ≤ N ∧ ∀ p : ℕ → ℤ, npPad m ((List.range N).map fun i : ℕ => e (Function.update p k i)) l r =
    .ok (window (fun t => e (Function.update p k t)) l (l + N + r))

theorem Arr.vec_eq (a : Arr M) (axis : ℕ) (idx : ℕ → ℕ) : a.vec axis idx = a.line axis idx := by
  unfold Arr.vec Arr.line
  apply List.map_congr_left
  intro j _
  congr 1
  funext k
  simp [Function.update_apply]

theorem npPadAxis_win {e : (ℕ → ℤ) → M} {n : ℕ} (hl : ∀ p q : ℕ → ℤ, (∀ k < n, p k = q k) → e p = e q)
    {s o : ℕ → ℕ} {a : Arr M} (ha : IsWin e n s o a) {m : NpMode} {k l r : ℕ} (hk : k < n) (ho : o k = 0)
    (h : LineOk m e k (s k) l r) :
    ∃ a', npPadAxis m k l r a = .ok a' ∧
      IsWin e n (Function.update s k (l + s k + r)) (Function.update o k l) a' := by
  obtain ⟨h1, h2⟩ := h
  obtain ⟨hsh, hget⟩ := ha
  have hN : a.shape.getD k 0 = s k := by rw [hsh, range_map_getD _ _ hk]
  unfold npPadAxis
  simp only [hN]
  rw [if_neg (by omega)]
  refine ⟨_, rfl, by simp only [Arr.shape_ofFn]; rw [hsh, range_map_set], ?_⟩
  intro idx hidx
  rw [Arr.get_ofFn]
  · set p : ℕ → ℤ := fun j => (idx j : ℤ) - o j with hp
    have hline : a.vec k idx = (List.range (s k)).map fun i : ℕ => e (Function.update p k i) := by
      unfold Arr.vec
      rw [hN]
      apply List.map_congr_left
      intro i hi
      rw [List.mem_range] at hi
      rw [hget]
      · apply hl
        intro j _
        by_cases hjk : j = k
        · subst hjk; simp [ho]
        · simp [hjk, hp]
      · intro j hj
        by_cases hjk : j = k
        · subst hjk; simpa using hi
        · have := hidx j hj
          rw [Function.update_of_ne hjk] at this
          simpa [hjk] using this
    have h3 := h2 p
    rw [← hline] at h3
    unfold npPad at h3
    have hvl : (a.vec k idx).length = s k := by rw [hline]; simp
    rw [hvl, if_neg (by omega)] at h3
    simp only [Except.ok.injEq] at h3
    have hik := hidx k hk
    rw [Function.update_self] at hik
    have h4 := congrArg (fun v => v.getD (idx k) 0) h3
    rw [window_getD _ _ hik, List.getD_eq_getElem _ _ (by simpa using hik)] at h4
    simp only [List.getElem_map, List.getElem_range] at h4
    rw [h4]
    apply hl
    intro j _
    by_cases hjk : j = k
    · subst hjk; simp
    · simp [hjk, hp]
  · intro f g hfg
    have hlen : (a.shape.set k (l + s k + r)).length = n := by simp [hsh]
    rw [hlen] at hfg
    simp only
    rw [hfg k hk]
    congr 1
    rw [Arr.vec_eq, Arr.vec_eq]
    apply a.line_congr
    intro j hj _
    exact hfg j (by simpa [hsh] using hj)
  · intro j hj
    have hjn : j < n := by simpa [hsh] using hj
    rw [hsh, range_map_set, range_map_getD _ _ hjn]
    exact hidx j hjn

theorem npPadLoop_win {e : (ℕ → ℤ) → M} {n : ℕ} (hl : ∀ p q : ℕ → ℤ, (∀ k < n, p k = q k) → e p = e q)
    {m : NpMode} (s : ℕ → ℕ) (W : ℕ → ℕ × ℕ) (h : ∀ k < n, LineOk m e k (s k) (W k).1 (W k).2) (d : ℕ) :
    ∀ k a, k + d = n →
    IsWin e n (fun j => if j < k then (W j).1 + s j + (W j).2 else s j) (fun j => if j < k then (W j).1 else 0) a →
    ∃ a', npPadLoop m k ((List.range' k d).map W) a = .ok a' ∧
      IsWin e n (fun j => if j < n then (W j).1 + s j + (W j).2 else s j) (fun j => if j < n then (W j).1 else 0) a' := by
  induction d with
  | zero =>
    intro k a hk ha
    have : k = n := by omega
    subst this
    exact ⟨a, rfl, ha⟩
  | succ d ih =>
    intro k a hk ha
    have hkn : k < n := by omega
    have h0 := h k hkn
    obtain ⟨a', e1, hw⟩ := npPadAxis_win hl ha (m := m) (l := (W k).1) (r := (W k).2) hkn (by simp) (by simpa using h0)
    rw [List.range'_succ, List.map_cons]
    simp only [npPadLoop]
    rw [e1, Py_bind_ok]
    apply ih (k + 1) a' (by omega)
    convert hw using 1
    · funext j
      by_cases hj : j = k
      · subst hj; simp
      · rw [Function.update_of_ne hj]
        by_cases hjk : j < k
        · simp [hjk, show j < k + 1 by omega]
        · simp [hjk, show ¬ j < k + 1 by omega]
    · funext j
      by_cases hj : j = k
      · subst hj; simp
      · rw [Function.update_of_ne hj]
        by_cases hjk : j < k
        · simp [hjk, show j < k + 1 by omega]
        · simp [hjk, show ¬ j < k + 1 by omega]

theorem isWin_self {modes : ℕ → Mode} {x : Arr M} {e : (ℕ → ℤ) → M} (he : ExtLawsN modes x e) :
    IsWin e x.shape.length (fun j => x.shape.getD j 0) (fun _ => 0) x := by
  refine ⟨?_, fun idx h => ?_⟩
  · apply List.ext_getElem (by simp)
    intro i h1 h2
    rw [List.getElem_map, List.getElem_range, List.getD_eq_getElem _ _ h1]
  · rw [← he.2.1 idx h]
    simp

theorem isWin_eq {e : (ℕ → ℤ) → M} {n : ℕ} (hl : ∀ p q : ℕ → ℤ, (∀ k < n, p k = q k) → e p = e q) {s o : ℕ → ℕ}
    {a : Arr M} (h : IsWin e n s o a) : a = windowN e o ((List.range n).map s) := by
  apply Arr.ext_get h.1
  intro idx hidx
  have hi : ∀ k < n, idx k < s k := by
    intro k hk
    have := hidx k (by rw [h.1]; simpa using hk)
    rwa [h.1, range_map_getD _ _ hk] at this
  unfold windowN
  rw [Arr.get_ofFn, h.2 idx hi]
  · intro f g hfg
    simp only [List.length_map, List.length_range] at hfg
    exact hl _ _ fun k hk => by rw [hfg k hk]
  · rw [← h.1]; exact hidx

theorem windowN_congr {e : (ℕ → ℤ) → M} {n : ℕ} (hl : ∀ p q : ℕ → ℤ, (∀ k < n, p k = q k) → e p = e q)
    {l l' : ℕ → ℕ} (h : ∀ k < n, l k = l' k) (len : List ℕ) : windowN e l len = windowN e l' len := by
  unfold windowN
  congr 1
  funext idx
  exact hl _ _ fun k hk => by rw [h k hk]

theorem lineOk_laws {modes : ℕ → Mode} {x : Arr M} (hx : ShapeOk modes x.shape) {e : (ℕ → ℤ) → M}
    (he : ExtLawsN modes x e) {m : NpMode} {k : ℕ} (hk : k < x.shape.length) (hm : modes k = m.toMode) (l r : ℕ) :
    LineOk m e k (x.shape.getD k 0) l r := by
  have hlen := hx k hk
  refine ⟨hlen.1, fun p => ?_⟩
  have h := he.2.2 k hk p
  rw [hm] at h hlen
  rw [npPad_ok (by simpa using hlen), ← laws_unique (by simpa using hlen) h (ext_laws (by simpa using hlen))]
  simp

/-- The list of pairs of widths. -/
def pairs (W : ℕ → ℕ × ℕ) (n : ℕ) : List (ℕ × ℕ) := (List.range n).map W

theorem npPadN_win {e : (ℕ → ℤ) → M} {n : ℕ} (hn : 1 ≤ n) (hl : ∀ p q : ℕ → ℤ, (∀ k < n, p k = q k) → e p = e q)
    {m : NpMode} (s : ℕ → ℕ) (W : ℕ → ℕ × ℕ) (h : ∀ k < n, LineOk m e k (s k) (W k).1 (W k).2) {a : Arr M}
    (ha : IsWin e n s (fun _ => 0) a) :
    ∃ a', npPadN m a (pairs W n) = .ok a' ∧
      IsWin e n (fun j => if j < n then (W j).1 + s j + (W j).2 else s j) (fun j => if j < n then (W j).1 else 0) a' := by
  unfold npPadN pairs
  rw [if_neg (by simp; omega), List.range_eq_range']
  exact npPadLoop_win hl s W h n 0 a (by omega) (by simpa using ha)

theorem isWin_final {e : (ℕ → ℤ) → M} {n : ℕ} (hl : ∀ p q : ℕ → ℤ, (∀ k < n, p k = q k) → e p = e q)
    {s o s' o' : ℕ → ℕ} (hs : ∀ k < n, s k = s' k) (ho : ∀ k < n, o k = o' k) {a : Arr M} (h : IsWin e n s o a) :
    IsWin e n s' o' a := by
  refine ⟨?_, fun idx hi => ?_⟩
  · rw [h.1]
    apply List.map_congr_left
    intro k hk
    exact hs k (by simpa using hk)
  · rw [h.2 idx fun k hk => by rw [hs k hk]; exact hi k hk]
    exact hl _ _ fun k hk => by rw [ho k hk]

/-! ### `numpy.pad` with a function -/

/-- The function extends vectors of length `N` between zeros as the mode does. -/
def FunOk (f : List M → ℕ → ℕ → Py (List M)) (mode : Mode) (N l r : ℕ) : Prop :=
  ∀ z : List M, z.length = N → npPadWith f z l r = .ok (window (Spec.ext mode z) l (l + N + r))

theorem ext_zeros (mode : Mode) (N : ℕ) (p : ℤ) : Spec.ext mode (List.replicate N (0 : M)) p = 0 := by
  have := ext_map (0 : M →ₗ[ℤ] M) mode (List.replicate N 0) p
  simpa using this

/-- Zeros where the axes from `k` on have not been extended yet. -/
def IsPart (e : (ℕ → ℤ) → M) (n : ℕ) (s : ℕ → ℕ) (W : ℕ → ℕ × ℕ) (k : ℕ) (a : Arr M) : Prop :=
  a.shape = (List.range n).map (fun j => (W j).1 + s j + (W j).2) ∧
  ∀ idx, (∀ j < n, idx j < (W j).1 + s j + (W j).2) →
    a.get idx = open Classical in
      if ∀ j < n, k ≤ j → (W j).1 ≤ idx j ∧ idx j < (W j).1 + s j then e fun j => (idx j : ℤ) - (W j).1 else 0

theorem funAxis_part {e : (ℕ → ℤ) → M} {n : ℕ} (hl : ∀ p q : ℕ → ℤ, (∀ k < n, p k = q k) → e p = e q)
    {s : ℕ → ℕ} {W : ℕ → ℕ × ℕ} {k : ℕ} (hk : k < n) {a : Arr M} (ha : IsPart e n s W k a)
    {f : List M → ℕ → ℕ → Py (List M)} {mode : Mode} (hlen : LenOk mode (s k))
    (hf : FunOk f mode (s k) (W k).1 (W k).2)
    (he : ∀ p : ℕ → ℤ, ExtLaws mode ((List.range (s k)).map fun i : ℕ => e (Function.update p k i))
      (fun t => e (Function.update p k t))) :
    ∃ a', funAxis f k (W k).1 (W k).2 a = .ok a' ∧ IsPart e n s W (k + 1) a' := by
  classical
  obtain ⟨hsh, hget⟩ := ha
  have hN : a.shape.getD k 0 = (W k).1 + s k + (W k).2 := by rw [hsh, range_map_getD _ _ hk]
  -- the vector through an index
  have hvec : ∀ idx : ℕ → ℕ, (∀ j < n, j ≠ k → idx j < (W j).1 + s j + (W j).2) →
      f (a.vec k idx) (W k).1 (W k).2 = .ok ((List.range ((W k).1 + s k + (W k).2)).map fun i : ℕ =>
        if ∀ j < n, k + 1 ≤ j → (W j).1 ≤ idx j ∧ idx j < (W j).1 + s j then
          e (Function.update (fun j => (idx j : ℤ) - (W j).1) k ((i : ℤ) - (W k).1)) else 0) := by
    intro idx hidx
    set P : Prop := ∀ j < n, k + 1 ≤ j → (W j).1 ≤ idx j ∧ idx j < (W j).1 + s j with hP
    set p : ℕ → ℤ := fun j => (idx j : ℤ) - (W j).1 with hp
    set z : List M := (List.range (s k)).map fun i : ℕ => if P then e (Function.update p k i) else 0 with hz
    have hzl : z.length = s k := by simp [hz]
    have hv : a.vec k idx = List.replicate (W k).1 0 ++ z ++ List.replicate (W k).2 0 := by
      apply List.ext_getElem
      · simp only [Arr.vec, List.length_map, List.length_range, hN, List.length_append, List.length_replicate, hzl]
      intro i h1 h2
      have hi : i < (W k).1 + s k + (W k).2 := by
        have := h1
        simp only [Arr.vec, List.length_map, List.length_range, hN] at this
        exact this
      simp only [Arr.vec, List.getElem_map, List.getElem_range]
      rw [hget _ (by
        intro j hj
        by_cases hjk : j = k
        · subst hjk; simpa using hi
        · simpa [hjk] using hidx j hj hjk)]
      have hc : (∀ j < n, k ≤ j → (W j).1 ≤ (if j = k then i else idx j) ∧
          (if j = k then i else idx j) < (W j).1 + s j) ↔ ((W k).1 ≤ i ∧ i < (W k).1 + s k) ∧ P := by
        constructor
        · intro h
          refine ⟨by simpa using h k hk le_rfl, fun j hj hkj => ?_⟩
          have := h j hj (by omega)
          simpa [show j ≠ k by omega] using this
        · rintro ⟨h, hP⟩ j hj hkj
          by_cases hjk : j = k
          · subst hjk; simpa using h
          · simpa [hjk] using hP j hj (by omega)
      rw [if_congr hc rfl rfl]
      by_cases hi1 : i < (W k).1
      · rw [if_neg (by omega), List.getElem_append_left (by simp; omega), List.getElem_append_left (by simpa using hi1)]
        simp
      by_cases hi2 : i < (W k).1 + s k
      · rw [List.getElem_append_left (by simp [hzl]; omega), List.getElem_append_right (by simp; omega)]
        simp only [hz, List.getElem_map, List.getElem_range, List.length_replicate]
        by_cases hPP : P
        · rw [if_pos ⟨⟨by omega, hi2⟩, hPP⟩, if_pos hPP]
          apply hl
          intro j _
          by_cases hjk : j = k
          · subst hjk; simp; omega
          · simp [hjk, hp]
        · rw [if_neg (fun h => hPP h.2), if_neg hPP]
      · rw [if_neg (by omega), List.getElem_append_right (by simp [hzl]; omega)]
        simp
    have := hf z hzl
    unfold npPadWith at this
    rw [hv, this]
    congr 1
    unfold window
    apply List.map_congr_left
    intro i _
    by_cases hPP : P
    · rw [if_pos hPP]
      have hz' : z = (List.range (s k)).map fun i : ℕ => e (Function.update p k i) := by
        rw [hz]; simp [hPP]
      rw [hz', ← laws_unique (by simpa using hlen) (he p) (ext_laws (by simpa using hlen))]
    · rw [if_neg hPP]
      have hz' : z = List.replicate (s k) 0 := by
        rw [hz]; simp [hPP]
      rw [hz', ext_zeros]
  set others := a.shape.set k 1 with ho
  have hol : others.length = n := by simp [ho, hsh]
  have hog : ∀ j < n, others.getD j 0 = if j = k then 1 else (W j).1 + s j + (W j).2 := by
    intro j hj
    rw [ho, getD_set (by simpa [hsh] using hk)]
    by_cases hjk : j = k
    · simp [hjk]
    · rw [if_neg hjk, if_neg hjk, hsh, range_map_getD _ _ hj]
  unfold funAxis
  rw [← ho]
  simp only
  rw [mapM_ok_map (g := fun p => (List.range ((W k).1 + s k + (W k).2)).map fun i : ℕ =>
        if ∀ j < n, k + 1 ≤ j → (W j).1 ≤ unravelIx others others.length p j ∧
            unravelIx others others.length p j < (W j).1 + s j then
          e (Function.update (fun j => (unravelIx others others.length p j : ℤ) - (W j).1) k ((i : ℤ) - (W k).1)) else 0),
    Py_bind_ok]
  · refine ⟨_, rfl, by simp [hsh], ?_⟩
    intro idx hidx
    have hin : InB a.shape idx := by
      intro j hj
      have hjn : j < n := by simpa [hsh] using hj
      rw [hsh, range_map_getD _ _ hjn]
      exact hidx j hjn
    rw [Arr.get_ofFn (hf := ?_) hin]
    · have hino : ∀ j < others.length, (if j = k then 0 else idx j) < others.getD j 0 := by
        intro j hj
        rw [hog j (by omega)]
        by_cases hjk : j = k
        · simp [hjk]
        · simpa [hjk] using hidx j (by omega)
      have hrl : ravelIx others (fun j => if j = k then 0 else idx j) others.length < others.prod :=
        InB.ravel_lt (shape := others) hino
      have hur := unravel_ravel (shape := others) (idx := fun j => if j = k then 0 else idx j) (j := others.length) hino
      rw [List.getD_eq_getElem (d := ([] : List M)) _ (by rw [List.length_map, List.length_range]; exact hrl)]
      simp only [List.getElem_map, List.getElem_range]
      rw [List.getD_eq_getElem _ _ (by simpa using hidx k hk)]
      simp only [List.getElem_map, List.getElem_range]
      have hc : (∀ j < n, k + 1 ≤ j →
            (W j).1 ≤ unravelIx others others.length (ravelIx others (fun j => if j = k then 0 else idx j) others.length) j ∧
            unravelIx others others.length (ravelIx others (fun j => if j = k then 0 else idx j) others.length) j
              < (W j).1 + s j) ↔
          ∀ j < n, k + 1 ≤ j → (W j).1 ≤ idx j ∧ idx j < (W j).1 + s j := by
        refine forall_congr' fun j => forall_congr' fun hj => forall_congr' fun hkj => ?_
        rw [hur j (by omega)]
        simp [show j ≠ k by omega]
      rw [if_congr hc rfl rfl]
      congr 1
      apply hl
      intro j hj
      by_cases hjk : j = k
      · subst hjk; simp
      · rw [Function.update_of_ne hjk, hur j (by omega)]
        simp [hjk]
    · intro g h hgh
      have hgh' : ∀ j < n, g j = h j := fun j hj => hgh j (by simpa [hsh] using hj)
      simp only
      rw [hgh' k hk]
      congr 2
      apply ravelIx_congr
      intro j hj
      rw [hgh' j (by omega)]
  · intro p hp
    rw [List.mem_range, ← prodTo_length] at hp
    apply hvec
    intro j hj hjk
    have := unravelIx_inB hp j (by omega)
    rwa [hog j hj, if_neg hjk] at this

theorem funLoop_part {e : (ℕ → ℤ) → M} {n : ℕ} (hl : ∀ p q : ℕ → ℤ, (∀ k < n, p k = q k) → e p = e q)
    {s : ℕ → ℕ} {W : ℕ → ℕ × ℕ} {f : List M → ℕ → ℕ → Py (List M)} {mode : Mode} (hlen : ∀ k < n, LenOk mode (s k))
    (hf : ∀ k < n, FunOk f mode (s k) (W k).1 (W k).2)
    (he : ∀ k < n, ∀ p : ℕ → ℤ, ExtLaws mode ((List.range (s k)).map fun i : ℕ => e (Function.update p k i))
      (fun t => e (Function.update p k t))) (d : ℕ) :
    ∀ k a, k + d = n → IsPart e n s W k a →
      ∃ a', funLoop f k ((List.range' k d).map W) a = .ok a' ∧ IsPart e n s W n a' := by
  induction d with
  | zero =>
    intro k a hk ha
    have : k = n := by omega
    subst this
    exact ⟨a, rfl, ha⟩
  | succ d ih =>
    intro k a hk ha
    have hkn : k < n := by omega
    obtain ⟨a', e1, hp⟩ := funAxis_part hl hkn ha (hlen k hkn) (hf k hkn) (he k hkn)
    rw [List.range'_succ, List.map_cons]
    simp only [funLoop]
    rw [e1, Py_bind_ok]
    exact ih (k + 1) a' (by omega) hp

theorem npPadFun_ok {x : Arr M} {mode : Mode} (hn : 1 ≤ x.shape.length) (hx : ShapeOk (fun _ => mode) x.shape)
    {e : (ℕ → ℤ) → M} (he : ExtLawsN (fun _ => mode) x e) {W : ℕ → ℕ × ℕ} {f : List M → ℕ → ℕ → Py (List M)}
    (hf : ∀ k < x.shape.length, FunOk f mode (x.shape.getD k 0) (W k).1 (W k).2) :
    npPadFun f x (pairs W x.shape.length) = .ok (windowN e (fun k => (W k).1)
      ((List.range x.shape.length).map fun k => (W k).1 + x.shape.getD k 0 + (W k).2)) := by
  classical
  have hx0 : ShapeOk (fun _ => .zero) x.shape := fun k hk => ⟨(hx k hk).1, by simp⟩
  obtain ⟨a, ha, hw⟩ := npPadN_win (m := .constant) hn (extN_extends hx0).1 (fun j => x.shape.getD j 0) W
    (fun k hk => lineOk_laws hx0 (extN_extends hx0) hk rfl _ _) (isWin_self (extN_extends hx0))
  unfold npPadFun
  rw [ha, Py_bind_ok]
  have hl0 := extN_extends hx0
  set e0 := extN (fun _ => Mode.zero) x x.shape.length
  have hpart : IsPart e x.shape.length (fun j => x.shape.getD j 0) W 0 a := by
    have hw' := isWin_final hl0.1 (s' := fun j => (W j).1 + x.shape.getD j 0 + (W j).2) (o' := fun j => (W j).1)
      (fun k hk => by simp [hk]) (fun k hk => by simp [hk]) hw
    refine ⟨hw'.1, fun idx hi => ?_⟩
    rw [hw'.2 idx hi]
    by_cases hc : ∀ j < x.shape.length, 0 ≤ j → (W j).1 ≤ idx j ∧ idx j < (W j).1 + x.shape.getD j 0
    · rw [if_pos hc]
      have hin : InB x.shape fun j => idx j - (W j).1 := fun j hj => by
        have := hc j hj (Nat.zero_le _)
        simp only
        omega
      have c : ∀ j < x.shape.length, (idx j : ℤ) - (W j).1 = ((idx j - (W j).1 : ℕ) : ℤ) := fun j hj => by
        have := hc j hj (Nat.zero_le _)
        omega
      rw [hl0.1 _ (fun j => ((idx j - (W j).1 : ℕ) : ℤ)) c, he.1 _ (fun j => ((idx j - (W j).1 : ℕ) : ℤ)) c,
        hl0.2.1 _ hin, he.2.1 _ hin]
    · rw [if_neg hc]
      push Not at hc
      obtain ⟨k, hk, -, hout⟩ := hc
      have := (hl0.2.2 k hk (fun j => (idx j : ℤ) - (W j).1)).2 ((idx k : ℤ) - (W k).1) (by
        simp only [List.length_map, List.length_range]
        by_cases h : (W k).1 ≤ idx k
        · have := hout h; omega
        · omega)
      simp only at this
      rwa [Function.update_eq_self] at this
  unfold pairs
  rw [List.range_eq_range']
  obtain ⟨a', e1, hp⟩ := funLoop_part he.1 (fun k hk => hx k hk) hf he.2.2 x.shape.length 0 a (by omega) hpart
  rw [e1, ← List.range_eq_range']
  congr 1
  apply isWin_eq he.1
  refine ⟨hp.1, fun idx hi => ?_⟩
  rw [hp.2 idx hi, if_pos (fun j hj hj' => absurd hj (Nat.not_lt.2 hj'))]

/-! ### `pad` -/

/-- The length of axis after making it even in periodization mode. -/
theorem lineOk_edge {x : Arr M} (hx : ShapeOk (fun _ => .periodization) x.shape) {e : (ℕ → ℤ) → M}
    (he : ExtLawsN (fun _ => .periodization) x e) {k : ℕ} (hk : k < x.shape.length) :
    LineOk .edge e k (x.shape.getD k 0) 0 (x.shape.getD k 0 % 2) := by
  have hlen := hx k hk
  refine ⟨hlen.1, fun p => ?_⟩
  have h := he.2.2 k hk p
  set z := (List.range (x.shape.getD k 0)).map fun i : ℕ => e (Function.update p k i) with hz
  have hzl : z.length = x.shape.getD k 0 := by simp [hz]
  have hzl' : LenOk .periodization z.length := by rw [hzl]; exact hlen
  rw [laws_unique hzl' h (ext_laws hzl'), ← hzl, periodization_pre hzl'.1]
  congr 1
  unfold window
  apply List.ext_getElem
  · rw [evenPad_length]; simp
  intro i h1 h2
  simp only [List.getElem_map, List.getElem_range]
  rw [ext_periodization]
  simp only [Nat.cast_zero, sub_zero]
  rw [ext_in _ _ h1, List.getD_eq_getElem _ _ h1]

theorem lineOk_wrap {x : Arr M} (hx : ShapeOk (fun _ => .periodization) x.shape) {e : (ℕ → ℤ) → M}
    (he : ExtLawsN (fun _ => .periodization) x e) {k : ℕ} (hk : k < x.shape.length) (l r : ℕ) :
    LineOk .wrap e k (x.shape.getD k 0 + x.shape.getD k 0 % 2) l r := by
  have hlen := hx k hk
  have hN := hlen.1
  refine ⟨by omega, fun p => ?_⟩
  have h := (he.2.2 k hk p).2
  simp only [List.length_map, List.length_range] at h
  set N := x.shape.getD k 0 with hNdef
  set z := (List.range (N + N % 2)).map fun i : ℕ => e (Function.update p k i) with hz
  have hzl : z.length = N + N % 2 := by simp [hz]
  have hlaw : ExtLaws .periodic z (fun t => e (Function.update p k t)) := by
    refine ⟨fun i hi => ?_, ?_⟩
    · rw [List.getD_eq_getElem _ _ hi]
      simp [hz]
    · simp only [hzl]
      by_cases hp : (N : ℤ) % 2 = 0
      · rw [if_pos hp] at h
        have : N % 2 = 0 := by omega
        rw [this]
        simpa using h
      · rw [if_neg hp] at h
        have : N % 2 = 1 := by omega
        rw [this]
        intro q
        have := h.2 q
        push_cast
        exact this
  have hz1 : LenOk NpMode.wrap.toMode z.length := ⟨by omega, by simp [NpMode.toMode]⟩
  rw [npPad_ok hz1, ← laws_unique hz1 hlaw (ext_laws hz1), hzl]

theorem padModeN_ok {x : Arr M} {mode : Mode} (hn : 1 ≤ x.shape.length) (hx : ShapeOk (fun _ => mode) x.shape)
    {e : (ℕ → ℤ) → M} (he : ExtLawsN (fun _ => mode) x e) (W : ℕ → ℕ × ℕ)
    (hsm : mode = .smooth → ∀ k < x.shape.length, 2 ≤ x.shape.getD k 0 ∧ 1 ≤ (W k).2)
    (has : mode = .antisymmetric → ∀ k < x.shape.length, 1 ≤ (W k).2) :
    padModeN x (pairs W x.shape.length) (modeName mode) = .ok (windowN e (fun k => (W k).1)
      ((List.range x.shape.length).map fun k => (W k).1 +
        (if mode = .periodization then x.shape.getD k 0 + x.shape.getD k 0 % 2 else x.shape.getD k 0) + (W k).2)) := by
  have np : ∀ m : NpMode, mode = m.toMode → npPadN m x (pairs W x.shape.length) = .ok (windowN e (fun k => (W k).1)
      ((List.range x.shape.length).map fun k => (W k).1 + x.shape.getD k 0 + (W k).2)) := by
    intro m hm
    obtain ⟨a, ha, hw⟩ := npPadN_win (m := m) hn he.1 (fun j => x.shape.getD j 0) W
      (fun k hk => lineOk_laws hx he hk hm _ _) (isWin_self he)
    rw [ha]
    congr 1
    exact isWin_eq he.1 (isWin_final he.1 (fun k hk => by simp [hk]) (fun k hk => by simp [hk]) hw)
  cases mode with
  | periodization =>
    simp only [padModeN, modeName]
    simp only [String.reduceEq, if_false, if_true]
    obtain ⟨a, ha, hw⟩ := npPadN_win (m := .edge) hn he.1 (fun j => x.shape.getD j 0)
      (fun k => (0, x.shape.getD k 0 % 2)) (fun k hk => lineOk_edge hx he hk) (isWin_self he)
    have e1 : (x.shape.map fun n => (0, n % 2)) = pairs (fun k => (0, x.shape.getD k 0 % 2)) x.shape.length := by
      unfold pairs
      apply List.ext_getElem (by simp)
      intro i h1 h2
      simp only [List.length_map] at h1
      rw [List.getElem_map, List.getElem_map, List.getElem_range, List.getD_eq_getElem _ _ h1]
    rw [e1, ha, Py_bind_ok]
    obtain ⟨a', ha', hw'⟩ := npPadN_win (m := .wrap) hn he.1 (fun j => x.shape.getD j 0 + x.shape.getD j 0 % 2) W
      (fun k hk => lineOk_wrap hx he hk _ _)
      (isWin_final he.1 (s' := fun j => x.shape.getD j 0 + x.shape.getD j 0 % 2) (o' := fun _ => 0)
        (fun k hk => by simp [hk]) (fun k hk => by simp) hw)
    rw [ha']
    congr 1
    exact isWin_eq he.1 (isWin_final he.1 (fun k hk => by simp [hk]) (fun k hk => by simp [hk]) hw')
  | smooth =>
    simp only [padModeN, modeName]
    simp only [String.reduceEq, if_false, if_true, reduceCtorEq]
    exact npPadFun_ok hn hx he fun k hk z hz => by
      have := hsm rfl k hk
      rw [padSmooth_ok (by omega) _ this.2, hz]
  | antisymmetric =>
    simp only [padModeN, modeName]
    simp only [String.reduceEq, if_false, if_true, reduceCtorEq]
    exact npPadFun_ok hn hx he fun k hk z hz => by
      have := has rfl k hk
      have h1 := (hx k hk).1
      rw [padAntisymmetric_ok (by omega) _ this, hz]
  | zero => simpa [padModeN, modeName] using np .constant rfl
  | constant => simpa [padModeN, modeName] using np .edge rfl
  | symmetric => simpa [padModeN, modeName] using np .symmetric rfl
  | reflect => simpa [padModeN, modeName] using np .reflect rfl
  | periodic => simpa [padModeN, modeName] using np .wrap rfl
  | antireflect => simpa [padModeN, modeName] using np .reflectOdd rfl

end Pywt
