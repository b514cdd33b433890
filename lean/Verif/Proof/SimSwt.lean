import Verif.Proof.SimPy
import Verif.Proof.Swt

/-!
# `iswt` in two arithmetics
-/

set_option linter.unusedSectionVars false
set_option autoImplicit false

namespace Pywt.Sim

open Finset

/-- Entries at the same position are related, by a relation that may depend on the position. -/
def Pos {α β : Type} (P : ℕ → α → β → Prop) (x : List α) (x' : List β) : Prop :=
  x.length = x'.length ∧ ∀ i a b, x[i]? = some a → x'[i]? = some b → P i a b

section general

variable {α β : Type}

theorem Pos.mono {P Q : ℕ → α → β → Prop} {x : List α} {x' : List β} (h : Pos P x x')
    (hPQ : ∀ i a b, i < x'.length → P i a b → Q i a b) : Pos Q x x' :=
  ⟨h.1, fun i a b ha hb => hPQ i a b (List.getElem?_eq_some_iff.mp hb).1 (h.2 i a b ha hb)⟩

theorem Pos.of {Q : α → β → Prop} {x : List α} {x' : List β} (h : List.Forall₂ Q x x') :
    Pos (fun _ => Q) x x' := by
  refine ⟨h.length_eq, fun i a b ha hb => ?_⟩
  obtain ⟨h1, h2⟩ := List.getElem?_eq_some_iff.mp ha
  obtain ⟨h3, h4⟩ := List.getElem?_eq_some_iff.mp hb
  have := (List.forall₂_iff_get.mp h).2 i h1 h3
  simp only [List.get_eq_getElem] at this
  rwa [h2, h4] at this

theorem Pos.to {Q : α → β → Prop} {x : List α} {x' : List β} (h : Pos (fun _ => Q) x x') :
    List.Forall₂ Q x x' := by
  rw [List.forall₂_iff_get]
  refine ⟨h.1, fun i h1 h2 => ?_⟩
  exact h.2 i _ _ (List.getElem?_eq_some_iff.mpr ⟨h1, rfl⟩) (List.getElem?_eq_some_iff.mpr ⟨h2, rfl⟩)

theorem Pos.set {P : ℕ → α → β → Prop} {Y : α → β → Prop} {x : List α} {x' : List β} (h : Pos P x x')
    (i : ℕ) {v : α} {v' : β} (hv : Y v v') :
    Pos (fun j => if j = i then Y else P j) (x.set i v) (x'.set i v') := by
  refine ⟨by simp [h.1], fun j a b ha hb => ?_⟩
  rw [List.getElem?_set] at ha hb
  by_cases hj : i = j
  · subst hj
    rw [if_pos rfl] at ha hb ⊢
    split at ha
    · split at hb
      · cases ha; cases hb; exact hv
      · cases hb
    · cases ha
  · rw [if_neg hj] at ha hb
    rw [if_neg (fun e => hj e.symm)]
    exact h.2 j a b ha hb

theorem Pos.scatter {Y : α → β → Prop} : ∀ (idx : List ℕ) {P : ℕ → α → β → Prop} {x : List α} {x' : List β}
    {v : List α} {v' : List β}, Pos P x x' → List.Forall₂ Y v v' → v'.length = idx.length →
      Pos (fun j => if j ∈ idx then Y else P j) (Pywt.scatter x idx v) (Pywt.scatter x' idx v')
  | [], P, x, x', v, v', h, _, _ => by simpa [Pywt.scatter] using h
  | i :: idx, P, x, x', v, v', h, hv, hl => by
    cases hv with
    | nil => simp at hl
    | @cons a b v v' hab hv =>
      have := Pos.scatter idx (h.set i hab) hv (by simpa using hl)
      refine Pos.mono (P := _) (x := _) (x' := _) (this : Pos _ (Pywt.scatter _ (i :: idx) (a :: v)) (Pywt.scatter _ (i :: idx) (b :: v'))) ?_
      intro j c d _ hj
      by_cases h1 : j ∈ idx
      · rw [if_pos (List.mem_cons_of_mem _ h1)]; rwa [if_pos h1] at hj
      · rw [if_neg h1] at hj
        by_cases h2 : j = i
        · rw [if_pos (by rw [h2]; exact List.mem_cons_self)]; rwa [if_pos h2] at hj
        · rw [if_neg (by rw [List.mem_cons]; tauto)]; rwa [if_neg h2] at hj

theorem gather_rel {X : α → β → Prop} {P : ℕ → α → β → Prop} {x : List α} {x' : List β} (h : Pos P x x') :
    ∀ (idx : List ℕ), (∀ i ∈ idx, ∀ a b, P i a b → X a b) →
      PRel (List.Forall₂ X) (gather x idx) (gather x' idx)
  | [], _ => PRel.ok .nil
  | i :: idx, hX => by
    unfold gather
    rw [List.mapM_cons, List.mapM_cons]
    refine PRel.bind (Q := X) ?_ fun a b hab => PRel.bind (gather_rel h idx
      fun j hj => hX j (List.mem_cons_of_mem _ hj)) fun c d hcd => PRel.ok (.cons hab hcd)
    intro b hb
    cases h2 : x'[i]? with
    | none => rw [h2] at hb; cases hb
    | some b' =>
      rw [h2] at hb
      cases hb
      have h3 : i < x.length := by
        rw [h.1]; exact (List.getElem?_eq_some_iff.mp h2).1
      rw [List.getElem?_eq_getElem h3]
      exact ⟨_, rfl, hX i List.mem_cons_self _ _ (h.2 i _ _ (List.getElem?_eq_getElem h3) h2)⟩

theorem roll1_rel {X : α → β → Prop} {x : List α} {x' : List β} (h : List.Forall₂ X x x') :
    List.Forall₂ X (roll1 x) (roll1 x') := by
  unfold roll1
  rw [h.length_eq]
  exact List.rel_append (List.forall₂_drop _ h) (List.forall₂_take _ h)

theorem zipWith_rel {X Y : α → β → Prop} {g : α → α → α} {g' : β → β → β}
    (hg : ∀ a a' b b', X a a' → X b b' → Y (g a b) (g' a' b')) :
    ∀ {x : List α} {x' : List β} {y : List α} {y' : List β}, List.Forall₂ X x x' → List.Forall₂ X y y' →
      List.Forall₂ Y (List.zipWith g x y) (List.zipWith g' x' y') := by
  intro x x' y y' hx
  induction hx generalizing y y' with
  | nil => intro _; simp
  | cons hab _ ih =>
    intro hy
    cases hy with
    | nil => simp
    | cons hcd hy => exact .cons (hg _ _ _ _ hab hcd) (ih hy)

theorem mem_evens {l : List α} {a : α} (h : a ∈ evens l) : a ∈ l := by
  obtain ⟨k, hk⟩ := List.mem_iff_getElem?.mp h
  rw [evens_getElem?] at hk
  exact List.mem_iff_getElem?.mpr ⟨_, hk⟩

theorem mem_odds {l : List α} {a : α} (h : a ∈ odds l) : a ∈ l := by
  obtain ⟨k, hk⟩ := List.mem_iff_getElem?.mp h
  rw [odds_getElem?] at hk
  exact List.mem_iff_getElem?.mpr ⟨_, hk⟩

theorem mem_arange {first stop s i : ℕ} (hs : first < s) (h : i ∈ arange first stop s) : i % s = first := by
  unfold arange at h
  obtain ⟨k, -, rfl⟩ := List.mem_map.mp h
  rw [Nat.add_mul_mod_self_right, Nat.mod_eq_of_lt hs]

end general

variable {R R' M M' : Type} [Zero R] [Zero M] [Add M] [Neg M] [Sub M] [SMul ℕ M] [SMul R M] [Mul R] [Half R]
  [Zero R'] [Zero M'] [Add M'] [Neg M'] [Sub M'] [SMul ℕ M'] [SMul R' M'] [Mul R'] [Half R']

/-- One level of `iswt`: entries related by `X` become entries related by `Y`. -/
theorem iswtPhases_rel {w : Wavelet R} {w' : Wavelet R'} {X Z Y : M → M' → Prop} (hXY : ∀ a b, X a b → Y a b)
    (hid : ∀ a a' d d', List.Forall₂ X a a' → List.Forall₂ X d d' →
      PRel (List.Forall₂ Z) (idwtSingle w .periodization a d) (idwtSingle w' .periodization a' d'))
    (hav : ∀ a a' b b', Z a a' → Z b b' → Y ((Half.half : R) • (a + b)) ((Half.half : R') • (a' + b')))
    {s : ℕ} {cD o : List M} {cD' o' : List M'} (hcD : List.Forall₂ X cD cD') (ho : List.Forall₂ X o o') (k : ℕ)
    (hk : k ≤ s) :
    PRel (Pos fun i => if i % s < k then Y else X) ((List.range k).foldlM (iswtPhase w s cD) o)
      ((List.range k).foldlM (iswtPhase w' s cD') o') := by
  induction k with
  | zero => exact PRel.ok ((Pos.of ho).mono fun i a b _ h => by simpa using h)
  | succ k ih =>
    rw [List.range_succ, List.foldlM_append, List.foldlM_append]
    refine PRel.bind (ih (by omega)) fun p p' hp => ?_
    simp only [List.foldlM_cons, List.foldlM_nil]
    refine PRel.bind (Q := Pos fun i => if i % s < k + 1 then Y else X) ?_ fun r r' hr => PRel.ok hr
    unfold iswtPhase
    rw [hcD.length_eq]
    have hidx : ∀ i ∈ arange k cD'.length s, ∀ a b, (if i % s < k then Y else X) a b → X a b := by
      intro i hi a b h
      rwa [if_neg (by rw [mem_arange (by omega) hi]; omega)] at h
    refine PRel.bind (gather_rel hp _ fun i hi => hidx i (mem_evens hi)) fun a a' ha => ?_
    refine PRel.bind (gather_rel (Pos.of hcD) _ fun i hi c d h => h) fun b b' hb => ?_
    refine PRel.bind (hid _ _ _ _ ha hb) fun x1 x1' h1 => ?_
    refine PRel.bind (gather_rel hp _ fun i hi => hidx i (mem_odds hi)) fun a a' ha => ?_
    refine PRel.bind (gather_rel (Pos.of hcD) _ fun i hi c d h => h) fun b b' hb => ?_
    refine PRel.bind (hid _ _ _ _ ha hb) fun x2 x2' h2 => ?_
    have h2' := roll1_rel h2
    have h3 := zipWith_rel (g := fun u v => (Half.half : R) • (u + v)) (g' := fun u v => (Half.half : R') • (u + v))
      (Y := Y) (fun a a' b b' ha hb => hav a a' b b' ha hb) h1 h2'
    simp only [h1.length_eq, h2'.length_eq]
    refine PRel.ite (fun _ => PRel.throw) fun _ => ?_
    rw [h3.length_eq]
    by_cases h4 : (List.zipWith (fun u v => (Half.half : R') • (u + v)) x1' (roll1 x2')).length ≠
        (arange k cD'.length s).length
    · rw [if_pos h4, if_pos h4]; exact PRel.throw
    rw [if_neg h4, if_neg h4]
    refine PRel.ok ((Pos.scatter _ hp h3 (not_not.mp h4)).mono fun i a b _ h => ?_)
    by_cases h5 : i ∈ arange k cD'.length s
    · rw [if_pos h5] at h
      rw [if_pos (by rw [mem_arange (by omega) h5]; omega)]
      exact h
    · rw [if_neg h5] at h
      split
      · split at h
        · exact h
        · exact hXY a b h
      · rwa [if_neg (by omega)] at h

theorem iswtLoop_rel {w : Wavelet R} {w' : Wavelet R'} (X Z : ℕ → M → M' → Prop) (n : ℕ)
    (hX : ∀ j < n, ∀ a b, X j a b → X (j + 1) a b)
    (hid : ∀ j < n, ∀ a a' d d', List.Forall₂ (X j) a a' → List.Forall₂ (X j) d d' →
      PRel (List.Forall₂ (Z j)) (idwtSingle w .periodization a d) (idwtSingle w' .periodization a' d'))
    (hav : ∀ j < n, ∀ a a' b b', Z j a a' → Z j b b' →
      X (j + 1) ((Half.half : R) • (a + b)) ((Half.half : R') • (a' + b'))) :
    ∀ ds ds' j o o', j + ds'.length = n → List.Forall₂ (X j) o o' → List.Forall₂ (List.Forall₂ (X j)) ds ds' →
      PRel (List.Forall₂ (X n)) (iswtLoop w ds o) (iswtLoop w' ds' o') := by
  intro ds
  induction ds with
  | nil =>
    intro ds' j o o' hj ho hds
    cases hds
    obtain rfl : j = n := by simpa using hj
    exact PRel.ok ho
  | cons d ds ih =>
    intro ds' j o o' hj ho hds
    cases hds with
    | @cons _ d' _ ds' hd hds =>
      simp only [List.length_cons] at hj
      have hjn : j < n := by omega
      unfold iswtLoop
      rw [hds.length_eq]
      refine PRel.bind (iswtPhases_rel (hX j hjn) (hid j hjn) (hav j hjn) hd ho _ le_rfl) fun r r' hr => ?_
      refine ih _ (j + 1) _ _ (by omega) (Pos.to (hr.mono fun i a b _ h => ?_))
        (hds.imp fun a b h => h.imp (hX j hjn))
      rwa [if_pos (Nat.mod_lt _ (by positivity))] at h

/-- `iswt` in two arithmetics. -/
def SwtRel (P : M → M' → Prop) : SwtCoeffs (List M) → SwtCoeffs (List M') → Prop
  | .pairs l, .pairs l' => List.Forall₂ (fun p p' => List.Forall₂ P p.1 p'.1 ∧ List.Forall₂ P p.2 p'.2) l l'
  | .trimmed l, .trimmed l' => List.Forall₂ (List.Forall₂ P) l l'
  | _, _ => False

/-- The number of levels of a list of coefficients of `swt`. -/
def swtLevels {α : Type} : SwtCoeffs α → ℕ
  | .pairs l => l.length
  | .trimmed l => l.length - 1

theorem iswt_rel {w : Wavelet R} {w' : Wavelet R'} (X Z : ℕ → M → M' → Prop)
    {cs : SwtCoeffs (List M)} {cs' : SwtCoeffs (List M')} (hcs : SwtRel (X 0) cs cs')
    (hX : ∀ j < swtLevels cs', ∀ a b, X j a b → X (j + 1) a b)
    (hid : ∀ j < swtLevels cs', ∀ a a' d d', List.Forall₂ (X j) a a' → List.Forall₂ (X j) d d' →
      PRel (List.Forall₂ (Z j)) (idwtSingle w .periodization a d) (idwtSingle w' .periodization a' d'))
    (hav : ∀ j < swtLevels cs', ∀ a a' b b', Z j a a' → Z j b b' →
      X (j + 1) ((Half.half : R) • (a + b)) ((Half.half : R') • (a' + b'))) :
    PRel (List.Forall₂ (X (swtLevels cs'))) (iswt w none cs) (iswt w' none cs') := by
  cases cs with
  | pairs l =>
    cases cs' with
    | trimmed l' => exact hcs.elim
    | pairs l' =>
      have hcs : List.Forall₂ _ l l' := hcs
      cases hcs with
      | nil => exact PRel.throw
      | @cons p p' l l' hp hl =>
        simp only [iswt, Wavelet.normed]
        refine iswtLoop_rel X Z _ hX hid hav _ _ 0 _ _ (by simp [swtLevels]) hp.1 (.cons hp.2 ?_)
        rw [List.forall₂_map_left_iff, List.forall₂_map_right_iff]
        exact hl.imp fun a b h => h.2
  | trimmed l =>
    cases cs' with
    | pairs l' => exact hcs.elim
    | trimmed l' =>
      have hcs : List.Forall₂ _ l l' := hcs
      cases hcs with
      | nil => exact PRel.throw
      | @cons p p' l l' hp hl =>
        simp only [iswt, Wavelet.normed]
        exact iswtLoop_rel X Z _ hX hid hav _ _ 0 _ _ (by simp [swtLevels]) hp hl

end Pywt.Sim
