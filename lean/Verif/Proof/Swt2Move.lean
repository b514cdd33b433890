import Verif.Spec.Swt2Move
import Verif.Proof.SwtTranspose

/-!
# Proofs for C91
-/

namespace Pywt

open Finset Spec

set_option autoImplicit false
set_option linter.unusedSectionVars false

variable {R M : Type} [CommRing R] [AddCommGroup M] [Module R M]

theorem isMat_atrous (f : List R) (step m : ℕ) : IsMat R (M := M) m m (atrous f step) :=
  isMat_of_natural (g' := atrous f step) (fun φ l => atrous_map φ _ _ l) (fun l hl => by rw [atrous_length, hl])

theorem isMat_atrousInv (f : List R) (step m : ℕ) : IsMat R (M := M) m m (atrousInv f step) :=
  isMat_of_natural (g' := atrousInv f step) (fun φ l => by simp [atrousInv, at'_map, map_sum])
    (fun l hl => by simp [atrousInv, hl])

theorem tSStages_swap {s t : SStage R} (h : s.2 = t.2) :
    ([s, t] : List (SStage R)).map (tSStage (Equiv.swap s.1 t.1)) = [t, s] := by
  obtain ⟨a, v⟩ := s
  obtain ⟨b, v'⟩ := t
  simp only at h
  subst h
  simp [tSStage]

theorem swtBand_comm {s t : SStage R} (hst : s.1 ≠ t.1) {y : Arr M} (hs : s.1 < y.shape.length) (ht : t.1 < y.shape.length)
    (step : ℕ) (c d : Char) : y.swtBand [t, s] step [d, c] = y.swtBand [s, t] step [c, d] := by
  simp only [Arr.swtBand, Arr.shape_along, list_set_getD]
  exact along_comm (R := R) (Ne.symm hst) ht hs rfl rfl (isMat_atrous _ _ _) (isMat_atrous _ _ _)

theorem swtBand_swap {s t : SStage R} (hst : s.1 ≠ t.1) (h2 : s.2 = t.2) {y : Arr M} (hs : s.1 < y.shape.length)
    (ht : t.1 < y.shape.length) (step : ℕ) (c d : Char) :
    (Spec.Arr.transpose (Equiv.swap s.1 t.1) y).swtBand [s, t] step [c, d] =
      Spec.Arr.transpose (Equiv.swap s.1 t.1) (y.swtBand [s, t] step [d, c]) := by
  have hπ := swap_axes_lt hs ht
  rw [← swtBand_transpose (st := [s, t]) step hπ (by simp [hs, ht]), tSStages_swap h2]
  exact (swtBand_comm hst (by rw [shape_transpose, tShape_length]; exact hs)
    (by rw [shape_transpose, tShape_length]; exact ht) step c d).symm

theorem swtnApprox_swap {s t : SStage R} (hst : s.1 ≠ t.1) (h2 : s.2 = t.2) (m : ℕ) {x : Arr M} (hs : s.1 < x.shape.length)
    (ht : t.1 < x.shape.length) : ∀ j, (swtnApprox [s, t] m x j).shape = x.shape ∧
    swtnApprox [s, t] m (Spec.Arr.transpose (Equiv.swap s.1 t.1) x) j =
      Spec.Arr.transpose (Equiv.swap s.1 t.1) (swtnApprox [s, t] m x j)
  | 0 => ⟨rfl, rfl⟩
  | j + 1 => by
      obtain ⟨h, ih⟩ := swtnApprox_swap hst h2 m hs ht j
      refine ⟨by rw [swtnApprox, swtBand_shape_roll, h], ?_⟩
      rw [swtnApprox, swtnApprox, ih]
      exact swtBand_swap hst h2 (by rw [h]; exact hs) (by rw [h]; exact ht) _ 'a' 'a'

theorem swt2Det_swap {s t : SStage R} (hst : s.1 ≠ t.1) (h2 : s.2 = t.2) (m : ℕ) {x : Arr M} (hs : s.1 < x.shape.length)
    (ht : t.1 < x.shape.length) (j : ℕ) : swt2Det [s, t] m (Spec.Arr.transpose (Equiv.swap s.1 t.1) x) j =
      flipTriple (Spec.Arr.transpose (Equiv.swap s.1 t.1)) (swt2Det [s, t] m x j) := by
  obtain ⟨h, ih⟩ := swtnApprox_swap hst h2 m hs ht j
  have key := fun c d => swtBand_swap hst h2 (y := swtnApprox [s, t] m x j) (by rw [h]; exact hs) (by rw [h]; exact ht)
    (2 ^ (m + j)) c d
  unfold swt2Det flipTriple swtnBand
  rw [ih, key, key, key]

theorem swt2Det_roll {ax : ℕ} (c : ℤ) {st : List (SStage R)} (m : ℕ) {x : Arr M} (hb : ∀ s ∈ st, s.1 < x.shape.length)
    (ha : ax < x.shape.length) (j : ℕ) :
    swt2Det st m (Spec.Arr.roll ax c x) j = mapTriple (Spec.Arr.roll ax c) (swt2Det st m x j) := by
  unfold swt2Det mapTriple
  rw [swtnBand_roll c m hb ha, swtnBand_roll c m hb ha, swtnBand_roll c m hb ha]

theorem swtUnband_comm {s t : SStage R} (hst : s.1 ≠ t.1) {y : Arr M} (hs : s.1 < y.shape.length) (ht : t.1 < y.shape.length)
    (step : ℕ) (c d : Char) : y.swtUnband [t, s] step [d, c] = y.swtUnband [s, t] step [c, d] := by
  simp only [Arr.swtUnband]
  exact along_comm (R := R) hst hs ht rfl rfl (isMat_atrousInv _ _ _) (isMat_atrousInv _ _ _)

variable [Invertible (2 : R)]

theorem iswtnStep_comm {s t : SStage R} (hst : s.1 ≠ t.1) {S : List ℕ} (hs : s.1 < S.length) (ht : t.1 < S.length) (step : ℕ)
    {b : Key → Arr M} (hb : ∀ k, (b k).shape = S) :
    Arr.iswtnStep [t, s] step b S = Arr.iswtnStep [s, t] step (fun k => b k.reverse) S := by
  refine Arr.ext_get rfl fun idx hidx => ?_
  have h : InB S idx := hidx
  rw [C46_iswtn_level _ _ _ hb h, C46_iswtn_level _ _ (fun k => b k.reverse) (fun k => hb _) h]
  have hw : words ([t, s] : List (SStage R)).length = [['a', 'a'], ['a', 'd'], ['d', 'a'], ['d', 'd']] := show words 2 = _ by decide
  have hw' : words ([s, t] : List (SStage R)).length = [['a', 'a'], ['a', 'd'], ['d', 'a'], ['d', 'd']] := show words 2 = _ by decide
  have key : ∀ (k : Key) (c d : Char), (b k).swtUnband [t, s] step [d, c] = (b k).swtUnband [s, t] step [c, d] :=
    fun k c d => swtUnband_comm hst (by rw [hb]; exact hs) (by rw [hb]; exact ht) step c d
  rw [hw, hw']
  simp only [List.map_cons, List.map_nil, List.sum_cons, List.sum_nil, List.reverse_cons, List.reverse_nil, List.nil_append,
    List.cons_append, key, List.length_cons, List.length_nil]
  congr 1
  abel

theorem bandOf_flip {A : Arr M} (p : Arr M × Arr M × Arr M) {π : Equiv.Perm ℕ} {k : Key} (hk : k ∈ words 2) :
    bandOf (dict3 (flipTriple (Spec.Arr.transpose π) p)) (Spec.Arr.transpose π A) 2 k =
      Spec.Arr.transpose π (bandOf (dict3 p) A 2 k.reverse) := by
  have hw : words 2 = [['a', 'a'], ['a', 'd'], ['d', 'a'], ['d', 'd']] := by decide
  rw [hw] at hk
  simp only [List.mem_cons, List.not_mem_nil, or_false] at hk
  rcases hk with rfl | rfl | rfl | rfl <;> rfl

theorem iswtnCascade_swap {s t : SStage R} (hst : s.1 ≠ t.1) (h2 : s.2 = t.2) :
    ∀ {ps : List (Arr M × Arr M × Arr M)} {A : Arr M}, s.1 < A.shape.length → t.1 < A.shape.length →
    (∀ p ∈ ps, p.1.shape = A.shape ∧ p.2.1.shape = A.shape ∧ p.2.2.shape = A.shape) →
    iswtnCascade [s, t] ((ps.map (flipTriple (Spec.Arr.transpose (Equiv.swap s.1 t.1)))).map dict3)
      (Spec.Arr.transpose (Equiv.swap s.1 t.1) A) =
      Spec.Arr.transpose (Equiv.swap s.1 t.1) (iswtnCascade [s, t] (ps.map dict3) A)
  | [], A, _, _, _ => rfl
  | p :: ps, A, hs, ht, hp => by
      have hπ := swap_axes_lt hs ht
      obtain ⟨p1, p2, p3⟩ := hp p (by simp)
      have hsh : ∀ k, (bandOf (dict3 p) A 2 k).shape = A.shape := fun k => bandOf_shape (dict3_ok p1 p2 p3) k
      have h := iswtnStep_transpose (π := Equiv.swap s.1 t.1) (st := [s, t]) (step := 2 ^ ps.length) (band := bandOf (dict3 p) A 2)
        hπ hsh (by simp [hs, ht])
      rw [tSStages_swap h2, iswtnStep_comm hst (by rw [tShape_length]; exact hs) (by rw [tShape_length]; exact ht) _
        (fun k => by rw [shape_transpose, hsh])] at h
      have hcongr : Arr.iswtnStep [s, t] (2 ^ ps.length)
          (bandOf (dict3 (flipTriple (Spec.Arr.transpose (Equiv.swap s.1 t.1)) p)) (Spec.Arr.transpose (Equiv.swap s.1 t.1) A) 2)
          (tShape (Equiv.swap s.1 t.1) A.shape) =
          Arr.iswtnStep [s, t] (2 ^ ps.length) (fun k => Spec.Arr.transpose (Equiv.swap s.1 t.1) (bandOf (dict3 p) A 2 k.reverse))
            (tShape (Equiv.swap s.1 t.1) A.shape) := by
        unfold Arr.iswtnStep
        refine congrArg (Arr.ofFn _) (funext fun idx => congrArg (fun l : List M => _ • l.sum) (List.map_congr_left fun k hk => ?_))
        rw [bandOf_flip p hk]
      have ih := iswtnCascade_swap hst h2 (ps := ps) (A := Arr.iswtnStep [s, t] (2 ^ ps.length) (bandOf (dict3 p) A 2) A.shape)
        hs ht fun q hq => hp q (by simp [hq])
      simp only [List.map_cons, iswtnCascade, List.length_map, shape_transpose]
      rw [show ([s, t] : List (SStage R)).length = 2 from rfl, hcongr, h]
      exact ih

end Pywt
