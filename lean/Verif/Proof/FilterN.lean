import Verif.Proof.PadN
import Verif.Proof.MultiDim

/-! The n-D transform filters the extended array. -/

namespace Pywt

open Finset Spec

set_option linter.unusedSectionVars false

variable {R M : Type} [Ring R] [AddCommGroup M] [Module R M]

theorem stagesOk_mem {st : List (Stage R)} : ∀ {sh : List ℕ}, StagesOk st sh → (st.map (·.1)).Nodup →
    ∀ s ∈ st, s.1 < sh.length ∧ s.2.1.Ok ∧ LenOk s.2.2 (sh.getD s.1 0) := by
  induction st with
  | nil => intro sh _ _ s hs; simp at hs
  | cons t st ih =>
    intro sh h hn s hs
    rcases List.mem_cons.mp hs with rfl | hs
    · exact ⟨h.1, h.2.1, h.2.2.1⟩
    · simp only [List.map_cons, List.nodup_cons] at hn
      have := ih h.2.2.2 hn.2 s hs
      have hne : s.1 ≠ t.1 := fun h => hn.1 (h ▸ List.mem_map_of_mem hs)
      rw [getD_set h.1, if_neg hne, List.length_set] at this
      exact this

/-- A weighted sum as a linear map. -/
def sumLin (f : List R) (n : ℕ) : (ℕ → M) →ₗ[ℤ] M where
  toFun v := ∑ j ∈ range n, f.getD j 0 • v j
  map_add' v w := by simp [smul_add, Finset.sum_add_distrib]
  map_smul' c v := by
    simp only [Pi.smul_apply, RingHom.id_apply, Finset.smul_sum]
    exact Finset.sum_congr rfl fun j _ => smul_comm _ _ _

theorem analysis_tap {w : Wavelet R} (hw : w.Ok) (mode : Mode) (c : Char) {z : List M} {o : ℕ}
    (ho : o < coeffLen mode z.length w.dec_len) :
    (analysis mode (w.decFilter c) z).getD o 0 =
      ∑ j ∈ range w.dec_len, (w.decFilter c).getD j 0 • Spec.ext mode z (tapPos mode w.dec_len o - j) := by
  have h3 : w.dec_hi.length = w.dec_lo.length := hw.2.2.1
  have hlen : (w.decFilter c).length = w.dec_len := by
    unfold Wavelet.decFilter Wavelet.dec_len
    split_ifs
    · rfl
    · exact h3
  have hd : w.dec_len = w.dec_lo.length := rfl
  cases mode <;>
    simp only [analysis, coeffLen, hlen] at ho ⊢ <;>
    rw [List.getD_eq_getElem _ _ (by simpa using ho)] <;>
    simp only [List.getElem_map, List.getElem_range, conv, hlen, tapPos]

theorem subband_filter {st : List (Stage R)} : ∀ {key : List Char} {x : Arr M} {e : (ℕ → ℤ) → M},
    key.length = st.length → StagesOk st x.shape → (st.map (·.1)).Nodup →
    (∀ p q : ℕ → ℤ, (∀ k < x.shape.length, p k = q k) → e p = e q) →
    (∀ idx, InB x.shape idx → e (fun k => (idx k : ℤ)) = x.get idx) →
    (∀ s ∈ st, ∀ p : ℕ → ℤ,
      ExtLaws s.2.2 ((List.range (x.shape.getD s.1 0)).map fun i : ℕ => e (Function.update p s.1 i))
        (fun t => e (Function.update p s.1 t))) →
    ∀ idx, InB (x.subband st key).shape idx → (x.subband st key).get idx = filterN st key e fun k => (idx k : ℤ) := by
  induction st with
  | nil =>
    intro key x e hk _ _ _ hb _ idx hidx
    cases key with
    | nil => exact (hb idx hidx).symm
    | cons => simp at hk
  | cons s st ih =>
    intro key x e hk hst hn hl hb he idx hidx
    cases key with
    | nil => simp at hk
    | cons c key =>
      have hmem := stagesOk_mem hst hn
      simp only [List.map_cons, List.nodup_cons] at hn
      obtain ⟨h1, hw, hlen, hst'⟩ := hst
      have hsh : (x.analyze s c).shape =
          x.shape.set s.1 (coeffLen s.2.2 (x.shape.getD s.1 0) s.2.1.dec_len) := rfl
      refine ih (key := key) (x := x.analyze s c) (e := filterAlong s c e) (by simpa using hk) (by rw [hsh]; exact hst')
        hn.2 ?_ ?_ ?_ idx hidx
      · intro p q hpq
        rw [hsh, List.length_set] at hpq
        unfold filterAlong
        rw [hpq _ h1]
        refine Finset.sum_congr rfl fun j _ => ?_
        congr 1
        apply hl
        intro k hk
        by_cases hks : k = s.1
        · subst hks; simp
        · rw [Function.update_of_ne hks, Function.update_of_ne hks, hpq k hk]
      · intro idx hidx
        unfold Arr.analyze Arr.along
        rw [hsh] at hidx
        rw [Arr.get_ofFn (Local_line x s.1 (analysis s.2.2 (s.2.1.decFilter c)) (by simp) (by simpa using h1)) hidx]
        have hline : x.line s.1 idx = (List.range (x.shape.getD s.1 0)).map fun i : ℕ =>
            e (Function.update (fun k => (idx k : ℤ)) s.1 i) := by
          unfold Arr.line
          apply List.map_congr_left
          intro i hi
          rw [List.mem_range] at hi
          rw [← hb]
          · congr 1
            funext k
            by_cases hks : k = s.1
            · subst hks; simp
            · simp [Function.update_of_ne hks]
          · intro k hk
            by_cases hks : k = s.1
            · subst hks; rw [Function.update_self]; exact hi
            · rw [Function.update_of_ne hks]
              have := hidx k (by rw [List.length_set]; exact hk)
              rwa [getD_set h1, if_neg hks] at this
        have ho := hidx s.1 (by rw [List.length_set]; exact h1)
        rw [getD_set h1, if_pos rfl] at ho
        rw [analysis_tap hw _ _ (by rw [Arr.line_length]; exact ho)]
        unfold filterAlong
        refine Finset.sum_congr rfl fun j _ => ?_
        congr 1
        have hlen' : LenOk s.2.2 (x.line s.1 idx).length := by rw [Arr.line_length]; exact hlen
        have hlaw := he s (by simp) fun k => (idx k : ℤ)
        rw [← hline] at hlaw
        exact congrFun (laws_unique hlen' hlaw (ext_laws hlen')) _
      · intro t ht p
        have hne : t.1 ≠ s.1 := fun h => hn.1 (h ▸ List.mem_map_of_mem ht)
        have hN : (x.analyze s c).shape.getD t.1 0 = x.shape.getD t.1 0 := by
          rw [hsh, getD_set h1, if_neg hne]
        rw [hN]
        have hlt := (hmem t (by simp [ht])).2.2
        have hG := laws_pi (mode := t.2.2) (x := (List.range (x.shape.getD t.1 0)).map fun i : ℕ => fun j : ℕ =>
            e (Function.update (Function.update p s.1 (tapPos s.2.2 s.2.1.dec_len (p s.1) - j)) t.1 (i : ℤ)))
          (e := fun u j => e (Function.update (Function.update p s.1 (tapPos s.2.2 s.2.1.dec_len (p s.1) - (j : ℕ))) t.1 u))
          (by simpa using hlt)
          (by
            intro j
            simpa [List.map_map, Function.comp_def] using
              he t (by simp [ht]) (Function.update p s.1 (tapPos s.2.2 s.2.1.dec_len (p s.1) - j)))
        have hL := laws_map (sumLin (M := M) (s.2.1.decFilter c) s.2.1.dec_len) (by simpa using hlt) hG
        have e1 : ∀ u : ℤ, filterAlong s c e (Function.update p t.1 u) =
            sumLin (M := M) (s.2.1.decFilter c) s.2.1.dec_len fun j : ℕ =>
              e (Function.update (Function.update p s.1 (tapPos s.2.2 s.2.1.dec_len (p s.1) - j)) t.1 u) := by
          intro u
          unfold filterAlong
          rw [Function.update_of_ne (Ne.symm hne)]
          refine Finset.sum_congr rfl fun j _ => ?_
          rw [Function.update_comm hne]
        simp only [e1]
        rw [List.map_map] at hL
        exact hL

end Pywt
