import Verif.Spec.Rec2Move
import Verif.Proof.Rec2
import Verif.Proof.RecRoll
import Verif.Proof.RecTranspose

/-!
# Proofs for C93
-/

namespace Pywt

open Finset Spec

set_option autoImplicit false
set_option linter.unusedSectionVars false

variable {R M : Type} [CommRing R] [AddCommGroup M] [Module R M]

theorem mapDict_dict3 (f : Arr M → Arr M) (p : Arr M × Arr M × Arr M) : mapDict f (dict3 p) = dict3 (map3 f p) := rfl

theorem mapIdx_dict3 (f : ℕ → Arr M → Arr M) (ps : List (Arr M × Arr M × Arr M)) :
    (ps.map dict3).mapIdx (fun i d => mapDict (f i) d) = (ps.mapIdx fun i p => map3 (f i) p).map dict3 :=
  List.ext_getElem (by simp) fun i h1 h2 => by
    simp only [List.getElem_mapIdx, List.getElem_map]
    rfl

theorem exactAlong_tripleDict {st : List (Stage R)} {ax : ℕ} : ∀ (ps : List (Arr M × Arr M × Arr M)) (S : List ℕ),
    (∀ p ∈ ps, p.2.1.shape = p.1.shape ∧ p.2.2.shape = p.1.shape) →
    ExactAlong st ax (ps.map tripleDict) S → ExactAlong st ax (ps.map dict3) S
  | [], _, _, _ => trivial
  | p :: ps, S, h, he => by
      have e1 : detailShape (tripleDict p) S = p.1.shape := (h p (by simp)).1
      have e2 : detailShape (dict3 p) S = p.1.shape := rfl
      simp only [List.map_cons, ExactAlong] at he ⊢
      rw [e1] at he
      rw [e2]
      exact ⟨he.1, exactAlong_tripleDict ps _ (fun q hq => h q (by simp [hq])) he.2⟩

/-! ### The order of the two axes -/

theorem resynth_comm {s t : Stage R} (hst : s.1 ≠ t.1) (hs : s.2.1.Ok) (ht : t.2.1.Ok) {x : Arr M} (h1 : s.1 < x.shape.length)
    (h2 : t.1 < x.shape.length) (c d : Char) : x.resynth [t, s] [d, c] = x.resynth [s, t] [c, d] := by
  have h := along_comm (R := R) (x := x) hst h1 h2 rfl rfl (isMat_synthesis1 s.2.2 (s.2.1.recFilter c) _)
    (isMat_synthesis1 t.2.2 (t.2.1.recFilter d) _)
  rw [recFilter_length hs, recFilter_length ht] at h
  exact h

theorem synthShape_comm {s t : Stage R} (hst : s.1 ≠ t.1) (S : List ℕ) : synthShape [t, s] S = synthShape [s, t] S := by
  simp only [synthShape, List.foldr_cons, List.foldr_nil]
  exact List.set_comm _ _ hst

theorem synthFits_comm {s t : Stage R} {S : List ℕ} (h : SynthFits [s, t] S) : SynthFits [t, s] S := by
  refine ⟨?_, fun u hu => h.2 u (by simp at hu ⊢; tauto)⟩
  have := h.1
  simp only [List.map_cons, List.map_nil, List.nodup_cons, List.mem_singleton, List.not_mem_nil, not_false_eq_true,
    List.nodup_nil, and_true] at this ⊢
  exact fun e => this e.symm

theorem idwtnStep_comm {s t : Stage R} {S : List ℕ} (hf : SynthFits [s, t] S) {band band' : Key → Arr M}
    (hb : ∀ k, (band k).shape = S) (hb' : ∀ k, (band' k).shape = S) (h : ∀ c d, band' [d, c] = band [c, d]) :
    Arr.idwtnStep [t, s] band' S = Arr.idwtnStep [s, t] band S := by
  have hst : s.1 ≠ t.1 := by simpa using hf.1
  obtain ⟨s1, s2, -⟩ := hf.2 s (by simp)
  obtain ⟨t1, t2, -⟩ := hf.2 t (by simp)
  refine Arr.ext_get (synthShape_comm hst S) fun idx hidx => ?_
  have h1 : InB (synthShape [t, s] S) idx := hidx
  have h2 : InB (synthShape [s, t] S) idx := by rw [← synthShape_comm hst]; exact h1
  rw [idwtnStep_get_sum hb' h1, idwtnStep_get_sum hb h2]
  have key : ∀ c d, (band' [d, c]).resynth [t, s] [d, c] = (band [c, d]).resynth [s, t] [c, d] := fun c d => by
    rw [h, resynth_comm hst s2 t2 (by rw [hb]; exact s1) (by rw [hb]; exact t1)]
  show ([['a', 'a'], ['a', 'd'], ['d', 'a'], ['d', 'd']].map fun k => ((band' k).resynth [t, s] k).get idx).sum =
    ([['a', 'a'], ['a', 'd'], ['d', 'a'], ['d', 'd']].map fun k => ((band k).resynth [s, t] k).get idx).sum
  simp only [List.map_cons, List.map_nil, List.sum_cons, List.sum_nil, key]
  abel

/-- `(cH, cV, cD)` with horizontal and vertical details exchanged. -/
def flip3 (p : Arr M × Arr M × Arr M) : Arr M × Arr M × Arr M := (p.2.1, p.1, p.2.2)

theorem lookup3 (a b e : Arr M) (u v : Char) : List.lookup [u, v] [(['d', 'a'], a), (['a', 'd'], b), (['d', 'd'], e)] =
    if u = 'd' ∧ v = 'a' then some a else if u = 'a' ∧ v = 'd' then some b else
      if u = 'd' ∧ v = 'd' then some e else none := by
  have hne : ∀ {x y : Char}, ¬ (u = x ∧ v = y) → ([u, v] == [x, y]) = false := fun h =>
    beq_false_of_ne fun e => h (by simpa using e)
  rw [List.lookup_cons, List.lookup_cons, List.lookup_cons]
  split_ifs with h1 h2 h3
  · obtain ⟨rfl, rfl⟩ := h1; rfl
  · obtain ⟨rfl, rfl⟩ := h2; rfl
  · obtain ⟨rfl, rfl⟩ := h3; rfl
  · rw [hne h1, hne h2, hne h3]; rfl

theorem bandOf_flip3 (p : Arr M × Arr M × Arr M) (A : Arr M) (c d : Char) :
    bandOf (dict3 (flip3 p)) A 2 [d, c] = bandOf (dict3 p) A 2 [c, d] := by
  unfold bandOf
  have e0 : ([d, c] = List.replicate 2 'a') ↔ ([c, d] = List.replicate 2 'a') := by
    simp only [List.replicate, List.cons.injEq, and_true]
    tauto
  by_cases h0 : [c, d] = List.replicate 2 'a'
  · rw [if_pos h0, if_pos (e0.mpr h0)]
  · rw [if_neg h0, if_neg fun h => h0 (e0.mp h)]
    congr 1
    rw [show dict3 (flip3 p) = [(['d', 'a'], p.2.1), (['a', 'd'], p.1), (['d', 'd'], p.2.2)] from rfl,
      show dict3 p = [(['d', 'a'], p.1), (['a', 'd'], p.2.1), (['d', 'd'], p.2.2)] from rfl, lookup3, lookup3]
    by_cases u1 : c = 'd' <;> by_cases u2 : c = 'a' <;> by_cases v1 : d = 'd' <;> by_cases v2 : d = 'a' <;> simp_all

/-- With the two axes exchanged, the same image comes from triples with horizontal and vertical details exchanged. -/
theorem waverecnCascade_comm {s t : Stage R} : ∀ {ps : List (Arr M × Arr M × Arr M)} {A : Arr M},
    (∀ p ∈ ps, p.2.1.shape = p.1.shape ∧ p.2.2.shape = p.1.shape) → RecnFits [s, t] (ps.map dict3) A.shape →
    RecnFits [t, s] ((ps.map flip3).map dict3) A.shape ∧
    waverecnCascade [t, s] ((ps.map flip3).map dict3) A = waverecnCascade [s, t] (ps.map dict3) A
  | [], A, _, _ => ⟨trivial, rfl⟩
  | p :: ps, A, hp, hf => by
      obtain ⟨f1, f2, f3, f4⟩ := hf
      obtain ⟨p1, p2⟩ := hp p (by simp)
      have hst : s.1 ≠ t.1 := by simpa using f3.1
      have e1 : ∀ sh, detailShape (dict3 p) sh = p.1.shape := fun _ => rfl
      have e2 : ∀ sh, detailShape (dict3 (flip3 p)) sh = p.1.shape := fun _ => p1
      rw [e1] at f1 f2 f3 f4
      have hcr : (A.crop p.1.shape).shape = p.1.shape := rfl
      have hbs : ∀ (d : List (Key × Arr M)) k, DictOk d 2 p.1.shape → (bandOf d (A.crop p.1.shape) 2 k).shape = p.1.shape := by
        intro d k hd
        exact bandOf_shape (A := A.crop p.1.shape) hd k
      have hd1 : DictOk (dict3 p) 2 p.1.shape := dict3_ok rfl p1 p2
      have hd2 : DictOk (dict3 (flip3 p)) 2 p.1.shape := dict3_ok p1 rfl p2
      have hstep : Arr.idwtnStep [t, s] (bandOf (dict3 (flip3 p)) (A.crop p.1.shape) 2) p.1.shape =
          Arr.idwtnStep [s, t] (bandOf (dict3 p) (A.crop p.1.shape) 2) p.1.shape :=
        idwtnStep_comm f3 (fun k => hbs _ k hd1) (fun k => hbs _ k hd2) fun c d => bandOf_flip3 p _ c d
      have hsh : (Arr.idwtnStep [s, t] (bandOf (dict3 p) (A.crop p.1.shape) 2) p.1.shape).shape =
          synthShape [s, t] p.1.shape := rfl
      obtain ⟨g1, g2⟩ := waverecnCascade_comm (s := s) (t := t) (ps := ps)
        (A := Arr.idwtnStep [s, t] (bandOf (dict3 p) (A.crop p.1.shape) 2) p.1.shape) (fun q hq => hp q (by simp [hq]))
        (by rw [hsh]; exact f4)
      refine ⟨⟨?_, ?_, ?_, ?_⟩, ?_⟩
      · rw [e2]; exact hd2
      · rw [e2]; exact f2
      · rw [e2]; exact synthFits_comm f3
      · rw [e2, synthShape_comm hst]; exact g1
      · simp only [List.map_cons, waverecnCascade, e1, e2, List.length_cons, List.length_nil]
        rw [hstep]
        exact g2

end Pywt
