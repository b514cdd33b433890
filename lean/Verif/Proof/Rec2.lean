import Verif.Spec.Rec2
import Verif.Props.RecNear

/-!
# Proofs for C82
-/

namespace Pywt

open Finset Spec

set_option autoImplicit false
set_option linter.unusedSectionVars false

section
variable {R M : Type} [CommRing R] [AddCommGroup M] [Module R M]

theorem bandOf_tripleDict (p : Arr M × Arr M × Arr M) (A : Arr M) : bandOf (tripleDict p) A 2 = bandOf (dict3 p) A 2 := by
  funext k
  unfold bandOf
  congr 2
  unfold tripleDict
  simp only [List.lookup_cons, List.lookup_nil]
  by_cases h1 : k = ['a', 'd']
  · subst h1; rfl
  · by_cases h2 : k = ['d', 'a']
    · subst h2; rfl
    · rw [beq_false_of_ne h1, beq_false_of_ne h2]

/-- The dicts hold arrays of one shape each. -/
theorem cascade_tripleDict {st : List (Stage R)} (hl : st.length = 2) : ∀ (ps : List (Arr M × Arr M × Arr M)) (A : Arr M),
    (∀ p ∈ ps, p.2.1.shape = p.1.shape ∧ p.2.2.shape = p.1.shape) →
    waverecnCascade st (ps.map tripleDict) A = waverecnCascade st (ps.map dict3) A
  | [], _, _ => rfl
  | p :: ps, A, h => by
      have e1 : detailShape (tripleDict p) A.shape = p.1.shape := (h p (by simp)).1
      have e2 : detailShape (dict3 p) A.shape = p.1.shape := rfl
      simp only [List.map_cons, waverecnCascade]
      rw [hl, e1, e2, bandOf_tripleDict]
      exact cascade_tripleDict hl ps _ fun q hq => h q (by simp [hq])

theorem recnFits_tripleDict {st : List (Stage R)} (hl : st.length = 2) : ∀ (ps : List (Arr M × Arr M × Arr M)) (S : List ℕ),
    (∀ p ∈ ps, p.2.1.shape = p.1.shape ∧ p.2.2.shape = p.1.shape) →
    (RecnFits st (ps.map tripleDict) S ↔ RecnFits st (ps.map dict3) S)
  | [], _, _ => Iff.rfl
  | p :: ps, S, h => by
      obtain ⟨h1, h2⟩ := h p (by simp)
      have e1 : detailShape (tripleDict p) S = p.1.shape := h1
      have e2 : detailShape (dict3 p) S = p.1.shape := rfl
      simp only [List.map_cons, RecnFits]
      rw [hl, e1, e2, recnFits_tripleDict hl ps _ fun q hq => h q (by simp [hq])]
      have hd1 : DictOk (tripleDict p) 2 p.1.shape := by
        refine ⟨show [['a', 'd'], ['d', 'a'], ['d', 'd']].Nodup by decide, fun q hq => ?_⟩
        simp only [tripleDict, List.mem_cons, List.not_mem_nil, or_false] at hq
        rcases hq with rfl | rfl | rfl
        · exact ⟨show ['a', 'd'] ∈ words 2 by decide, h1⟩
        · exact ⟨show ['d', 'a'] ∈ words 2 by decide, rfl⟩
        · exact ⟨show ['d', 'd'] ∈ words 2 by decide, h2⟩
      have hd2 : DictOk (dict3 p) 2 p.1.shape := dict3_ok rfl h1 h2
      simp only [hd1, hd2, true_and]

end

/-- Edited coefficients are accepted. -/
theorem recnFits_near {ε : ℝ} {st : List (Stage ℝ)} (hne : st ≠ []) {x : Arr ℝ} {wavelet : PerAxis (Wavelet ℝ)}
    {mode : PerAxis Mode} {axes : Option (List ℤ)} {l : ℕ} (hr : Resolves x.ndim wavelet mode axes st)
    (hst : NearStages ε st x.shape (2 ^ l)) {A B : Arr ℝ} {ds es : List (List (Key × Arr ℝ))}
    (hx : wavedecn x wavelet mode (some (l : ℤ)) axes = .ok (.arr A :: ds.map Item.ofDict))
    (hB : B.shape = A.shape) (hes : layout es = layout ds) : B.ndim = x.ndim ∧ RecnFits st es B.shape ∧
      DoublingDicts st es B.shape := by
  have hx' := hx
  rw [C20_wavedecn_explicit_level hne hr (fun s hs => ⟨(hst.2 s hs).2.2.1, (hst.2 s hs).2.1.1⟩) hst.1, if_neg (by omega),
    Int.toNat_natCast] at hx'
  split at hx'
  swap
  · simp at hx'
  simp only [Except.ok.injEq, Arr.cascadeN, List.cons.injEq, Item.arr.injEq] at hx'
  obtain ⟨rfl, hx'⟩ := hx'
  have hds : ds = ((List.range l).map fun j => x.detailsN st j).reverse := by
    refine map_ofDict_inj ?_
    rw [← hx', List.map_reverse, List.map_map]
    rfl
  obtain ⟨g1, -⟩ := doubling_cascadeN (x := x) hne hst.1 (k := l) fun s hs =>
    ⟨(hst.2 s hs).1, (hst.2 s hs).2.2.1, (hst.2 s hs).2.2.2.2⟩
  rw [← hds] at g1
  have g3 := doublingDicts_layout hes g1
  rw [← hB] at g3
  have hBs : B.shape = (decShape st)^[l] x.shape := hB.trans (Arr.shape_approxN _ _ _)
  obtain ⟨f1, -, -⟩ := waverecnCascade_adjoint hne (x := x) l B es (fun j hj => hst.adj.level hj)
    (by rw [hBs]; exact ⟨rfl, fun _ _ => .inl rfl⟩) (by
      have : es.map dictShape = ds.map dictShape := hes
      rw [this, hds, List.map_reverse, List.map_map]; rfl)
  rw [invStages_near hst] at f1
  exact ⟨(congrArg List.length hB).trans (Arr.approxN_ndim st l x), f1, g3⟩

theorem doubling_triples {st : List (Stage ℝ)} : ∀ {ps : List (Arr ℝ × Arr ℝ × Arr ℝ)} {S : List ℕ},
    DoublingDicts st (ps.map tripleDict) S → ∀ p ∈ ps, p.2.1.shape = p.1.shape ∧ p.2.2.shape = p.1.shape
  | [], _, _, _, hp => by simp at hp
  | q :: ps, S, h, p, hp => by
      obtain ⟨-, h2, h3⟩ := h
      simp only [List.mem_cons] at hp
      rcases hp with rfl | hp
      · have a := h2 (['a', 'd'], p.2.1) (by simp [tripleDict])
        have b := h2 (['d', 'a'], p.1) (by simp [tripleDict])
        have c := h2 (['d', 'd'], p.2.2) (by simp [tripleDict])
        exact ⟨a.trans b.symm, c.trans b.symm⟩
      · exact doubling_triples h3 p hp

theorem layout_triples {ps qs : List (Arr ℝ × Arr ℝ × Arr ℝ)} (h : qs.map tripleShape = ps.map tripleShape) :
    layout (qs.map tripleDict) = layout (ps.map tripleDict) := by
  unfold layout
  rw [List.map_map, List.map_map]
  have e : ((fun d : List (List Char × Arr ℝ) => d.map fun p => (p.1, p.2.shape)) ∘ tripleDict) =
      (fun u : List ℕ × List ℕ × List ℕ => [(['a', 'd'], u.2.1), (['d', 'a'], u.1), (['d', 'd'], u.2.2)]) ∘ tripleShape := rfl
  rw [e, ← List.map_map, ← List.map_map, h]

theorem dist2D_triples (ps qs : List (Arr ℝ × Arr ℝ × Arr ℝ)) :
    dist2D (ps.map tripleDict) (qs.map tripleDict) = dist2T ps qs := by
  unfold dist2D dist2T
  rw [List.zipWith_map]
  congr 2
  funext p q
  simp only [tripleDict, List.zipWith_cons_cons, List.zipWith_nil_left, List.sum_cons, List.sum_nil]
  ring

theorem energy_triples (ps : List (Arr ℝ × Arr ℝ × Arr ℝ)) :
    ((ps.map tripleDict).map fun d => (d.map fun p => energy p.2.data).sum).sum =
      (ps.map fun p => energy p.1.data + energy p.2.1.data + energy p.2.2.data).sum := by
  rw [List.map_map]
  congr 1
  refine List.map_congr_left fun p _ => ?_
  simp only [Function.comp_apply, tripleDict, List.map_cons, List.map_nil, List.sum_cons, List.sum_nil]
  ring

theorem map_ofTriple_inj {M : Type} {ps qs : List (Arr M × Arr M × Arr M)} (h : ps.map Item.ofTriple = qs.map Item.ofTriple) : ps = qs := by
  refine List.map_injective_iff.2 ?_ h
  rintro ⟨a, b, c⟩ ⟨d, e, f⟩ h
  simpa [Item.ofTriple] using h

theorem ofDict_triples {M : Type} (ps : List (Arr M × Arr M × Arr M)) : (ps.map tripleDict).map Item.ofDict =
    ps.map fun t => Item.dict [(['a', 'd'], some t.2.1), (['d', 'a'], some t.1), (['d', 'd'], some t.2.2)] := by
  rw [List.map_map]
  rfl

end Pywt
