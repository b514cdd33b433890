import Verif.Proof.PacketTidy
import Verif.Proof.PacketKinds

/-!
# Leaves of packet trees, and packets rebuilt from leaves
-/

namespace Pywt

open Spec

set_option linter.unusedSectionVars false

namespace PKind

variable {P D : Type} [DecidableEq P] {k : PKind P D} {x : D} {t : PTree P D}

theorem Inv.tidy (h : Inv k x t) : Tidy k t where
  root := h.root
  up p q hq := by
    obtain ⟨h1, h2⟩ := h.par p q hq
    refine ⟨h1, h2, ?_⟩
    rcases h.depth _ hq with h3 | h3
    · simp at h3
    · simp at h3; omega

/-- Two stop conditions that agree on the nodes of unmodified trees give the same walk. -/
theorem Inv.walk_congr {s1 s2 : PTree P D → List P → Bool} (dec : Bool)
    (hs : ∀ t p, Inv k x t → (t p).isSome → s1 t p = s2 t p) :
    ∀ (n : ℕ) (p : List P) {t : PTree P D}, Inv k x t → (t p).isSome →
      k.walk s1 dec n p t = k.walk s2 dec n p t := by
  intro n
  induction n with
  | zero => intro p t h hp; rfl
  | succ n ih =>
    intro p t h hp
    unfold PKind.walk
    rw [hs t p h hp]
    have key : ∀ (qs : List P) (t : PTree P D), Inv k x t → (t p).isSome → forParts (fun t q =>
        match k.getSubnode t p q dec with
        | (.error e, t') => (.error e, t')
        | (.ok none, t') => (.ok [], t')
        | (.ok (some p'), t') => PKind.walk k s1 dec n p' t') qs t =
        forParts (fun t q =>
        match k.getSubnode t p q dec with
        | (.error e, t') => (.error e, t')
        | (.ok none, t') => (.ok [], t')
        | (.ok (some p'), t') => PKind.walk k s2 dec n p' t') qs t := by
      intro qs
      induction qs with
      | nil => intro t h hp; rfl
      | cons q qs ihq =>
        intro t h hp
        obtain ⟨g1, g2, g3⟩ := h.tidy.getSubnode hp q dec
        have gI : Inv k x (k.getSubnode t p q dec).2 := by
          by_cases hq : q ∈ k.parts
          · cases dec with
            | false =>
              rw [getSubnode_false t p q hq]
              exact h
            | true =>
              obtain ⟨d, ha, hd⟩ := h.dataAt hp
              exact (h.getSubnode hp ha hq).1
          · rw [getSubnode_bad _ hq]; exact h
        unfold forParts
        rcases hg : k.getSubnode t p q dec with ⟨r, t'⟩
        rw [hg] at g1 g2 g3 gI
        have hp' : (t' p).isSome := by
          have := g2.self
          simp only at this
          rw [this]; exact hp
        cases r with
        | error e => rfl
        | ok o =>
          cases o with
          | none =>
            simp only
            rw [ihq t' gI hp']
          | some p1 =>
            obtain ⟨rfl, e2⟩ := g3 p1 rfl
            simp only
            rw [ih (p ++ [q]) gI e2]
            obtain ⟨w1, -⟩ := Inv.walk (k := k) (x := x) s2 dec n (p ++ [q]) gI e2
            obtain ⟨-, w2⟩ := g1.walk s2 dec n (p ++ [q]) e2
            rcases hw : k.walk s2 dec n (p ++ [q]) t' with ⟨r2, t2⟩
            rw [hw] at w1 w2
            have hp2 : (t2 p).isSome := by
              have := w2.weaken.self
              simp only at this
              rw [this]; exact hp'
            cases r2 with
            | error e => rfl
            | ok l =>
              simp only
              rw [ihq t2 w1 hp2]
    split_ifs
    · rfl
    · exact key k.parts t h hp
    · rfl

/-- `get_leaf_nodes(decompose=True)` of an unmodified tree: all nodes of level `maxlevel`. -/
theorem Inv.getLeafNodes (h : Inv k x t) {m : ℕ} (hm : k.maxlevel = m) :
    k.getLeafNodes t true = k.getLevel t m true := by
  unfold PKind.getLeafNodes PKind.getLevel
  rw [if_neg (by omega)]
  apply Inv.walk_congr (x := x) true _ _ _ h h.root
  intro t p h hp
  obtain ⟨d, -, hd⟩ := h.dataAt hp
  simp [hd, hm]

/-- Below every node there is a leaf. -/
theorem Tidy.leaf_below (h : Tidy k t) : ∀ (n : ℕ) (p : List P), (t p).isSome →
    k.maxlevel.toNat < n + p.length → ∃ r, p <+: r ∧ Leaf t r := by
  intro n
  induction n with
  | zero =>
    intro p hp hn
    exfalso
    rcases h.depth p hp with rfl | h1
    · simp at hn
    · omega
  | succ n ih =>
    intro p hp hn
    by_cases hc : ∃ q, (t (p ++ [q])).isSome
    · obtain ⟨q, hq⟩ := hc
      obtain ⟨r, r1, r2⟩ := ih (p ++ [q]) hq (by simp; omega)
      exact ⟨r, (List.prefix_append p [q]).trans r1, r2⟩
    · refine ⟨p, List.prefix_rfl, hp, fun q => ?_⟩
      cases hh : t (p ++ [q]) with
      | none => rfl
      | some nd => exact absurd ⟨q, by rw [hh]; rfl⟩ hc

/-- The tree of an empty packet after assignments. -/
theorem sets_tree (f : List P → D) : ∀ (L : List (List P)) {t : PTree P D} (L0 : List (List P)),
    Tidy k t →
    (∀ r, t r = if r ∈ L0 then some ⟨some (f r), none⟩
      else if r = [] ∨ ∃ p ∈ L0, r <+: p then some ⟨none, none⟩ else none) →
    (∀ p ∈ L, (p.length : ℤ) ≤ k.maxlevel ∧ ∀ q ∈ p, q ∈ k.parts) →
    ∀ r, (L.map fun p => POp.set p (f p)).foldl k.exec t r =
      if r ∈ L0 ++ L then some ⟨some (f r), none⟩
      else if r = [] ∨ ∃ p ∈ L0 ++ L, r <+: p then some ⟨none, none⟩ else none := by
  intro L
  induction L with
  | nil => intro t L0 _ h _; simpa using h
  | cons p L ih =>
    intro t L0 ht h hL
    obtain ⟨i1, i2, i3⟩ := Tidy.setItem (f p) p [] ht ht.root
    have hok := i2.2 (by simpa using hL p (by simp))
    have i4 := i3 hok
    simp only [List.map_cons, List.foldl_cons]
    have e : L0 ++ p :: L = (L0 ++ [p]) ++ L := by simp
    rw [e]
    refine ih (L0 ++ [p]) i1 (fun r => ?_) fun p' h' => hL p' (by simp [h'])
    simp only [PKind.exec]
    rw [i4 r]
    simp only [List.nil_append, List.nil_prefix, true_and, List.mem_append, List.mem_singleton]
    rw [h r]
    by_cases c1 : r = p
    · subst c1
      simp only [if_true, or_true]
      split_ifs <;> rfl
    · simp only [if_neg c1, or_false]
      by_cases c2 : r ∈ L0
      · simp [c2]
      · have c6 : ¬ (r ∈ L0 ∨ r = p) := by simp [c1, c2]
        simp only [if_neg c2]
        by_cases c3 : r = [] ∨ ∃ p ∈ L0, r <+: p
        · have c4 : r = [] ∨ ∃ p' ∈ L0 ++ [p], r <+: p' := by
            rcases c3 with c3 | ⟨p', a, b⟩
            · exact Or.inl c3
            · exact Or.inr ⟨p', by simp [a], b⟩
          simp only [if_neg c6, if_pos c3, if_pos c4, Option.isSome_some, if_true]
        · simp only [if_neg c3]
          by_cases c5 : r <+: p
          · have c4 : r = [] ∨ ∃ p' ∈ L0 ++ [p], r <+: p' := Or.inr ⟨p, by simp, c5⟩
            simp only [if_neg c6, if_pos c5, if_pos c4, Option.isSome_none, Bool.false_eq_true, if_false]
          · have c4 : ¬ (r = [] ∨ ∃ p' ∈ L0 ++ [p], r <+: p') := by
              simp only [List.mem_append, List.mem_singleton]
              rintro (a | ⟨p', a | rfl, b⟩)
              · exact c3 (Or.inl a)
              · exact c3 (Or.inr ⟨p', a, b⟩)
              · exact c5 b
            simp only [if_neg c6, if_neg c5, if_neg c4, Option.isSome_none, Bool.false_eq_true, if_false]

/-- Every decomposed node is returned exactly by the inverse transform of `k'`, without cutting. -/
def Exact (k k' : PKind P D) (x : D) (t : PTree P D) : Prop :=
  ∀ p d c, (t p).isSome → (∃ q, (t (p ++ [q])).isSome) → k.along x p = .ok d → k.dec d = .ok c →
    k'.recon (fun q => if q ∈ k.parts then some (c q) else none) = .ok d

/-- Reconstruction of a tree that has the nodes of an unmodified tree, with data at the leaves only. -/
theorem rebuilt_reconstruct {k' : PKind P D} (hp' : k'.parts = k.parts)
    (h : Inv k x t) (he : Exact k k' x t) {t' : PTree P D}
    (hn : ∀ r, (t' r).isSome = (t r).isSome)
    (hl : ∀ r d, Leaf t r → k.along x r = .ok d → t' r = some ⟨some d, none⟩)
    (hi : ∀ r, (t r).isSome → ¬ Leaf t r → t' r = some ⟨none, none⟩) :
    ∀ (n : ℕ) (p : List P) (d : D), (t p).isSome → k.along x p = .ok d →
      k.maxlevel.toNat < n + p.length → k'.reconstruct t' n p = .ok (some d) := by
  have hany : ∀ p, k'.hasAny t' p = k.hasAny t p := by
    intro p
    unfold hasAny
    rw [hp']
    simp only [hn]
  intro n
  induction n with
  | zero =>
    intro p d hp ha hn'
    exfalso
    rcases h.depth p hp with rfl | h1
    · simp at hn'
    · omega
  | succ n ih =>
    intro p d hp ha hn'
    unfold PKind.reconstruct
    by_cases hleaf : Leaf t p
    · rw [hl p d hleaf ha]
      have e : k'.hasAny t' p = false := by
        rw [hany]
        unfold hasAny
        rw [List.any_eq_false]
        intro q _
        rw [hleaf.2 q]
        simp
      simp [e]
    · rw [hi p hp hleaf]
      have hex : ∃ q, (t (p ++ [q])).isSome := by
        by_contra hc
        refine hleaf ⟨hp, fun q => ?_⟩
        cases hh : t (p ++ [q]) with
        | none => rfl
        | some nd => exact absurd ⟨q, by rw [hh]; rfl⟩ hc
      obtain ⟨q0, hq0⟩ := hex
      have hq0p := (h.par p q0 hq0).2
      have hall : ∀ q ∈ k.parts, (t (p ++ [q])).isSome := fun q hq => h.sib p q0 q hq hq0
      have e : k'.hasAny t' p = true := by
        rw [hany, h.hasAny_iff]
        exact ⟨⟨q0, hq0p⟩, hall⟩
      obtain ⟨d0, a0, -⟩ := h.dataAt hq0
      rw [along_snoc, ha] at a0
      cases hc : k.dec d with
      | error e => simp only [hc] at a0; cases a0
      | ok c =>
        have hg : gather (fun q => if (t' (p ++ [q])).isSome then PKind.reconstruct k' t' n (p ++ [q])
            else .ok none) k'.parts = .ok fun q => if q ∈ k.parts then some (c q) else none := by
          rw [hp']
          apply gather_ok (g := fun q => some (c q))
          intro q hq
          rw [hn, if_pos (hall q hq)]
          apply ih (p ++ [q]) (c q) (hall q hq)
          · rw [along_snoc, ha]; simp only [hc]
          · simp; omega
        simp only [e, Bool.not_true, Bool.false_eq_true, if_false]
        rw [hg]
        simp only [Py_bind_ok, he p d c hp ⟨q0, hq0⟩ ha hc, Py_pure]

/-- **From the leaves.**  Assigning the leaves of an unmodified tree to an empty packet, in any order, and
reconstructing returns the original data, if no node has to be cut. -/
theorem Inv.from_leaves {k' : PKind P D} (hp' : k'.parts = k.parts)
    (hm' : k'.maxlevel = k.maxlevel) (hs' : k'.size = none) (h0 : 0 ≤ k.maxlevel)
    (h : Inv k x t) (he : Exact k k' x t) {L : List (List P)} (hL : ∀ r, r ∈ L ↔ Leaf t r)
    (f : List P → D) (hf : ∀ r ∈ L, ∀ d, k.along x r = .ok d → f r = d) (update : Bool) :
    (k'.reconstructRoot ((L.map fun p => POp.set p (f p)).foldl k'.exec (k'.init none)) update).1 =
      .ok (some x) := by
  have hT := h.tidy
  have htree := sets_tree (k := k') f L (t := k'.init none) [] (tidy_init k' none)
    (by
      intro r
      unfold PKind.init
      simp only [List.not_mem_nil, if_false, false_and, exists_false, or_false]
      rfl)
    (by
      intro p hp
      have hleaf := (hL p).1 hp
      rw [hp', hm']
      refine ⟨?_, hT.letters p hleaf.1⟩
      rcases hT.depth p hleaf.1 with rfl | h1
      · simpa using h0
      · exact h1)
  set t' := (L.map fun p => POp.set p (f p)).foldl k'.exec (k'.init none) with ht'
  simp only [List.nil_append] at htree
  have hpre : ∀ r, (r = [] ∨ ∃ p ∈ L, r <+: p) ↔ (t r).isSome := by
    intro r
    constructor
    · rintro (rfl | ⟨p, hp, s, rfl⟩)
      · exact h.root
      · exact hT.anc r s ((hL _).1 hp).1
    · intro hr
      obtain ⟨p, p1, p2⟩ := hT.leaf_below k.fuel r hr (by unfold fuel; omega)
      exact Or.inr ⟨p, (hL p).2 p2, p1⟩
  have hl : ∀ r d, Leaf t r → k.along x r = .ok d → t' r = some ⟨some d, none⟩ := by
    intro r d hr hd
    rw [htree, if_pos ((hL r).2 hr), hf r ((hL r).2 hr) d hd]
  have hi : ∀ r, (t r).isSome → ¬ Leaf t r → t' r = some ⟨none, none⟩ := by
    intro r hr hn
    rw [htree, if_neg (fun hc => hn ((hL r).1 hc)), if_pos ((hpre r).2 hr)]
  have hn : ∀ r, (t' r).isSome = (t r).isSome := by
    intro r
    by_cases hr : (t r).isSome
    · rw [hr]
      by_cases hc : Leaf t r
      · obtain ⟨d, hd, -⟩ := h.dataAt hr
        rw [hl r d hc hd]; rfl
      · rw [hi r hr hc]; rfl
    · rw [htree, if_neg (fun hc => hr ((hL r).1 hc).1), if_neg (fun hc => hr ((hpre r).1 hc))]
      simpa using hr
  have hrec := rebuilt_reconstruct hp' h he hn hl hi k'.fuel [] x h.root rfl
    (by unfold fuel; rw [hm']; omega)
  unfold PKind.reconstructRoot
  by_cases hany : k'.hasAny t' [] = true
  · rw [if_pos hany]
    unfold PKind.reconstructNode
    rw [hrec, hs']
  · rw [if_neg hany]
    have hleaf : Leaf t [] := by
      refine ⟨h.root, fun q => ?_⟩
      cases hh : t ([] ++ [q]) with
      | none => rfl
      | some nd =>
        exfalso
        apply hany
        have hq : (t ([] ++ [q])).isSome := by rw [hh]; rfl
        unfold hasAny
        rw [List.any_eq_true]
        refine ⟨q, by rw [hp']; exact (h.par [] q hq).2, ?_⟩
        rw [hn]; exact hq
    rw [hl [] x hleaf rfl]
    rfl

end PKind

/-! ### Even sizes -/

variable {R M : Type} [Ring R] [AddCommGroup M] [Module R M]

theorem idwtPair_axis (w : Wavelet R) (mode : Mode) {axis : ℤ} {ax : ℕ} {a d : Arr M}
    (ha : AxisIs a.ndim axis ax) : idwtPair w mode axis a d = idwtPair w mode (ax : ℤ) a d := by
  have ha' : AxisIs a.ndim (ax : ℤ) ax := ⟨by simp, ha.2⟩
  unfold idwtPair
  rw [ha.normAxis, ha'.normAxis]

theorem packet1_exact {w : Wavelet R} (hw : w.Ok) (hpr : PR w.dec_lo w.dec_hi w.rec_lo w.rec_hi)
    {mode : Mode} {axis : ℤ} {ax : ℕ} {m m' : ℤ} {sz sz' : Option (List ℕ)} {d : Arr M} {c : Char → Arr M}
    (ha : AxisIs d.ndim axis ax)
    (hc : (packet1 w mode ax m sz).dec d = .ok c) (he : d.shape.getD ax 0 % 2 = 0) :
    (packet1 w mode axis m' sz').recon
      (fun q => if q ∈ (packet1 (M := M) w mode ax m sz).parts then some (c q) else none) = .ok d := by
  have hax : ax < d.ndim := ha.2
  obtain ⟨y, y1, y2, y3⟩ := packet1_recon hw hpr hc
  have hca : (c 'a').ndim = d.ndim := by
    rw [packet1_dec hw hax] at hc
    split_ifs at hc with hl
    injection hc with hc
    rw [← hc]
    unfold Arr.ndim
    simp [Arr.shape_along]
  have e : (packet1 (M := M) w mode axis m' sz').recon
      (fun q => if q ∈ (packet1 (M := M) w mode ax m sz).parts then some (c q) else none) = .ok y := by
    rw [← y1]
    show idwtPair w mode axis (c 'a') (c 'd') = idwtPair w mode (ax : ℤ) (c 'a') (c 'd')
    exact idwtPair_axis w mode (by rw [hca]; exact ha)
  rw [e]
  congr 1
  refine extends_eq y2 ?_
  have hax' : ax < d.shape.length := hax
  rw [y3, he, add_zero, List.getD_eq_getElem (hn := hax'), List.set_getElem_self]

/-- The sizes of the nodes of a `WaveletPacket`. -/
theorem packet1_along {w : Wavelet R} (hw : w.Ok) {mode : Mode} {ax : ℕ} {m : ℤ} {sz : Option (List ℕ)} :
    ∀ (p : List Char) (x d : Arr M), ax < x.ndim → (packet1 w mode ax m sz).along x p = .ok d →
      d.ndim = x.ndim ∧ d.shape.getD ax 0 = approxLen mode w.dec_len (x.shape.getD ax 0) p.length := by
  intro p
  induction p with
  | nil =>
    intro x d _ h
    unfold PKind.along at h
    injection h with h
    subst h
    exact ⟨rfl, rfl⟩
  | cons q p ih =>
    intro x d hax h
    unfold PKind.along at h
    rw [packet1_dec hw hax] at h
    by_cases hl : LenOk mode (x.shape.getD ax 0)
    · simp only [if_pos hl] at h
      have hn : ∀ n (f : List M → List M), (x.along ax n f).ndim = x.ndim := by
        intro n f; unfold Arr.ndim; rw [Arr.shape_along]; simp
      have hs : ∀ n (f : List M → List M), (x.along ax n f).shape.getD ax 0 = n := by
        intro n f; rw [Arr.shape_along]; simp [List.getD_eq_getElem?_getD, show ax < x.shape.length from hax]
      obtain ⟨h1, h2⟩ := ih _ d (by split_ifs <;> rw [hn] <;> exact hax) h
      constructor
      · rw [h1]
        split_ifs <;> rw [hn]
      · rw [h2, List.length_cons, approxLen_succ']
        split_ifs <;> rw [hs]
    · simp only [if_neg hl] at h
      cases h

/-- The sizes of the nodes of a `WaveletPacket2D`. -/
theorem packet2_along_len {w : Wavelet R} (hw : w.Ok) {mode : Mode} {axes : List ℤ} {a b : ℕ} {m : ℤ}
    {sz : Option (List ℕ)} : ∀ (p : List Char) (x d : Arr M), AxesAre x.ndim (some axes) [a, b] →
      (packet2 w mode axes m sz).along x p = .ok d →
      ∀ j ∈ [a, b], d.shape.getD j 0 = approxLen mode w.dec_len (x.shape.getD j 0) p.length := by
  intro p
  induction p with
  | nil =>
    intro x d _ h
    unfold PKind.along at h
    injection h with h
    subst h
    exact fun _ _ => rfl
  | cons q p ih =>
    intro x d ha h
    unfold PKind.along at h
    rw [packet2_dec hw ha] at h
    have hne : a ≠ b := by simpa using ha.2.1
    have h1 : a < x.shape.length := ha.2.2 a (by simp)
    have h2 : b < x.shape.length := ha.2.2 b (by simp)
    by_cases hl : LenOk mode (x.shape.getD a 0) ∧ LenOk mode (x.shape.getD b 0)
    · simp only [if_pos hl] at h
      have hn : ∀ u v : Char, ((x.analyze (a, w, mode) u).analyze (b, w, mode) v).ndim = x.ndim ∧
          ∀ j ∈ [a, b], ((x.analyze (a, w, mode) u).analyze (b, w, mode) v).shape.getD j 0 =
            coeffLen mode (x.shape.getD j 0) w.dec_len := by
        intro u v
        unfold Arr.ndim
        rw [Arr.shape_analyze, Arr.shape_analyze]
        refine ⟨by simp, fun j hj => ?_⟩
        simp only [List.mem_cons, List.not_mem_nil, or_false] at hj
        rcases hj with rfl | rfl
        · simp [List.getD_eq_getElem?_getD, List.getElem?_set, h1, hne, hne.symm]
        · simp [List.getD_eq_getElem?_getD, List.getElem?_set, h2, hne, hne.symm]
      have hn2 : (pick2 ((x.analyze (a, w, mode) 'a').analyze (b, w, mode) 'a',
          ((x.analyze (a, w, mode) 'd').analyze (b, w, mode) 'a',
            (x.analyze (a, w, mode) 'a').analyze (b, w, mode) 'd',
            (x.analyze (a, w, mode) 'd').analyze (b, w, mode) 'd')) q).ndim = x.ndim ∧
          ∀ j ∈ [a, b], (pick2 ((x.analyze (a, w, mode) 'a').analyze (b, w, mode) 'a',
          ((x.analyze (a, w, mode) 'd').analyze (b, w, mode) 'a',
            (x.analyze (a, w, mode) 'a').analyze (b, w, mode) 'd',
            (x.analyze (a, w, mode) 'd').analyze (b, w, mode) 'd')) q).shape.getD j 0 =
            coeffLen mode (x.shape.getD j 0) w.dec_len := by
        unfold pick2
        split_ifs <;> exact hn _ _
      intro j hj
      rw [ih _ d (by rw [hn2.1]; exact ha) h j hj, hn2.2 j hj, List.length_cons, approxLen_succ']
    · simp only [if_neg hl] at h
      cases h

/-- Lengths along a decomposition with periodization of a length divisible by `2 ^ (n + 1)`. -/
theorem approxLen_per_even {F N n : ℕ} (h : 2 ^ (n + 1) ∣ N) : approxLen .periodization F N n % 2 = 0 := by
  induction n generalizing N with
  | zero => exact Nat.mod_eq_zero_of_dvd (show 2 ∣ N by simpa using h)
  | succ n ih =>
    rw [approxLen_succ']
    refine ih ?_
    obtain ⟨c, rfl⟩ := h
    refine ⟨c, ?_⟩
    have : 2 ^ (n + 1 + 1) * c = 2 * (2 ^ (n + 1) * c) := by ring
    rw [this]
    unfold coeffLen
    simp only [if_true]
    omega

theorem shape_even {y d : Arr M} {ax : List ℕ} (h : y.Extends d)
    (h1 : ∀ a ∈ ax, y.shape.getD a 0 = d.shape.getD a 0 + d.shape.getD a 0 % 2)
    (h2 : ∀ j, j ∉ ax → y.shape.getD j 0 = d.shape.getD j 0)
    (he : ∀ a ∈ ax, d.shape.getD a 0 % 2 = 0) : y = d := by
  refine extends_eq h ?_
  apply List.ext_getElem h.1
  intro j h3 h4
  have : y.shape.getD j 0 = d.shape.getD j 0 := by
    by_cases hj : j ∈ ax
    · rw [h1 j hj, he j hj, add_zero]
    · exact h2 j hj
  rw [List.getD_eq_getElem (hn := h3), List.getD_eq_getElem (hn := h4)] at this
  exact this

theorem packet2_exact {w : Wavelet R} (hw : w.Ok) (hpr : PR w.dec_lo w.dec_hi w.rec_lo w.rec_hi)
    {mode : Mode} {axes : List ℤ} {a b : ℕ} {m m' : ℤ} {sz sz' : Option (List ℕ)} {d : Arr M}
    {c : Char → Arr M} (ha : AxesAre d.ndim (some axes) [a, b])
    (hc : (packet2 w mode axes m sz).dec d = .ok c) (he : ∀ j ∈ [a, b], d.shape.getD j 0 % 2 = 0) :
    (packet2 w mode axes m' sz').recon
      (fun q => if q ∈ (packet2 (M := M) w mode axes m sz).parts then some (c q) else none) = .ok d := by
  obtain ⟨y, y1, y2, y3, y4⟩ := packet2_recon hw hpr ha hc
  rw [shape_even y2 y3 y4 he] at y1
  exact y1

theorem packetN_exact {w : Wavelet R} (hw : w.Ok) (hpr : PR w.dec_lo w.dec_hi w.rec_lo w.rec_hi)
    {mode : Mode} {axes : List ℤ} {ax : List ℕ} {m m' : ℤ} {sz sz' : Option (List ℕ)} {d : Arr M}
    {c : Key → Arr M} (ha : AxesAre d.ndim (some axes) ax) (hd : 1 ≤ d.ndim)
    (hc : (packetN w mode axes m sz).dec d = .ok c) (he : ∀ a ∈ ax, d.shape.getD a 0 % 2 = 0) :
    (packetN w mode axes m' sz').recon
      (fun q => if q ∈ (packetN (M := M) w mode axes m sz).parts then some (c q) else none) = .ok d := by
  obtain ⟨y, y1, y2, y3, y4⟩ := packetN_recon hw hpr ha hd hc
  rw [shape_even y2 y3 y4 he] at y1
  exact y1

end Pywt
