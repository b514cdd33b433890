import Verif.Spec.PacketEnergy
import Verif.Proof.PacketLeaves
import Verif.Proof.EnergyN

/-!
# Sums over the nodes of a packet
-/

namespace Pywt

open Spec

set_option linter.unusedSectionVars false

theorem Cut.ne_nil {P : Type} {parts : List P} (hp : parts ≠ []) {L : List (List P)} (h : Cut parts L) :
    L ≠ [] := by
  induction h with
  | root => simp
  | split L _ ih =>
    intro e
    obtain ⟨q, hq⟩ := List.exists_mem_of_ne_nil _ hp
    obtain ⟨p, hpL⟩ := List.exists_mem_of_ne_nil _ (ih q hq)
    have : q :: p ∈ parts.flatMap fun q => (L q).map (q :: ·) :=
      List.mem_flatMap.2 ⟨q, hq, List.mem_map.2 ⟨p, hpL, rfl⟩⟩
    rw [e] at this
    simp at this

theorem Cut.letters {P : Type} {parts : List P} {L : List (List P)} (h : Cut parts L) :
    ∀ p ∈ L, ∀ q ∈ p, q ∈ parts := by
  induction h with
  | root => intro p hp q hq; simp at hp; subst hp; simp at hq
  | split L _ ih =>
    intro p hp q hq
    obtain ⟨q', hq', hp⟩ := List.mem_flatMap.1 hp
    obtain ⟨p', hp', rfl⟩ := List.mem_map.1 hp
    rcases List.mem_cons.1 hq with rfl | hq
    · exact hq'
    · exact ih q' hq' p' hp' q hq

theorem sum_flatMap_nat {α B : Type} [AddCommMonoid B] (l : List α) (f : α → List B) :
    (l.flatMap f).sum = (l.map fun a => (f a).sum).sum := by
  induction l with
  | nil => rfl
  | cons a l ih => simp [ih]

/-- All nodes of one level cover the tree once. -/
theorem cut_words {P : Type} (parts : List P) (n : ℕ) : Cut parts (wordsOf parts n) := by
  induction n with
  | zero => exact .root
  | succ n ih => exact .split (fun _ => wordsOf parts n) fun _ _ => ih

namespace PKind

variable {P D B : Type} [DecidableEq P] [AddCommMonoid B] {k : PKind P D} {x : D} {t : PTree P D}

/-- The quantity `E` is split among the parts, as long as `Good` allows. -/
def Splits (k : PKind P D) (E : D → B) (Good : ℕ → D → Prop) : Prop :=
  ∀ n d, Good (n + 1) d → ∃ c, k.dec d = .ok c ∧ (k.parts.map fun q => E (c q)).sum = E d ∧
    ∀ q ∈ k.parts, Good n (c q)

/-- The data at a path (the given default if the decomposition fails). -/
def nodeAt (k : PKind P D) (d : D) (p : List P) : D := (k.along d p).toOption.getD d

theorem nodeAt_eq {d y : D} {p : List P} (h : k.along d p = .ok y) : k.nodeAt d p = y := by
  unfold nodeAt
  rw [h]
  rfl

theorem cut_sum {E : D → B} {Good : ℕ → D → Prop} (hk : k.parts ≠ []) (hs : k.Splits E Good) {L : List (List P)}
    (hL : Cut k.parts L) : ∀ {n : ℕ} {d : D}, Good n d → (∀ p ∈ L, p.length ≤ n) →
    (∀ p ∈ L, k.along d p = .ok (k.nodeAt d p)) ∧ (L.map fun p => E (k.nodeAt d p)).sum = E d := by
  induction hL with
  | root => intro n d _ _; simp [nodeAt, PKind.along, Except.toOption]
  | split L hc ih =>
    intro n d hg hn
    obtain ⟨q0, hq0⟩ := List.exists_mem_of_ne_nil _ hk
    obtain ⟨p0, hp0⟩ := List.exists_mem_of_ne_nil _ (Cut.ne_nil hk (hc q0 hq0))
    have hmem : ∀ q ∈ k.parts, ∀ p ∈ L q, q :: p ∈ k.parts.flatMap fun q => (L q).map (q :: ·) :=
      fun q hq p hp => List.mem_flatMap.2 ⟨q, hq, List.mem_map.2 ⟨p, hp, rfl⟩⟩
    obtain ⟨m, rfl⟩ : ∃ m, n = m + 1 := by
      have := hn _ (hmem q0 hq0 p0 hp0)
      simp only [List.length_cons] at this
      exact ⟨n - 1, by omega⟩
    obtain ⟨c, c1, c2, c3⟩ := hs m d hg
    have hstep : ∀ q p, k.along d (q :: p) = k.along (c q) p := by
      intro q p
      rw [PKind.along, c1]
    have hsub : ∀ q ∈ k.parts, (∀ p ∈ L q, k.along (c q) p = .ok (k.nodeAt (c q) p)) ∧
        ((L q).map fun p => E (k.nodeAt (c q) p)).sum = E (c q) := fun q hq =>
      ih q hq (c3 q hq) fun p hp => by
        have := hn _ (hmem q hq p hp)
        simp only [List.length_cons] at this
        omega
    have hval : ∀ q ∈ k.parts, ∀ p ∈ L q, k.nodeAt d (q :: p) = k.nodeAt (c q) p := fun q hq p hp =>
      nodeAt_eq (by rw [hstep, (hsub q hq).1 p hp])
    refine ⟨fun p hp => ?_, ?_⟩
    · obtain ⟨q, hq, hp⟩ := List.mem_flatMap.1 hp
      obtain ⟨p', hp', rfl⟩ := List.mem_map.1 hp
      rw [hstep, (hsub q hq).1 p' hp', hval q hq p' hp']
    · rw [← c2, List.map_flatMap, sum_flatMap_nat]
      congr 1
      refine List.map_congr_left fun q hq => ?_
      rw [← (hsub q hq).2, List.map_map]
      congr 1
      exact List.map_congr_left fun p hp => by simp only [Function.comp_apply]; rw [hval q hq p hp]

/-- The leaves of an unmodified tree cover it once. -/
theorem Inv.walk_cut (h : Inv k x t) : ∀ (n : ℕ) (p : List P), (t p).isSome →
    k.maxlevel.toNat < n + p.length →
    ∃ L, Cut k.parts L ∧ k.walk (fun t p =>
      (decide ((p.length : ℤ) = k.maxlevel) && ((t p).bind (·.data)).isSome) ||
        (!false && !k.hasAny t p)) false n p t = (.ok (L.map (p ++ ·)), t) := by
  intro n
  induction n with
  | zero =>
    intro p hp hn
    exfalso
    rcases h.depth p hp with rfl | h1
    · simp at hn
    · omega
  | succ n ih =>
    intro p hp hn
    unfold PKind.walk
    by_cases hany : k.hasAny t p = true
    · obtain ⟨-, hall⟩ := h.hasAny_iff.1 hany
      obtain ⟨q0, hq0, he0⟩ := List.any_eq_true.1 hany
      have hl := (h.tidy.up p q0 he0).2.2
      have e1 : ¬ (((decide ((p.length : ℤ) = k.maxlevel) && ((t p).bind (·.data)).isSome) ||
        (!false && !k.hasAny t p)) = true) := by
        have : ¬ (p.length : ℤ) = k.maxlevel := by omega
        simp [this, hany]
      rw [if_neg e1, if_pos hl]
      have hch : ∀ q, ∃ L, q ∈ k.parts → Cut k.parts L ∧ k.walk (fun t p =>
          (decide ((p.length : ℤ) = k.maxlevel) && ((t p).bind (·.data)).isSome) ||
            (!false && !k.hasAny t p)) false n (p ++ [q]) t = (.ok (L.map (p ++ [q] ++ ·)), t) := by
        intro q
        by_cases hq : q ∈ k.parts
        · obtain ⟨L, l1, l2⟩ := ih (p ++ [q]) (hall q hq) (by simp; omega)
          exact ⟨L, fun _ => ⟨l1, l2⟩⟩
        · exact ⟨[], fun h => absurd h hq⟩
      choose Lf hLf using hch
      have key : ∀ qs : List P, (∀ q ∈ qs, q ∈ k.parts) → forParts (fun t q =>
          match k.getSubnode t p q false with
          | (.error e, t') => (.error e, t')
          | (.ok none, t') => (.ok [], t')
          | (.ok (some p'), t') =>
              PKind.walk k (fun t p =>
                (decide ((p.length : ℤ) = k.maxlevel) && ((t p).bind (·.data)).isSome) ||
                  (!false && !k.hasAny t p)) false n p' t') qs t =
          (.ok ((qs.flatMap fun q => (Lf q).map (q :: ·)).map (p ++ ·)), t) := by
        intro qs
        induction qs with
        | nil => intro _; rfl
        | cons q qs ihq =>
          intro hqs
          have hq : q ∈ k.parts := hqs q (by simp)
          have f1 := ihq fun q' h' => hqs q' (by simp [h'])
          unfold forParts
          simp only [getSubnode_false t p q hq, if_pos (hall q hq)]
          rw [(hLf q hq).2]
          simp only
          rw [f1]
          simp only [List.flatMap_cons, List.map_append, List.map_map]
          congr 3
          refine List.map_congr_left fun r _ => ?_
          simp
      exact ⟨_, .split Lf fun q hq => (hLf q hq).1, key k.parts fun _ h => h⟩
    · refine ⟨[[]], .root, ?_⟩
      have hany' : k.hasAny t p = false := by simpa using hany
      simp [hany']

/-- Reading the nodes of a cover, after any history that edits nothing. -/
theorem cut_fetch {E : D → B} {Good : ℕ → D → Prop} (hk : k.parts ≠ []) (hs : k.Splits E Good) {n : ℕ}
    (hg : Good n x) (hn : (n : ℤ) ≤ k.maxlevel) {L : List (List P)} (hL : Cut k.parts L)
    (hl : ∀ p ∈ L, p.length ≤ n) :
    ∃ f : List P → D, (∀ ops : List (POp P D), (∀ op ∈ ops, op.ReadOnly) → ∀ p ∈ L,
        (k.fetch (ops.foldl k.exec (k.init (some x))) p).1 = .ok (some (f p))) ∧
      (L.map fun p => E (f p)).sum = E x := by
  obtain ⟨h1, h2⟩ := cut_sum hk hs hL hg hl
  refine ⟨k.nodeAt x, fun ops ho p hp => ?_, h2⟩
  have := ((PKind.inv_init (k := k) x).execs ops fun op h => .inl (ho op h)).fetch (Cut.letters hL p hp)
    (by have := hl p hp; omega)
  rw [this, h1 p hp]
  rfl

/-- The leaves of the tree after any history that edits nothing. -/
theorem leaves_sum {E : D → B} {Good : ℕ → D → Prop} (hk : k.parts ≠ []) (hs : k.Splits E Good) {n : ℕ}
    (hg : Good n x) {ops : List (POp P D)} (ho : ∀ op ∈ ops, op.ReadOnly)
    (hl : ∀ p, ((ops.foldl k.exec (k.init (some x))) p).isSome → p.length ≤ n) :
    ∃ (L : List (List P)) (f : List P → D),
      k.getLeafNodes (ops.foldl k.exec (k.init (some x))) false = (.ok L, ops.foldl k.exec (k.init (some x))) ∧
      Cut k.parts L ∧
      (∀ p ∈ L, ∃ nd, ops.foldl k.exec (k.init (some x)) p = some nd ∧ nd.data = some (f p)) ∧
      (L.map fun p => E (f p)).sum = E x := by
  have h := (PKind.inv_init (k := k) x).execs ops fun op h => .inl (ho op h)
  obtain ⟨L, hL, hw⟩ := h.walk_cut k.fuel [] h.root (by unfold PKind.fuel; simp)
  obtain ⟨L', w1, w2, -⟩ := h.tidy.walk_leaves k.fuel [] h.root (by unfold PKind.fuel; simp)
  simp only [List.nil_append, List.map_id'] at hw
  have e : L' = L := by
    rw [w1] at hw
    simpa using hw
  subst e
  have hsome : ∀ p ∈ L', ((ops.foldl k.exec (k.init (some x))) p).isSome := fun p hp => ((w2 p).1 hp).2.1
  obtain ⟨h1, h2⟩ := cut_sum hk hs hL hg fun p hp => hl p (hsome p hp)
  refine ⟨L', k.nodeAt x, hw, hL, fun p hp => ?_, h2⟩
  obtain ⟨d, d1, d2⟩ := h.dataAt (hsome p hp)
  rw [nodeAt_eq d1]
  exact ⟨_, d2, rfl⟩

end PKind

/-! ### The three packets -/

section kinds

variable {R M B : Type} [CommRing R] [AddCommGroup M] [Module R M] [AddCommMonoid B]

/-- Arrays that can be halved `n` times along the axes. -/
def Halves (ax : List ℕ) (n : ℕ) (d : Arr M) : Prop :=
  ∀ a ∈ ax, a < d.shape.length ∧ 1 ≤ d.shape.getD a 0 ∧ 2 ^ n ∣ d.shape.getD a 0

theorem half_of_dvd {N n : ℕ} (h1 : 1 ≤ N) (h : 2 ^ (n + 1) ∣ N) (F : ℕ) :
    N % 2 = 0 ∧ LenOk .periodization N ∧ 1 ≤ coeffLen .periodization N F ∧
      2 ^ n ∣ coeffLen .periodization N F := by
  obtain ⟨m, rfl⟩ := h
  have e : 2 ^ (n + 1) * m = 2 * (2 ^ n * m) := by rw [pow_succ]; ring
  have e2 : coeffLen .periodization (2 ^ (n + 1) * m) F = 2 ^ n * m := by
    unfold coeffLen
    rw [e]
    simp only [if_true]
    omega
  rw [e2]
  rw [e] at h1 ⊢
  refine ⟨by omega, ⟨by omega, by simp⟩, by omega, Dvd.intro _ rfl⟩

theorem packet1_splits {φ : M → B} {w : Wavelet R} (hw : w.Ok) (hp : Preserves φ w) {ax : ℕ} {m : ℤ}
    {sz : Option (List ℕ)} :
    (packet1 w .periodization ax m sz).Splits (Arr.sumBy φ) (Halves (M := M) [ax]) := by
  intro n d hg
  obtain ⟨g1, g2, g3⟩ := hg ax (by simp)
  obtain ⟨e1, e2, e3, e4⟩ := half_of_dvd g2 g3 w.dec_len
  rw [packet1_dec hw (show ax < d.ndim from g1), if_pos e2]
  refine ⟨_, rfl, ?_, fun q _ a ha => ?_⟩
  · have := sumBy_analyze (φ := φ) (s := (ax, w, .periodization)) rfl hw hp g1 e1
    rw [← this]
    simp [packet1, Arr.analyze, Wavelet.decFilter]
  · obtain rfl : a = ax := by simpa using ha
    have hsh : ∀ f, (d.along a (coeffLen .periodization (d.shape.getD a 0) w.dec_len) f).shape =
        d.shape.set a (coeffLen .periodization (d.shape.getD a 0) w.dec_len) := fun f => rfl
    have : ∀ y : Arr M, y.shape = d.shape.set a (coeffLen .periodization (d.shape.getD a 0) w.dec_len) →
        a < y.shape.length ∧ 1 ≤ y.shape.getD a 0 ∧ 2 ^ n ∣ y.shape.getD a 0 := by
      intro y hy
      rw [hy, List.length_set, getD_set g1, if_pos rfl]
      exact ⟨g1, e3, e4⟩
    split_ifs
    · exact this _ (hsh _)
    · exact this _ (hsh _)

theorem packetN_splits {φ : M → B} {w : Wavelet R} (hw : w.Ok) (hp : Preserves φ w) {N : ℕ} {axes : List ℤ}
    {ax : List ℕ} (ha : AxesAre N (some axes) ax) (hN : 1 ≤ N) {m : ℤ} {sz : Option (List ℕ)} :
    (packetN w .periodization axes m sz).Splits (Arr.sumBy φ) fun n (d : Arr M) => d.ndim = N ∧ Halves ax n d := by
  rintro n d ⟨rfl, hg⟩
  have hh := fun a h => half_of_dvd (hg a h).2.1 (hg a h).2.2 w.dec_len
  rw [packetN_dec hw ha hN, if_pos fun a h => (hh a h).2.1]
  have hpar : (packetN (M := M) w .periodization axes m sz).parts = words ax.length := by
    rw [← axesAre_length ha]; rfl
  rw [hpar]
  refine ⟨_, rfl, ?_, fun q hq => ?_⟩
  · rw [← sumBy_subbands (φ := φ) (st := sameStages w .periodization ax) (x := d)
      (by simpa [sameStages, Function.comp_def] using ha.2.1) (by
        intro s hs
        obtain ⟨a, h, rfl⟩ := List.mem_map.1 hs
        exact ⟨rfl, hw, hp, (hg a h).1, (hh a h).1⟩)]
    rw [show (sameStages w Mode.periodization ax).length = ax.length by simp [sameStages]]
    congr 1
    exact List.map_congr_left fun q hq => by simp only [if_pos hq]
  · rw [if_pos hq]
    obtain ⟨s1, s2⟩ := subband_same_shape (w := w) (mode := .periodization) ha hq
    refine ⟨s1, fun a h => ?_⟩
    rw [s2 a h]
    refine ⟨?_, (hh a h).2.2⟩
    have := (hg a h).1
    unfold Arr.ndim at s1
    omega

theorem packetN_parts_ne (w : Wavelet R) (axes : List ℤ) (m : ℤ) (sz : Option (List ℕ)) :
    (packetN (M := M) w .periodization axes m sz).parts ≠ [] := by
  obtain ⟨a, l, h⟩ := words_ne_nil axes.length
  show words axes.length ≠ []
  rw [h]
  simp

theorem packet2_splits {φ : M → B} {w : Wavelet R} (hw : w.Ok) (hp : Preserves φ w) {N : ℕ} {axes : List ℤ}
    {a b : ℕ} (ha : AxesAre N (some axes) [a, b]) {m : ℤ} {sz : Option (List ℕ)} :
    (packet2 w .periodization axes m sz).Splits (Arr.sumBy φ) fun n (d : Arr M) => d.ndim = N ∧ Halves [a, b] n d := by
  rintro n d ⟨rfl, hg⟩
  have hh := fun a h => half_of_dvd (hg a h).2.1 (hg a h).2.2 w.dec_len
  rw [packet2_dec hw ha, if_pos ⟨(hh a (by simp)).2.1, (hh b (by simp)).2.1⟩]
  have hsub : ∀ u ∈ ['a', 'd'], ∀ v ∈ ['a', 'd'],
      (d.analyze (a, w, .periodization) u).analyze (b, w, .periodization) v =
        d.subband (sameStages w .periodization [a, b]) [u, v] := by
    intro u _ v _
    simp [sameStages, Arr.subband]
  have hne : a ≠ b := by simpa using ha.2.1
  refine ⟨_, rfl, ?_, fun q hq => ?_⟩
  · have := sumBy_subbands (φ := φ) (st := sameStages w .periodization [a, b]) (x := d)
      (by simpa [sameStages] using hne) (by
        intro s hs
        obtain ⟨a, h, rfl⟩ := List.mem_map.1 hs
        exact ⟨rfl, hw, hp, (hg a h).1, (hh a h).1⟩)
    rw [← this]
    simp only [packet2, pick2, sameStages, List.map_cons, List.map_nil, List.length_cons, List.length_nil,
      words, List.sum_cons, List.sum_nil]
    simp
    exact congrArg (_ + ·) (add_left_comm _ _ _)
  · have hS : ∀ u ∈ ['a', 'd'], ∀ v ∈ ['a', 'd'],
        ((d.analyze (a, w, .periodization) u).analyze (b, w, .periodization) v).ndim = d.ndim ∧
        Halves [a, b] n ((d.analyze (a, w, .periodization) u).analyze (b, w, .periodization) v) := by
      intro u hu v hv
      rw [hsub u hu v hv]
      obtain ⟨s1, s2⟩ := subband_same_shape (w := w) (mode := .periodization) (key := [u, v]) ha (by
        rw [mem_words]
        refine ⟨rfl, ?_⟩
        intro c hc
        simp at hu hv hc
        rcases hc with rfl | rfl
        · exact hu
        · exact hv)
      refine ⟨s1, fun c h => ?_⟩
      rw [s2 c h]
      refine ⟨?_, (hh c h).2.2⟩
      have := (hg c h).1
      unfold Arr.ndim at s1
      omega
    unfold pick2
    split_ifs <;> exact hS _ (by simp) _ (by simp)

end kinds

end Pywt
