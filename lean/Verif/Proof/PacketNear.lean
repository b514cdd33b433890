import Verif.Proof.NearStages
import Verif.Proof.PacketEnergy

/-! Energy of the nodes of a packet for banks that are orthogonal up to a tolerance. -/

namespace Pywt

open Spec

set_option linter.unusedSectionVars false

namespace PKind

variable {P D : Type} [DecidableEq P] {k : PKind P D} {x : D} {t : PTree P D}

/-- The quantity `E` is split among the parts up to the factors `a` and `b`, as long as `Good` allows. -/
def NearSplits (k : PKind P D) (E : D → ℝ) (Good : ℕ → D → Prop) (a b : ℝ) : Prop :=
  ∀ n d, Good (n + 1) d → ∃ c, k.dec d = .ok c ∧ a * E d ≤ (k.parts.map fun q => E (c q)).sum ∧
    (k.parts.map fun q => E (c q)).sum ≤ b * E d ∧ ∀ q ∈ k.parts, Good n (c q)

theorem list_sum_le_mul {α : Type} (l : List α) {f g : α → ℝ} {c : ℝ} (h : ∀ q ∈ l, f q ≤ c * g q) :
    (l.map f).sum ≤ c * (l.map g).sum := by
  induction l with
  | nil => simp
  | cons a l ih =>
    simp only [List.map_cons, List.sum_cons]
    have h1 := h a (by simp)
    have h2 := ih fun q hq => h q (by simp [hq])
    linarith

theorem mul_le_list_sum {α : Type} (l : List α) {f g : α → ℝ} {c : ℝ} (h : ∀ q ∈ l, c * g q ≤ f q) :
    c * (l.map g).sum ≤ (l.map f).sum := by
  induction l with
  | nil => simp
  | cons a l ih =>
    simp only [List.map_cons, List.sum_cons]
    have h1 := h a (by simp)
    have h2 := ih fun q hq => h q (by simp [hq])
    linarith

theorem cut_near {E : D → ℝ} (hE : ∀ d, 0 ≤ E d) {Good : ℕ → D → Prop} {a b : ℝ} (ha : 0 ≤ a) (ha1 : a ≤ 1) (hb : 1 ≤ b)
    (hk : k.parts ≠ []) (hs : k.NearSplits E Good a b) {L : List (List P)}
    (hL : Cut k.parts L) : ∀ {n : ℕ} {d : D}, Good n d → (∀ p ∈ L, p.length ≤ n) →
    (∀ p ∈ L, k.along d p = .ok (k.nodeAt d p)) ∧ a ^ n * E d ≤ (L.map fun p => E (k.nodeAt d p)).sum ∧
      (L.map fun p => E (k.nodeAt d p)).sum ≤ b ^ n * E d := by
  induction hL with
  | root =>
    intro n d _ _
    have h1 : a ^ n * E d ≤ E d := by
      have := mul_le_mul_of_nonneg_right (pow_le_one₀ (n := n) ha ha1) (hE d)
      linarith
    have h2 : E d ≤ b ^ n * E d := by
      have := mul_le_mul_of_nonneg_right (one_le_pow₀ (n := n) hb) (hE d)
      linarith
    simpa [nodeAt, PKind.along, Except.toOption] using ⟨h1, h2⟩
  | split L hc ih =>
    intro n d hg hn
    obtain ⟨q0, hq0⟩ := List.exists_mem_of_ne_nil _ hk
    obtain ⟨p0, hp0⟩ := List.exists_mem_of_ne_nil _ (Cut.ne_nil hk (hc q0 hq0))
    have hmem : ∀ q ∈ k.parts, ∀ p ∈ L q, q :: p ∈ k.parts.flatMap fun q => (L q).map (q :: ·) :=
      fun q hq p hp => List.mem_flatMap.2 ⟨q, hq, List.mem_map.2 ⟨p, hp, rfl⟩⟩
    obtain ⟨m, rfl⟩ : ∃ m, n = m + 1 := by
      have := hn _ (hmem q0 hq0 p0 hp0)
      simp only [List.length_cons] at this
      exact ⟨n - 1, by omega⟩
    obtain ⟨c, c1, c2, c2', c3⟩ := hs m d hg
    have hstep : ∀ q p, k.along d (q :: p) = k.along (c q) p := by
      intro q p
      rw [PKind.along, c1]
    have hsub : ∀ q ∈ k.parts, (∀ p ∈ L q, k.along (c q) p = .ok (k.nodeAt (c q) p)) ∧
        a ^ m * E (c q) ≤ ((L q).map fun p => E (k.nodeAt (c q) p)).sum ∧
          ((L q).map fun p => E (k.nodeAt (c q) p)).sum ≤ b ^ m * E (c q) := fun q hq =>
      ih q hq (c3 q hq) fun p hp => by
        have := hn _ (hmem q hq p hp)
        simp only [List.length_cons] at this
        omega
    have hval : ∀ q ∈ k.parts, ∀ p ∈ L q, k.nodeAt d (q :: p) = k.nodeAt (c q) p := fun q hq p hp =>
      nodeAt_eq (by rw [hstep, (hsub q hq).1 p hp])
    have hsum : ((k.parts.flatMap fun q => (L q).map (q :: ·)).map fun p => E (k.nodeAt d p)).sum =
        (k.parts.map fun q => ((L q).map fun p => E (k.nodeAt (c q) p)).sum).sum := by
      rw [List.map_flatMap, sum_flatMap_nat]
      congr 1
      refine List.map_congr_left fun q hq => ?_
      rw [List.map_map]
      congr 1
      exact List.map_congr_left fun p hp => by simp only [Function.comp_apply]; rw [hval q hq p hp]
    refine ⟨fun p hp => ?_, ?_, ?_⟩
    · obtain ⟨q, hq, hp⟩ := List.mem_flatMap.1 hp
      obtain ⟨p', hp', rfl⟩ := List.mem_map.1 hp
      rw [hstep, (hsub q hq).1 p' hp', hval q hq p' hp']
    · rw [hsum]
      have := mul_le_list_sum k.parts (f := fun q => ((L q).map fun p => E (k.nodeAt (c q) p)).sum) (g := fun q => E (c q))
        (c := a ^ m) fun q hq => (hsub q hq).2.1
      have h2 := mul_le_mul_of_nonneg_left c2 (pow_nonneg ha m)
      rw [pow_succ, mul_assoc]
      exact h2.trans this
    · rw [hsum]
      have := list_sum_le_mul k.parts (f := fun q => ((L q).map fun p => E (k.nodeAt (c q) p)).sum) (g := fun q => E (c q))
        (c := b ^ m) fun q hq => (hsub q hq).2.2
      have h2 := mul_le_mul_of_nonneg_left c2' (pow_nonneg (by linarith : 0 ≤ b) m)
      rw [pow_succ, mul_assoc]
      exact this.trans h2

/-- Reading the nodes of a cover, after any history that edits nothing. -/
theorem cut_near_fetch {E : D → ℝ} (hE : ∀ d, 0 ≤ E d) {Good : ℕ → D → Prop} {a b : ℝ} (ha : 0 ≤ a) (ha1 : a ≤ 1) (hb : 1 ≤ b)
    (hk : k.parts ≠ []) (hs : k.NearSplits E Good a b) {n : ℕ}
    (hg : Good n x) (hn : (n : ℤ) ≤ k.maxlevel) {L : List (List P)} (hL : Cut k.parts L)
    (hl : ∀ p ∈ L, p.length ≤ n) :
    ∃ f : List P → D, (∀ ops : List (POp P D), (∀ op ∈ ops, op.ReadOnly) → ∀ p ∈ L,
        (k.fetch (ops.foldl k.exec (k.init (some x))) p).1 = .ok (some (f p))) ∧
      a ^ n * E x ≤ (L.map fun p => E (f p)).sum ∧ (L.map fun p => E (f p)).sum ≤ b ^ n * E x := by
  obtain ⟨h1, h2⟩ := cut_near hE ha ha1 hb hk hs hL hg hl
  refine ⟨k.nodeAt x, fun ops ho p hp => ?_, h2⟩
  have := ((PKind.inv_init (k := k) x).execs ops fun op h => .inl (ho op h)).fetch (Cut.letters hL p hp)
    (by have := hl p hp; omega)
  rw [this, h1 p hp]
  rfl

/-- The leaves of the tree after any history that edits nothing. -/
theorem leaves_near {E : D → ℝ} (hE : ∀ d, 0 ≤ E d) {Good : ℕ → D → Prop} {a b : ℝ} (ha : 0 ≤ a) (ha1 : a ≤ 1) (hb : 1 ≤ b)
    (hk : k.parts ≠ []) (hs : k.NearSplits E Good a b) {n : ℕ}
    (hg : Good n x) {ops : List (POp P D)} (ho : ∀ op ∈ ops, op.ReadOnly)
    (hl : ∀ p, ((ops.foldl k.exec (k.init (some x))) p).isSome → p.length ≤ n) :
    ∃ (L : List (List P)) (f : List P → D),
      k.getLeafNodes (ops.foldl k.exec (k.init (some x))) false = (.ok L, ops.foldl k.exec (k.init (some x))) ∧
      Cut k.parts L ∧
      (∀ p ∈ L, ∃ nd, ops.foldl k.exec (k.init (some x)) p = some nd ∧ nd.data = some (f p)) ∧
      a ^ n * E x ≤ (L.map fun p => E (f p)).sum ∧ (L.map fun p => E (f p)).sum ≤ b ^ n * E x := by
  have h := (PKind.inv_init (k := k) x).execs ops fun op h => .inl (ho op h)
  obtain ⟨L, hL, hw⟩ := h.walk_cut k.fuel [] h.root (by unfold PKind.fuel; simp)
  obtain ⟨L', w1, w2, -⟩ := h.tidy.walk_leaves k.fuel [] h.root (by unfold PKind.fuel; simp)
  simp only [List.nil_append, List.map_id'] at hw
  have e : L' = L := by
    rw [w1] at hw
    simpa using hw
  subst e
  have hsome : ∀ p ∈ L', ((ops.foldl k.exec (k.init (some x))) p).isSome := fun p hp => ((w2 p).1 hp).2.1
  obtain ⟨h1, h2⟩ := cut_near hE ha ha1 hb hk hs hL hg fun p hp => hl p (hsome p hp)
  refine ⟨L', k.nodeAt x, hw, hL, fun p hp => ?_, h2⟩
  obtain ⟨d, d1, d2⟩ := h.dataAt (hsome p hp)
  rw [nodeAt_eq d1]
  exact ⟨_, d2, rfl⟩

end PKind

/-! ### The three packets -/

/-- Every bank preserves the sum of zeros. -/
theorem preserves_zero (w : Wavelet ℝ) : Preserves (fun _ : ℝ => (0 : ℝ)) w := by
  intro l _
  simp

theorem packet1_near {ε : ℝ} {w : Wavelet ℝ} (h : NearOrthogonal ε w) {ax : ℕ} {m : ℤ} {sz : Option (List ℕ)} :
    (packet1 w .periodization ax m sz).NearSplits (fun d : Arr ℝ => energy d.data) (Halves (M := ℝ) [ax]) (1 - ε) (1 + ε) := by
  intro n d hg
  obtain ⟨c, c1, -, c3⟩ := packet1_splits (m := m) (sz := sz) h.1 (preserves_zero w) n d hg
  obtain ⟨g1, g2, g3⟩ := hg ax (by simp)
  obtain ⟨e1, e2, e3, e4⟩ := half_of_dvd g2 g3 w.dec_len
  have key := analyze_near (s := (ax, w, .periodization)) rfl h g1 g2 e1
  refine ⟨c, c1, ?_⟩
  rw [packet1_dec h.1 (show ax < d.ndim from g1), if_pos e2] at c1
  simp only [Except.ok.injEq] at c1
  have e : ((packet1 (M := ℝ) w .periodization ax m sz).parts.map fun q => energy (c q).data).sum =
      energy (d.analyze (ax, w, .periodization) 'a').data + energy (d.analyze (ax, w, .periodization) 'd').data := by
    rw [← c1]
    simp [packet1, Arr.analyze, Wavelet.decFilter]
  rw [e]
  exact ⟨key.1, key.2, c3⟩

theorem nearStages_same {ε : ℝ} {w : Wavelet ℝ} (h : NearOrthogonal ε w) {ax : List ℕ} (hn : ax.Nodup) {d : Arr ℝ} {n : ℕ}
    (hg : Halves ax (n + 1) d) : NearStages ε (sameStages w .periodization ax) d.shape 2 := by
  refine ⟨by simpa [sameStages, Function.comp_def] using hn, fun s hs => ?_⟩
  obtain ⟨a, ha, rfl⟩ := List.mem_map.1 hs
  obtain ⟨g1, g2, g3⟩ := hg a ha
  exact ⟨rfl, h, g1, g2, (Dvd.intro_left (2 ^ n) (by rw [pow_succ])).trans g3⟩

theorem packetN_near {ε : ℝ} (h0 : 0 ≤ ε) (hε : ε ≤ 1) {w : Wavelet ℝ} (h : NearOrthogonal ε w) {N : ℕ} {axes : List ℤ}
    {ax : List ℕ} (ha : AxesAre N (some axes) ax) (hN : 1 ≤ N) {m : ℤ} {sz : Option (List ℕ)} :
    (packetN w .periodization axes m sz).NearSplits (fun d : Arr ℝ => energy d.data)
      (fun n (d : Arr ℝ) => d.ndim = N ∧ Halves ax n d) ((1 - ε) ^ axes.length) ((1 + ε) ^ axes.length) := by
  intro n d hg
  obtain ⟨c, c1, -, c3⟩ := packetN_splits (m := m) (sz := sz) h.1 (preserves_zero w) ha hN n d hg
  obtain ⟨rfl, hg⟩ := hg
  have hh := fun a h => half_of_dvd (hg a h).2.1 (hg a h).2.2 w.dec_len
  have key := subbands_near h0 hε (nearStages_same h ha.2.1 hg)
  have hlen : (sameStages w Mode.periodization ax).length = axes.length := by
    rw [axesAre_length ha]; simp [sameStages]
  rw [hlen] at key
  refine ⟨c, c1, ?_⟩
  rw [packetN_dec h.1 ha hN, if_pos fun a h => (hh a h).2.1] at c1
  simp only [Except.ok.injEq] at c1
  have e : ((packetN (M := ℝ) w .periodization axes m sz).parts.map fun q => energy (c q).data).sum =
      ((words axes.length).map fun q => energy (d.subband (sameStages w .periodization ax) q).data).sum := by
    rw [← c1]
    show ((words axes.length).map _).sum = _
    congr 1
    refine List.map_congr_left fun q hq => ?_
    rw [axesAre_length ha] at hq
    simp only [if_pos hq]
  rw [e]
  exact ⟨key.1, key.2, c3⟩

theorem packet2_near {ε : ℝ} (h0 : 0 ≤ ε) (hε : ε ≤ 1) {w : Wavelet ℝ} (h : NearOrthogonal ε w) {N : ℕ} {axes : List ℤ}
    {a b : ℕ} (ha : AxesAre N (some axes) [a, b]) {m : ℤ} {sz : Option (List ℕ)} :
    (packet2 w .periodization axes m sz).NearSplits (fun d : Arr ℝ => energy d.data)
      (fun n (d : Arr ℝ) => d.ndim = N ∧ Halves [a, b] n d) ((1 - ε) ^ 2) ((1 + ε) ^ 2) := by
  intro n d hg
  obtain ⟨c, c1, -, c3⟩ := packet2_splits (m := m) (sz := sz) h.1 (preserves_zero w) ha n d hg
  obtain ⟨rfl, hg⟩ := hg
  have hh := fun a h => half_of_dvd (hg a h).2.1 (hg a h).2.2 w.dec_len
  have key := subbands_near h0 hε (nearStages_same h ha.2.1 hg)
  refine ⟨c, c1, ?_⟩
  rw [packet2_dec h.1 ha, if_pos ⟨(hh a (by simp)).2.1, (hh b (by simp)).2.1⟩] at c1
  simp only [Except.ok.injEq] at c1
  have e : ((packet2 (M := ℝ) w .periodization axes m sz).parts.map fun q => energy (c q).data).sum =
      ((words 2).map fun q => energy (d.subband (sameStages w .periodization [a, b]) q).data).sum := by
    rw [← c1]
    simp only [packet2, pick2, sameStages, List.map_cons, List.map_nil, words, List.sum_cons, List.sum_nil]
    simp [Arr.subband]
    ring
  rw [e]
  exact ⟨key.1, key.2, c3⟩

end Pywt
