import Verif.Proof.PacketEnergy
import Verif.Props.DwtIdwt
import Verif.Props.Packet

/-!
# C70: wavelet packets of orthogonal wavelets keep the energy

`Cut parts L`: the paths `L` cover the packet tree once (Spec/PacketEnergy.lean).
-/

namespace Pywt

open Spec

set_option autoImplicit false

variable {R : Type} [CommRing R]

/-! ### Covers -/

/-- **C70.** All nodes of one level cover the tree once (`get_level` returns them, C32). -/
theorem C70_level_is_cover {P : Type} (parts : List P) (n : ℕ) : Cut parts (wordsOf parts n) := cut_words parts n

/-- The paths of a cover: none is a prefix of another, and every long enough word over the parts has one of them
as a prefix. -/
theorem C70_cover_spec {P : Type} {parts : List P} (hn : parts.Nodup) {L : List (List P)} (h : Cut parts L) :
    (L.Pairwise fun p q => ¬ p <+: q ∧ ¬ q <+: p) ∧
    ∃ n, ∀ v : List P, n ≤ v.length → (∀ q ∈ v, q ∈ parts) → ∃ p ∈ L, p <+: v := by
  induction h with
  | root => exact ⟨by simp, 0, fun v _ _ => ⟨[], by simp, List.nil_prefix⟩⟩
  | split L _ ih =>
    refine ⟨?_, ?_⟩
    · rw [List.pairwise_flatMap]
      refine ⟨fun q hq => ?_, ?_⟩
      · rw [List.pairwise_map]
        exact (ih q hq).1.imp fun h => by simpa using h
      · refine hn.imp fun {q q'} hne p hp p' hp' => ?_
        obtain ⟨r, -, rfl⟩ := List.mem_map.1 hp
        obtain ⟨r', -, rfl⟩ := List.mem_map.1 hp'
        exact ⟨fun h => hne (List.cons_prefix_cons.1 h).1, fun h => hne (List.cons_prefix_cons.1 h).1.symm⟩
    · have hb : ∀ q, ∃ n, q ∈ parts → ∀ v : List P, n ≤ v.length → (∀ q ∈ v, q ∈ parts) → ∃ p ∈ L q, p <+: v := by
        intro q
        by_cases hq : q ∈ parts
        · obtain ⟨n, hn⟩ := (ih q hq).2
          exact ⟨n, fun _ => hn⟩
        · exact ⟨0, fun h => absurd h hq⟩
      choose N hN using hb
      refine ⟨(parts.map N).sum + 1, fun v hv hq => ?_⟩
      cases v with
      | nil => simp at hv
      | cons q v =>
        have hqp := hq q (by simp)
        have hle : N q ≤ (parts.map N).sum := List.single_le_sum (by simp) _ (List.mem_map.2 ⟨q, hqp, rfl⟩)
        obtain ⟨p, p1, p2⟩ := hN q hqp v (by simp only [List.length_cons] at hv; omega)
          fun r hr => hq r (by simp [hr])
        exact ⟨q :: p, List.mem_flatMap.2 ⟨q, hqp, List.mem_map.2 ⟨p, p1, rfl⟩⟩,
          List.cons_prefix_cons.2 ⟨rfl, p2⟩⟩

/-! ### `WaveletPacket` -/

/-- **C70 (1-D).** Periodization mode, orthogonal filters, a size divisible by `2^n`: for every choice of nodes of
depth at most `n` that covers the tree once, the energies of the data read from these nodes sum to the energy of
the signal — whatever was read, decomposed or reconstructed before. -/
theorem C70_cover_energy {w : Wavelet R} (hw : OrthogonalBank w) {maxlevel : Option ℤ} {axis : ℤ} {ax : ℕ}
    {x : Arr R} {k : PKind Char (Arr R)} {t : PTree Char (Arr R)} (ha : AxisIs x.ndim axis ax)
    (h : WaveletPacket w .periodization maxlevel axis x = .ok (k, t)) {n : ℕ} (hn : (n : ℤ) ≤ k.maxlevel)
    (h1 : 1 ≤ x.shape.getD ax 0) (hd : 2 ^ n ∣ x.shape.getD ax 0) {L : List (List Char)}
    (hL : Cut ['a', 'd'] L) (hl : ∀ p ∈ L, p.length ≤ n) :
    ∃ f : List Char → Arr R, (∀ ops : List (POp Char (Arr R)), (∀ op ∈ ops, op.ReadOnly) → ∀ p ∈ L,
        (k.fetch (ops.foldl k.exec t) p).1 = .ok (some (f p))) ∧
      (L.map fun p => (f p).energy).sum = x.energy := by
  obtain ⟨ax', m, ha', rfl, rfl⟩ := WaveletPacket_eq h
  obtain rfl : ax' = ax := by have := ha.1; have := ha'.1; omega
  exact PKind.cut_fetch (by simp [packet1]) (packet1_splits hw.1 (preserves_energy hw))
    (fun a h => by obtain rfl : a = ax' := by simpa using h
                   exact ⟨ha.2, h1, hd⟩) hn hL hl

/-- **C70 (1-D, complex data).** -/
theorem C70_cover_energy_complex {w : Wavelet ℝ} (hw : OrthogonalBank w) {maxlevel : Option ℤ} {axis : ℤ} {ax : ℕ}
    {x : Arr ℂ} {k : PKind Char (Arr ℂ)} {t : PTree Char (Arr ℂ)} (ha : AxisIs x.ndim axis ax)
    (h : WaveletPacket w .periodization maxlevel axis x = .ok (k, t)) {n : ℕ} (hn : (n : ℤ) ≤ k.maxlevel)
    (h1 : 1 ≤ x.shape.getD ax 0) (hd : 2 ^ n ∣ x.shape.getD ax 0) {L : List (List Char)}
    (hL : Cut ['a', 'd'] L) (hl : ∀ p ∈ L, p.length ≤ n) :
    ∃ f : List Char → Arr ℂ, (∀ ops : List (POp Char (Arr ℂ)), (∀ op ∈ ops, op.ReadOnly) → ∀ p ∈ L,
        (k.fetch (ops.foldl k.exec t) p).1 = .ok (some (f p))) ∧
      (L.map fun p => (f p).energyC).sum = x.energyC := by
  obtain ⟨ax', m, ha', rfl, rfl⟩ := WaveletPacket_eq h
  obtain rfl : ax' = ax := by have := ha.1; have := ha'.1; omega
  exact PKind.cut_fetch (by simp [packet1]) (packet1_splits hw.1 (preserves_energyC hw))
    (fun a h => by obtain rfl : a = ax' := by simpa using h
                   exact ⟨ha.2, h1, hd⟩) hn hL hl

/-- **C70 (1-D, leaves).** The nodes that `get_leaf_nodes()` returns cover the tree once, and their energies sum to the
energy of the signal, if no node is deeper than `n`. -/
theorem C70_leaf_energy {w : Wavelet R} (hw : OrthogonalBank w) {maxlevel : Option ℤ} {axis : ℤ} {ax : ℕ}
    {x : Arr R} {k : PKind Char (Arr R)} {t : PTree Char (Arr R)} (ha : AxisIs x.ndim axis ax)
    (h : WaveletPacket w .periodization maxlevel axis x = .ok (k, t)) {n : ℕ}
    (h1 : 1 ≤ x.shape.getD ax 0) (hd : 2 ^ n ∣ x.shape.getD ax 0) {ops : List (POp Char (Arr R))}
    (ho : ∀ op ∈ ops, op.ReadOnly) (hl : ∀ p, ((ops.foldl k.exec t) p).isSome → p.length ≤ n) :
    ∃ (L : List (List Char)) (f : List Char → Arr R),
      k.getLeafNodes (ops.foldl k.exec t) false = (.ok L, ops.foldl k.exec t) ∧ Cut ['a', 'd'] L ∧
      (∀ p ∈ L, ∃ nd, ops.foldl k.exec t p = some nd ∧ nd.data = some (f p)) ∧
      (L.map fun p => (f p).energy).sum = x.energy := by
  obtain ⟨ax', m, ha', rfl, rfl⟩ := WaveletPacket_eq h
  obtain rfl : ax' = ax := by have := ha.1; have := ha'.1; omega
  exact PKind.leaves_sum (k := packet1 w .periodization ax' m (some x.shape)) (by simp [packet1])
    (packet1_splits hw.1 (preserves_energy hw))
    (fun a h => by obtain rfl : a = ax' := by simpa using h
                   exact ⟨ha.2, h1, hd⟩) ho hl

/-! ### `WaveletPacket2D` -/

/-- **C70 (2-D).** -/
theorem C70_cover_energy_2d {w : Wavelet R} (hw : OrthogonalBank w) {maxlevel : Option ℤ} {axes : List ℤ} {a b : ℕ}
    {x : Arr R} {k : PKind Char (Arr R)} {t : PTree Char (Arr R)} (ha : AxesAre x.ndim (some axes) [a, b])
    (h : WaveletPacket2D w .periodization maxlevel axes x = .ok (k, t)) {n : ℕ} (hn : (n : ℤ) ≤ k.maxlevel)
    (hs : ∀ c ∈ [a, b], 1 ≤ x.shape.getD c 0 ∧ 2 ^ n ∣ x.shape.getD c 0) {L : List (List Char)}
    (hL : Cut ['a', 'h', 'v', 'd'] L) (hl : ∀ p ∈ L, p.length ≤ n) :
    ∃ f : List Char → Arr R, (∀ ops : List (POp Char (Arr R)), (∀ op ∈ ops, op.ReadOnly) → ∀ p ∈ L,
        (k.fetch (ops.foldl k.exec t) p).1 = .ok (some (f p))) ∧
      (L.map fun p => (f p).energy).sum = x.energy := by
  obtain ⟨m, rfl, rfl⟩ := WaveletPacket2D_eq h
  exact PKind.cut_fetch (by simp [packet2]) (packet2_splits hw.1 (preserves_energy hw) ha)
    ⟨rfl, fun c h => ⟨ha.2.2 c h, hs c h⟩⟩ hn hL hl

/-- **C70 (2-D, complex data).** -/
theorem C70_cover_energy_2d_complex {w : Wavelet ℝ} (hw : OrthogonalBank w) {maxlevel : Option ℤ} {axes : List ℤ}
    {a b : ℕ} {x : Arr ℂ} {k : PKind Char (Arr ℂ)} {t : PTree Char (Arr ℂ)}
    (ha : AxesAre x.ndim (some axes) [a, b])
    (h : WaveletPacket2D w .periodization maxlevel axes x = .ok (k, t)) {n : ℕ} (hn : (n : ℤ) ≤ k.maxlevel)
    (hs : ∀ c ∈ [a, b], 1 ≤ x.shape.getD c 0 ∧ 2 ^ n ∣ x.shape.getD c 0) {L : List (List Char)}
    (hL : Cut ['a', 'h', 'v', 'd'] L) (hl : ∀ p ∈ L, p.length ≤ n) :
    ∃ f : List Char → Arr ℂ, (∀ ops : List (POp Char (Arr ℂ)), (∀ op ∈ ops, op.ReadOnly) → ∀ p ∈ L,
        (k.fetch (ops.foldl k.exec t) p).1 = .ok (some (f p))) ∧
      (L.map fun p => (f p).energyC).sum = x.energyC := by
  obtain ⟨m, rfl, rfl⟩ := WaveletPacket2D_eq h
  exact PKind.cut_fetch (by simp [packet2]) (packet2_splits hw.1 (preserves_energyC hw) ha)
    ⟨rfl, fun c h => ⟨ha.2.2 c h, hs c h⟩⟩ hn hL hl

/-- **C70 (2-D, leaves).** -/
theorem C70_leaf_energy_2d {w : Wavelet R} (hw : OrthogonalBank w) {maxlevel : Option ℤ} {axes : List ℤ} {a b : ℕ}
    {x : Arr R} {k : PKind Char (Arr R)} {t : PTree Char (Arr R)} (ha : AxesAre x.ndim (some axes) [a, b])
    (h : WaveletPacket2D w .periodization maxlevel axes x = .ok (k, t)) {n : ℕ}
    (hs : ∀ c ∈ [a, b], 1 ≤ x.shape.getD c 0 ∧ 2 ^ n ∣ x.shape.getD c 0) {ops : List (POp Char (Arr R))}
    (ho : ∀ op ∈ ops, op.ReadOnly) (hl : ∀ p, ((ops.foldl k.exec t) p).isSome → p.length ≤ n) :
    ∃ (L : List (List Char)) (f : List Char → Arr R),
      k.getLeafNodes (ops.foldl k.exec t) false = (.ok L, ops.foldl k.exec t) ∧ Cut ['a', 'h', 'v', 'd'] L ∧
      (∀ p ∈ L, ∃ nd, ops.foldl k.exec t p = some nd ∧ nd.data = some (f p)) ∧
      (L.map fun p => (f p).energy).sum = x.energy := by
  obtain ⟨m, rfl, rfl⟩ := WaveletPacket2D_eq h
  exact PKind.leaves_sum (k := packet2 w .periodization axes m (some x.shape)) (by simp [packet2])
    (packet2_splits hw.1 (preserves_energy hw) ha) ⟨rfl, fun c h => ⟨ha.2.2 c h, hs c h⟩⟩ ho hl

/-! ### `WaveletPacketND` -/

/-- **C70 (n-D).** -/
theorem C70_cover_energy_nd {w : Wavelet R} (hw : OrthogonalBank w) {maxlevel : Option ℤ} {axes : List ℤ}
    {ax : List ℕ} {x : Arr R} {k : PKind Key (Arr R)} {t : PTree Key (Arr R)}
    (ha : AxesAre x.ndim (some axes) ax) (hd : 1 ≤ x.ndim)
    (h : WaveletPacketND w .periodization maxlevel (some axes) x = .ok (k, t)) {n : ℕ} (hn : (n : ℤ) ≤ k.maxlevel)
    (hs : ∀ c ∈ ax, 1 ≤ x.shape.getD c 0 ∧ 2 ^ n ∣ x.shape.getD c 0) {L : List (List Key)}
    (hL : Cut (words axes.length) L) (hl : ∀ p ∈ L, p.length ≤ n) :
    ∃ f : List Key → Arr R, (∀ ops : List (POp Key (Arr R)), (∀ op ∈ ops, op.ReadOnly) → ∀ p ∈ L,
        (k.fetch (ops.foldl k.exec t) p).1 = .ok (some (f p))) ∧
      (L.map fun p => (f p).energy).sum = x.energy := by
  obtain ⟨m, rfl, rfl⟩ := WaveletPacketND_eq h
  exact PKind.cut_fetch (packetN_parts_ne w axes m (some x.shape)) (packetN_splits hw.1 (preserves_energy hw) ha hd)
    ⟨rfl, fun c h => ⟨ha.2.2 c h, hs c h⟩⟩ hn hL hl

/-- **C70 (n-D, complex data).** -/
theorem C70_cover_energy_nd_complex {w : Wavelet ℝ} (hw : OrthogonalBank w) {maxlevel : Option ℤ} {axes : List ℤ}
    {ax : List ℕ} {x : Arr ℂ} {k : PKind Key (Arr ℂ)} {t : PTree Key (Arr ℂ)}
    (ha : AxesAre x.ndim (some axes) ax) (hd : 1 ≤ x.ndim)
    (h : WaveletPacketND w .periodization maxlevel (some axes) x = .ok (k, t)) {n : ℕ} (hn : (n : ℤ) ≤ k.maxlevel)
    (hs : ∀ c ∈ ax, 1 ≤ x.shape.getD c 0 ∧ 2 ^ n ∣ x.shape.getD c 0) {L : List (List Key)}
    (hL : Cut (words axes.length) L) (hl : ∀ p ∈ L, p.length ≤ n) :
    ∃ f : List Key → Arr ℂ, (∀ ops : List (POp Key (Arr ℂ)), (∀ op ∈ ops, op.ReadOnly) → ∀ p ∈ L,
        (k.fetch (ops.foldl k.exec t) p).1 = .ok (some (f p))) ∧
      (L.map fun p => (f p).energyC).sum = x.energyC := by
  obtain ⟨m, rfl, rfl⟩ := WaveletPacketND_eq h
  exact PKind.cut_fetch (packetN_parts_ne w axes m (some x.shape)) (packetN_splits hw.1 (preserves_energyC hw) ha hd)
    ⟨rfl, fun c h => ⟨ha.2.2 c h, hs c h⟩⟩ hn hL hl

/-- **C70 (n-D, leaves).** -/
theorem C70_leaf_energy_nd {w : Wavelet R} (hw : OrthogonalBank w) {maxlevel : Option ℤ} {axes : List ℤ}
    {ax : List ℕ} {x : Arr R} {k : PKind Key (Arr R)} {t : PTree Key (Arr R)}
    (ha : AxesAre x.ndim (some axes) ax) (hd : 1 ≤ x.ndim)
    (h : WaveletPacketND w .periodization maxlevel (some axes) x = .ok (k, t)) {n : ℕ}
    (hs : ∀ c ∈ ax, 1 ≤ x.shape.getD c 0 ∧ 2 ^ n ∣ x.shape.getD c 0) {ops : List (POp Key (Arr R))}
    (ho : ∀ op ∈ ops, op.ReadOnly) (hl : ∀ p, ((ops.foldl k.exec t) p).isSome → p.length ≤ n) :
    ∃ (L : List (List Key)) (f : List Key → Arr R),
      k.getLeafNodes (ops.foldl k.exec t) false = (.ok L, ops.foldl k.exec t) ∧ Cut (words axes.length) L ∧
      (∀ p ∈ L, ∃ nd, ops.foldl k.exec t p = some nd ∧ nd.data = some (f p)) ∧
      (L.map fun p => (f p).energy).sum = x.energy := by
  obtain ⟨m, rfl, rfl⟩ := WaveletPacketND_eq h
  exact PKind.leaves_sum (k := packetN w .periodization axes m (some x.shape)) (packetN_parts_ne w axes m _)
    (packetN_splits hw.1 (preserves_energy hw) ha hd) ⟨rfl, fun c h => ⟨ha.2.2 c h, hs c h⟩⟩ ho hl

/-! ### The hypotheses are met -/

/-- A cover that is not a level: `aa`, `ada`, `add`, `d`. -/
example : Cut ['a', 'd'] [['a', 'a'], ['a', 'd', 'a'], ['a', 'd', 'd'], ['d']] :=
  .split (fun q => if q = 'a' then [['a'], ['d', 'a'], ['d', 'd']] else [[]]) fun q hq => by
    simp at hq
    rcases hq with rfl | rfl
    · exact .split (fun q => if q = 'd' then [['a'], ['d']] else [[]]) fun q hq => by
        simp at hq
        rcases hq with rfl | rfl
        · exact .root
        · exact .split (fun _ => [[]]) fun _ _ => .root
    · exact .root

/-- Eight samples, three levels, rational rotation filters. -/
example : OrthogonalBank rotQ ∧ ∃ k t, WaveletPacket (M := ℚ) rotQ .periodization (some 3) (-1)
      (Arr.of1 [1, -2, 3, 5, 0, 7, 4, 6]) = .ok (k, t) ∧ ((3 : ℕ) : ℤ) ≤ k.maxlevel ∧
    AxisIs (Arr.of1 ([1, -2, 3, 5, 0, 7, 4, 6] : List ℚ)).ndim (-1) 0 ∧
    2 ^ 3 ∣ (Arr.of1 ([1, -2, 3, 5, 0, 7, 4, 6] : List ℚ)).shape.getD 0 0 := by
  exact ⟨rotQ_orthogonal, _, _, rfl, by decide, ⟨by decide, by decide⟩, by decide⟩

/-- No node is deeper than `maxlevel`, so the bound on the depth in the theorems on leaves holds with
`n = maxlevel` after every history. -/
example {P D : Type} [DecidableEq P] (k : PKind P D) (x : D) (ops : List (POp P D)) {n : ℕ} (hn : k.maxlevel = n)
    (p : List P) (hp : ((ops.foldl k.exec (k.init (some x))) p).isSome) : p.length ≤ n := by
  rcases ((PKind.tidy_init k (some x)).execs ops).depth p hp with rfl | h
  · simp
  · omega

/-- A 4 by 4 array for the 2-D and n-D packets: two levels on both axes. -/
def ex44 : Arr ℚ := ⟨[4, 4], [1, 2, 3, 4, 5, 6, 7, 8, 9, 10, 11, 12, 0, -1, 5, 2], rfl⟩

example : ∃ k t, WaveletPacket2D rotQ .periodization (some 2) [-2, -1] ex44 = .ok (k, t) ∧ ((2 : ℕ) : ℤ) ≤ k.maxlevel ∧
    AxesAre ex44.ndim (some [-2, -1]) [0, 1] ∧
    ∀ c ∈ [0, 1], 1 ≤ ex44.shape.getD c 0 ∧ 2 ^ 2 ∣ ex44.shape.getD c 0 := by
  exact ⟨_, _, rfl, by decide, ⟨by decide, by decide, by decide⟩, by decide⟩

example : ∃ k t, WaveletPacketND rotQ .periodization (some 2) (some [1]) ex44 = .ok (k, t) ∧
    ((2 : ℕ) : ℤ) ≤ k.maxlevel ∧ AxesAre ex44.ndim (some [1]) [1] ∧
    ∀ c ∈ [1], 1 ≤ ex44.shape.getD c 0 ∧ 2 ^ 2 ∣ ex44.shape.getD c 0 := by
  exact ⟨_, _, rfl, by decide, ⟨by decide, by decide, by decide⟩, by decide⟩

/-- For an odd size the energy is not kept: three samples of energy 1 become coefficients of energy 2. -/
theorem C70_odd_size_fails : ∃ a d : Arr ℚ,
    iterDwt rotQ .periodization 0 (Arr.of1 [0, 0, 1]) ['a'] = .ok a ∧
    iterDwt rotQ .periodization 0 (Arr.of1 [0, 0, 1]) ['d'] = .ok d ∧
    a.energy + d.energy = 2 ∧ (Arr.of1 ([0, 0, 1] : List ℚ)).energy = 1 := by
  refine ⟨_, _, rfl, rfl, ?_, ?_⟩ <;> decide +kernel

end Pywt
