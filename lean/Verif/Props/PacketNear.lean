import Verif.Proof.PacketNear
import Verif.Props.NearStages
import Verif.Props.PacketEnergy

/-!
# Property C80: packets of the built-in orthogonal wavelets keep the energy up to the tolerance of their tables

`Cut parts L`: the paths `L` cover the packet tree once (Spec/PacketEnergy.lean).
-/

set_option autoImplicit false

namespace Pywt

open Spec

/-- **C80 (1-D).** Periodization mode, filters orthogonal up to `ε`, a size divisible by `2^n`: for every choice of nodes of depth
at most `n` that covers the tree once, the energies of the data read from these nodes sum to between `(1-ε)^n` and `(1+ε)^n` times
the energy of the signal — whatever was read, decomposed or reconstructed before. -/
theorem C80_cover_energy {ε : ℝ} (hε : ε ≤ 1) {w : Wavelet ℝ} (hw : NearOrthogonal ε w) {maxlevel : Option ℤ} {axis : ℤ} {ax : ℕ}
    {x : Arr ℝ} {k : PKind Char (Arr ℝ)} {t : PTree Char (Arr ℝ)} (ha : AxisIs x.ndim axis ax)
    (h : WaveletPacket w .periodization maxlevel axis x = .ok (k, t)) {n : ℕ} (hn : (n : ℤ) ≤ k.maxlevel)
    (h1 : 1 ≤ x.shape.getD ax 0) (hd : 2 ^ n ∣ x.shape.getD ax 0) {L : List (List Char)}
    (hL : Cut ['a', 'd'] L) (hl : ∀ p ∈ L, p.length ≤ n) :
    ∃ f : List Char → Arr ℝ, (∀ ops : List (POp Char (Arr ℝ)), (∀ op ∈ ops, op.ReadOnly) → ∀ p ∈ L,
        (k.fetch (ops.foldl k.exec t) p).1 = .ok (some (f p))) ∧
      (1 - ε) ^ n * energy x.data ≤ (L.map fun p => energy (f p).data).sum ∧
      (L.map fun p => energy (f p).data).sum ≤ (1 + ε) ^ n * energy x.data := by
  obtain ⟨ax', m, ha', rfl, rfl⟩ := WaveletPacket_eq h
  obtain rfl : ax' = ax := by have := ha.1; have := ha'.1; omega
  have h0 := near_nonneg hw
  exact PKind.cut_near_fetch (E := fun d : Arr ℝ => energy d.data) (fun d => energy_nonneg _) (by linarith) (by linarith)
    (by linarith) (by simp [packet1]) (packet1_near hw)
    (fun a h => by obtain rfl : a = ax' := by simpa using h
                   exact ⟨ha.2, h1, hd⟩) hn hL hl

/-- **C80 (1-D, leaves).** The same for the nodes that `get_leaf_nodes()` returns, if no node is deeper than `n`. -/
theorem C80_leaf_energy {ε : ℝ} (hε : ε ≤ 1) {w : Wavelet ℝ} (hw : NearOrthogonal ε w) {maxlevel : Option ℤ} {axis : ℤ} {ax : ℕ}
    {x : Arr ℝ} {k : PKind Char (Arr ℝ)} {t : PTree Char (Arr ℝ)} (ha : AxisIs x.ndim axis ax)
    (h : WaveletPacket w .periodization maxlevel axis x = .ok (k, t)) {n : ℕ}
    (h1 : 1 ≤ x.shape.getD ax 0) (hd : 2 ^ n ∣ x.shape.getD ax 0) {ops : List (POp Char (Arr ℝ))}
    (ho : ∀ op ∈ ops, op.ReadOnly) (hl : ∀ p, ((ops.foldl k.exec t) p).isSome → p.length ≤ n) :
    ∃ (L : List (List Char)) (f : List Char → Arr ℝ),
      k.getLeafNodes (ops.foldl k.exec t) false = (.ok L, ops.foldl k.exec t) ∧ Cut ['a', 'd'] L ∧
      (∀ p ∈ L, ∃ nd, ops.foldl k.exec t p = some nd ∧ nd.data = some (f p)) ∧
      (1 - ε) ^ n * energy x.data ≤ (L.map fun p => energy (f p).data).sum ∧
      (L.map fun p => energy (f p).data).sum ≤ (1 + ε) ^ n * energy x.data := by
  obtain ⟨ax', m, ha', rfl, rfl⟩ := WaveletPacket_eq h
  obtain rfl : ax' = ax := by have := ha.1; have := ha'.1; omega
  have h0 := near_nonneg hw
  exact PKind.leaves_near (k := packet1 w .periodization ax' m (some x.shape)) (E := fun d : Arr ℝ => energy d.data)
    (fun d => energy_nonneg _) (by linarith) (by linarith)
    (by linarith) (by simp [packet1]) (packet1_near hw)
    (fun a h => by obtain rfl : a = ax' := by simpa using h
                   exact ⟨ha.2, h1, hd⟩) ho hl

/-- **C80 (2-D).** With two axes the factors are `(1-ε)^(2n)` and `(1+ε)^(2n)`. -/
theorem C80_cover_energy_2d {ε : ℝ} (hε : ε ≤ 1) {w : Wavelet ℝ} (hw : NearOrthogonal ε w) {maxlevel : Option ℤ}
    {axes : List ℤ} {a b : ℕ} {x : Arr ℝ} {k : PKind Char (Arr ℝ)} {t : PTree Char (Arr ℝ)}
    (ha : AxesAre x.ndim (some axes) [a, b])
    (h : WaveletPacket2D w .periodization maxlevel axes x = .ok (k, t)) {n : ℕ} (hn : (n : ℤ) ≤ k.maxlevel)
    (hs : ∀ c ∈ [a, b], 1 ≤ x.shape.getD c 0 ∧ 2 ^ n ∣ x.shape.getD c 0) {L : List (List Char)}
    (hL : Cut ['a', 'h', 'v', 'd'] L) (hl : ∀ p ∈ L, p.length ≤ n) :
    ∃ f : List Char → Arr ℝ, (∀ ops : List (POp Char (Arr ℝ)), (∀ op ∈ ops, op.ReadOnly) → ∀ p ∈ L,
        (k.fetch (ops.foldl k.exec t) p).1 = .ok (some (f p))) ∧
      (1 - ε) ^ (2 * n) * energy x.data ≤ (L.map fun p => energy (f p).data).sum ∧
      (L.map fun p => energy (f p).data).sum ≤ (1 + ε) ^ (2 * n) * energy x.data := by
  obtain ⟨m, rfl, rfl⟩ := WaveletPacket2D_eq h
  have h0 := near_nonneg hw
  simp only [pow_mul]
  exact PKind.cut_near_fetch (E := fun d : Arr ℝ => energy d.data) (fun d => energy_nonneg _) (by positivity)
    (pow_le_one₀ (by linarith) (by linarith)) (one_le_pow₀ (by linarith)) (by simp [packet2]) (packet2_near h0 hε hw ha)
    ⟨rfl, fun c h => ⟨ha.2.2 c h, hs c h⟩⟩ hn hL hl

/-- **C80 (2-D, leaves).** -/
theorem C80_leaf_energy_2d {ε : ℝ} (hε : ε ≤ 1) {w : Wavelet ℝ} (hw : NearOrthogonal ε w) {maxlevel : Option ℤ}
    {axes : List ℤ} {a b : ℕ} {x : Arr ℝ} {k : PKind Char (Arr ℝ)} {t : PTree Char (Arr ℝ)}
    (ha : AxesAre x.ndim (some axes) [a, b])
    (h : WaveletPacket2D w .periodization maxlevel axes x = .ok (k, t)) {n : ℕ}
    (hs : ∀ c ∈ [a, b], 1 ≤ x.shape.getD c 0 ∧ 2 ^ n ∣ x.shape.getD c 0) {ops : List (POp Char (Arr ℝ))}
    (ho : ∀ op ∈ ops, op.ReadOnly) (hl : ∀ p, ((ops.foldl k.exec t) p).isSome → p.length ≤ n) :
    ∃ (L : List (List Char)) (f : List Char → Arr ℝ),
      k.getLeafNodes (ops.foldl k.exec t) false = (.ok L, ops.foldl k.exec t) ∧ Cut ['a', 'h', 'v', 'd'] L ∧
      (∀ p ∈ L, ∃ nd, ops.foldl k.exec t p = some nd ∧ nd.data = some (f p)) ∧
      (1 - ε) ^ (2 * n) * energy x.data ≤ (L.map fun p => energy (f p).data).sum ∧
      (L.map fun p => energy (f p).data).sum ≤ (1 + ε) ^ (2 * n) * energy x.data := by
  obtain ⟨m, rfl, rfl⟩ := WaveletPacket2D_eq h
  have h0 := near_nonneg hw
  simp only [pow_mul]
  exact PKind.leaves_near (k := packet2 w .periodization axes m (some x.shape)) (E := fun d : Arr ℝ => energy d.data)
    (fun d => energy_nonneg _) (by positivity)
    (pow_le_one₀ (by linarith) (by linarith)) (one_le_pow₀ (by linarith)) (by simp [packet2]) (packet2_near h0 hε hw ha)
    ⟨rfl, fun c h => ⟨ha.2.2 c h, hs c h⟩⟩ ho hl

/-- **C80 (n-D).** With `d` axes the factors are `(1-ε)^(d·n)` and `(1+ε)^(d·n)`. -/
theorem C80_cover_energy_nd {ε : ℝ} (hε : ε ≤ 1) {w : Wavelet ℝ} (hw : NearOrthogonal ε w) {maxlevel : Option ℤ}
    {axes : List ℤ} {ax : List ℕ} {x : Arr ℝ} {k : PKind Key (Arr ℝ)} {t : PTree Key (Arr ℝ)}
    (ha : AxesAre x.ndim (some axes) ax) (hd : 1 ≤ x.ndim)
    (h : WaveletPacketND w .periodization maxlevel (some axes) x = .ok (k, t)) {n : ℕ} (hn : (n : ℤ) ≤ k.maxlevel)
    (hs : ∀ c ∈ ax, 1 ≤ x.shape.getD c 0 ∧ 2 ^ n ∣ x.shape.getD c 0) {L : List (List Key)}
    (hL : Cut (words axes.length) L) (hl : ∀ p ∈ L, p.length ≤ n) :
    ∃ f : List Key → Arr ℝ, (∀ ops : List (POp Key (Arr ℝ)), (∀ op ∈ ops, op.ReadOnly) → ∀ p ∈ L,
        (k.fetch (ops.foldl k.exec t) p).1 = .ok (some (f p))) ∧
      (1 - ε) ^ (axes.length * n) * energy x.data ≤ (L.map fun p => energy (f p).data).sum ∧
      (L.map fun p => energy (f p).data).sum ≤ (1 + ε) ^ (axes.length * n) * energy x.data := by
  obtain ⟨m, rfl, rfl⟩ := WaveletPacketND_eq h
  have h0 := near_nonneg hw
  simp only [pow_mul]
  exact PKind.cut_near_fetch (E := fun d : Arr ℝ => energy d.data) (fun d => energy_nonneg _) (pow_nonneg (by linarith) _)
    (pow_le_one₀ (by linarith) (by linarith)) (one_le_pow₀ (by linarith)) (packetN_parts_ne w axes m (some x.shape))
    (packetN_near h0 hε hw ha hd) ⟨rfl, fun c h => ⟨ha.2.2 c h, hs c h⟩⟩ hn hL hl

/-- **C80 (n-D, leaves).** -/
theorem C80_leaf_energy_nd {ε : ℝ} (hε : ε ≤ 1) {w : Wavelet ℝ} (hw : NearOrthogonal ε w) {maxlevel : Option ℤ}
    {axes : List ℤ} {ax : List ℕ} {x : Arr ℝ} {k : PKind Key (Arr ℝ)} {t : PTree Key (Arr ℝ)}
    (ha : AxesAre x.ndim (some axes) ax) (hd : 1 ≤ x.ndim)
    (h : WaveletPacketND w .periodization maxlevel (some axes) x = .ok (k, t)) {n : ℕ}
    (hs : ∀ c ∈ ax, 1 ≤ x.shape.getD c 0 ∧ 2 ^ n ∣ x.shape.getD c 0) {ops : List (POp Key (Arr ℝ))}
    (ho : ∀ op ∈ ops, op.ReadOnly) (hl : ∀ p, ((ops.foldl k.exec t) p).isSome → p.length ≤ n) :
    ∃ (L : List (List Key)) (f : List Key → Arr ℝ),
      k.getLeafNodes (ops.foldl k.exec t) false = (.ok L, ops.foldl k.exec t) ∧ Cut (words axes.length) L ∧
      (∀ p ∈ L, ∃ nd, ops.foldl k.exec t p = some nd ∧ nd.data = some (f p)) ∧
      (1 - ε) ^ (axes.length * n) * energy x.data ≤ (L.map fun p => energy (f p).data).sum ∧
      (L.map fun p => energy (f p).data).sum ≤ (1 + ε) ^ (axes.length * n) * energy x.data := by
  obtain ⟨m, rfl, rfl⟩ := WaveletPacketND_eq h
  have h0 := near_nonneg hw
  simp only [pow_mul]
  exact PKind.leaves_near (k := packetN w .periodization axes m (some x.shape)) (E := fun d : Arr ℝ => energy d.data)
    (fun d => energy_nonneg _) (pow_nonneg (by linarith) _)
    (pow_le_one₀ (by linarith) (by linarith)) (one_le_pow₀ (by linarith)) (packetN_parts_ne w axes m _)
    (packetN_near h0 hε hw ha hd) ⟨rfl, fun c h => ⟨ha.2.2 c h, hs c h⟩⟩ ho hl

/-- **C80 (built-in wavelets).** For a built-in wavelet flagged orthogonal whose tables are exact up to `τ`, every choice of nodes of
depth at most `n` that covers the tree once has the energy of the signal up to `2·n·τ` of it. -/
theorem C80_builtin {single : Bool} {τ : ℝ} (h0 : 0 ≤ τ) (hτ : τ ≤ 1) {o : WaveletObj ℤ} (hw : BuiltinWithin single τ o)
    (horth : o.orthogonal = true) {maxlevel : Option ℤ} {axis : ℤ} {ax : ℕ}
    {x : Arr ℝ} {k : PKind Char (Arr ℝ)} {t : PTree Char (Arr ℝ)} (ha : AxisIs x.ndim axis ax)
    (h : WaveletPacket (realBank o.w) .periodization maxlevel axis x = .ok (k, t)) {n : ℕ} (hn : (n : ℤ) ≤ k.maxlevel)
    (h1 : 1 ≤ x.shape.getD ax 0) (hd : 2 ^ n ∣ x.shape.getD ax 0) {L : List (List Char)}
    (hL : Cut ['a', 'd'] L) (hl : ∀ p ∈ L, p.length ≤ n) (hnτ : n * τ ≤ 1) :
    ∃ f : List Char → Arr ℝ, (∀ ops : List (POp Char (Arr ℝ)), (∀ op ∈ ops, op.ReadOnly) → ∀ p ∈ L,
        (k.fetch (ops.foldl k.exec t) p).1 = .ok (some (f p))) ∧
      |(L.map fun p => energy (f p).data).sum - energy x.data| ≤ 2 * (n * τ) * energy x.data := by
  obtain ⟨name, fam, order, b1, b2, b3, b4⟩ := hw
  obtain ⟨f, f1, f2, f3⟩ := C80_cover_energy hτ (near_mono (C65_builtin_near_orthogonal b1 b2 single b3 horth) b4) ha h hn h1 hd hL hl
  exact ⟨f, f1, energy_change h0 hτ hnτ (energy_nonneg _) f2 f3⟩

/-- **C80 (built-in wavelets, n-D).** The same for `d` axes, with `2·d·n·τ`. -/
theorem C80_builtin_nd {single : Bool} {τ : ℝ} (h0 : 0 ≤ τ) (hτ : τ ≤ 1) {o : WaveletObj ℤ} (hw : BuiltinWithin single τ o)
    (horth : o.orthogonal = true) {maxlevel : Option ℤ}
    {axes : List ℤ} {ax : List ℕ} {x : Arr ℝ} {k : PKind Key (Arr ℝ)} {t : PTree Key (Arr ℝ)}
    (ha : AxesAre x.ndim (some axes) ax) (hd : 1 ≤ x.ndim)
    (h : WaveletPacketND (realBank o.w) .periodization maxlevel (some axes) x = .ok (k, t)) {n : ℕ} (hn : (n : ℤ) ≤ k.maxlevel)
    (hs : ∀ c ∈ ax, 1 ≤ x.shape.getD c 0 ∧ 2 ^ n ∣ x.shape.getD c 0) {L : List (List Key)}
    (hL : Cut (words axes.length) L) (hl : ∀ p ∈ L, p.length ≤ n) (hnτ : (axes.length * n : ℕ) * τ ≤ 1) :
    ∃ f : List Key → Arr ℝ, (∀ ops : List (POp Key (Arr ℝ)), (∀ op ∈ ops, op.ReadOnly) → ∀ p ∈ L,
        (k.fetch (ops.foldl k.exec t) p).1 = .ok (some (f p))) ∧
      |(L.map fun p => energy (f p).data).sum - energy x.data| ≤ 2 * ((axes.length * n : ℕ) * τ) * energy x.data := by
  obtain ⟨name, fam, order, b1, b2, b3, b4⟩ := hw
  obtain ⟨f, f1, f2, f3⟩ :=
    C80_cover_energy_nd hτ (near_mono (C65_builtin_near_orthogonal b1 b2 single b3 horth) b4) ha hd h hn hs hL hl
  exact ⟨f, f1, energy_change h0 hτ hnτ (energy_nonneg _) f2 f3⟩

/-- The hypotheses are met by `sym4`, eight samples and three levels. -/
example : ∃ o, waveletNamed false "sym4" = .ok o ∧ BuiltinWithin false (1 / 100) o ∧ o.orthogonal = true ∧
    ∃ k t, WaveletPacket (M := ℝ) (realBank o.w) .periodization (some 3) (-1) (Arr.of1 [1, -2, 3, 5, 0, 7, 4, 6]) = .ok (k, t) ∧
      ((3 : ℕ) : ℤ) ≤ k.maxlevel ∧ AxisIs (Arr.of1 ([1, -2, 3, 5, 0, 7, 4, 6] : List ℝ)).ndim (-1) 0 ∧
      2 ^ 3 ∣ (Arr.of1 ([1, -2, 3, 5, 0, 7, 4, 6] : List ℝ)).shape.getD 0 0 ∧ ((3 : ℕ) : ℝ) * (1 / 100) ≤ 1 := by
  have hm : ("sym4", Family.sym, 4) ∈ wnameToCode := by decide +kernel
  obtain ⟨o, h1, -, hw, -⟩ := builtin_ok (single := false) hm rfl
  have horth : (waveletNamed false "sym4").map (fun o => o.orthogonal) = .ok true := by decide +kernel
  rw [h1] at horth
  exact ⟨o, h1, ⟨_, _, _, hm, rfl, h1, by norm_num [tolerance]⟩, by simpa [Except.map] using horth, _, _, rfl, le_refl _,
    ⟨by simp [Arr.of1, Arr.ndim], by simp [Arr.of1, Arr.ndim]⟩, by simp [Arr.of1], by norm_num⟩

/-- The same for two levels of `WaveletPacketND` and `WaveletPacket2D` on 4×4 arrays. -/
example (o : WaveletObj ℤ) (x : Arr ℝ) (hx : x.shape = [4, 4]) :
    (∃ k t, WaveletPacketND (realBank o.w) .periodization (some 2) (some [1, 0]) x = .ok (k, t) ∧ ((2 : ℕ) : ℤ) ≤ k.maxlevel ∧
      AxesAre x.ndim (some [1, 0]) [1, 0]) ∧
    (∃ k t, WaveletPacket2D (realBank o.w) .periodization (some 2) [-2, -1] x = .ok (k, t) ∧ ((2 : ℕ) : ℤ) ≤ k.maxlevel ∧
      AxesAre x.ndim (some [-2, -1]) [0, 1]) ∧
    ∀ c ∈ [0, 1], 1 ≤ x.shape.getD c 0 ∧ 2 ^ 2 ∣ x.shape.getD c 0 := by
  obtain ⟨sh, dat, ok⟩ := x
  simp only at hx
  subst hx
  have h2 : ∀ c ∈ [0, 1], 1 ≤ [4, 4].getD c 0 ∧ 2 ^ 2 ∣ [4, 4].getD c 0 := by decide
  have h3 : AxesAre 2 (some [1, 0]) [1, 0] ∧ AxesAre 2 (some [-2, -1]) [0, 1] :=
    ⟨⟨by decide, by decide, by decide⟩, by decide, by decide, by decide⟩
  exact ⟨⟨_, _, rfl, le_refl _, h3.1⟩, ⟨_, _, rfl, le_refl _, h3.2⟩, h2⟩

end Pywt
