import Verif.Proof.PacketMove
import Verif.Props.Packet
import Verif.Props.PacketEnergy

/-!
# C92: wavelet packets of rolled and transposed data

`Arr.roll axis c x` is `np.roll(x, c, axis)`, `Arr.transpose π x` is `np.transpose(x, [π 0, π 1, …])`.
-/

namespace Pywt

open Finset Spec

set_option autoImplicit false
set_option linter.unusedSectionVars false

variable {R M : Type} [CommRing R] [AddCommGroup M] [Module R M]

/-- What is read from a node of a tree that was not edited. -/
theorem fetch_along {P D : Type} [DecidableEq P] (k : PKind P D) (x : D) {ops : List (POp P D)}
    (ho : ∀ op ∈ ops, op.ReadOnly) {path : List P} (hp : ∀ q ∈ path, q ∈ k.parts) (hl : (path.length : ℤ) ≤ k.maxlevel) :
    (k.fetch (ops.foldl k.exec (k.init (some x))) path).1 = (k.along x path).map some :=
  ((PKind.inv_init x).execs ops fun op h => .inl (ho op h)).fetch hp hl

theorem map_some_map {D : Type} (f : D → D) (r : Py D) : (r.map f).map some = (r.map some).map (Option.map f) := by
  cases r <;> rfl

/-- The constructors look at the shape of the data only. -/
theorem WaveletPacket_shape {w : Wavelet R} {mode : Mode} {maxlevel : Option ℤ} {axis : ℤ} {x y : Arr M}
    (hs : y.shape = x.shape) {k : PKind Char (Arr M)} {t : PTree Char (Arr M)}
    (h : WaveletPacket w mode maxlevel axis x = .ok (k, t)) :
    WaveletPacket w mode maxlevel axis y = .ok (k, k.init (some y)) := by
  unfold WaveletPacket Arr.ndim at h ⊢
  rw [hs]
  simp only at h ⊢
  split_ifs at h ⊢ with h0
  all_goals first
    | (cases h; done)
    | (cases maxlevel with
       | some m => cases h; rfl
       | none =>
         simp only [Py_bind_ok] at h ⊢
         cases hm : dwtMaxLevel (x.shape.getD _ 0) w.dec_len with
         | error e => rw [hm] at h; cases h
         | ok v => rw [hm] at h; cases h; rfl)

theorem WaveletPacket2D_shape {w : Wavelet R} {mode : Mode} {maxlevel : Option ℤ} {axes : List ℤ} {x y : Arr M}
    (hs : y.shape = x.shape) {k : PKind Char (Arr M)} {t : PTree Char (Arr M)}
    (h : WaveletPacket2D w mode maxlevel axes x = .ok (k, t)) :
    WaveletPacket2D w mode maxlevel axes y = .ok (k, k.init (some y)) := by
  unfold WaveletPacket2D Arr.ndim at h ⊢
  rw [hs]
  by_cases h1 : numUnique axes ≠ 2
  · rw [if_pos h1] at h; cases h
  by_cases h2 : x.shape.length < 2
  · rw [if_neg h1] at h; simp only [if_pos h2] at h; cases h
  rw [if_neg h1] at h ⊢
  simp only [if_neg h2] at h ⊢
  cases h3 : transformSize x.shape axes with
  | error e => rw [h3] at h; cases h
  | ok sz =>
    rw [h3] at h
    simp only [Py_bind_ok] at h ⊢
    cases h4 : packetLevel w sz maxlevel with
    | error e => rw [h4] at h; cases h
    | ok m => rw [h4] at h; cases h; rfl

theorem WaveletPacketND_shape {w : Wavelet R} {mode : Mode} {maxlevel : Option ℤ} {axes : List ℤ} {x y : Arr M}
    (hs : y.shape = x.shape) {k : PKind Key (Arr M)} {t : PTree Key (Arr M)}
    (h : WaveletPacketND w mode maxlevel (some axes) x = .ok (k, t)) :
    WaveletPacketND w mode maxlevel (some axes) y = .ok (k, k.init (some y)) := by
  unfold WaveletPacketND Arr.ndim at h ⊢
  rw [hs]
  simp only [Option.getD_some] at h ⊢
  by_cases h1 : numUnique axes ≠ axes.length
  · rw [if_pos h1] at h; cases h
  by_cases h2 : x.shape.length = 0
  · rw [if_neg h1] at h; simp only [if_pos h2] at h; cases h
  by_cases h5 : x.shape.length < axes.length
  · rw [if_neg h1] at h; simp only [if_neg h2, if_pos h5] at h; cases h
  rw [if_neg h1] at h ⊢
  simp only [if_neg h2, if_neg h5] at h ⊢
  cases h3 : transformSize x.shape axes with
  | error e => rw [h3] at h; cases h
  | ok sz =>
    rw [h3] at h
    simp only [Py_bind_ok] at h ⊢
    cases h4 : packetLevel w sz maxlevel with
    | error e => rw [h4] at h; cases h
    | ok m => rw [h4] at h; cases h; rfl

/-! ### Rolls -/

/-- **C92 (1-D, roll).** `mode='periodization'`, a node at depth `l`, an extent that is a multiple of `2^l`: the packet of the data
rolled by `2^l·c` has at this node the data of the packet of the data itself, rolled by `c` — whatever was read, decomposed or
reconstructed before in the one packet or the other. -/
theorem C92_packet_roll {w : Wavelet R} (hw : w.Ok) {maxlevel : Option ℤ} {axis : ℤ} {ax : ℕ} {x : Arr M}
    {k : PKind Char (Arr M)} {t : PTree Char (Arr M)} (ha : AxisIs x.ndim axis ax)
    (h : WaveletPacket w .periodization maxlevel axis x = .ok (k, t)) {path : List Char}
    (hp : ∀ q ∈ path, q = 'a' ∨ q = 'd') (hl : (path.length : ℤ) ≤ k.maxlevel) (h1 : 1 ≤ x.shape.getD ax 0)
    (hd : 2 ^ path.length ∣ x.shape.getD ax 0) (c : ℤ) :
    ∃ t', WaveletPacket w .periodization maxlevel axis (Spec.Arr.roll ax (2 ^ path.length * c) x) = .ok (k, t') ∧
      ∀ ops ops' : List (POp Char (Arr M)), (∀ op ∈ ops, op.ReadOnly) → (∀ op ∈ ops', op.ReadOnly) →
        (k.fetch (ops'.foldl k.exec t') path).1 =
          ((k.fetch (ops.foldl k.exec t) path).1).map (Option.map (Spec.Arr.roll ax c)) := by
  refine ⟨_, WaveletPacket_shape (shape_roll _ _ _) h, fun ops ops' ho ho' => ?_⟩
  obtain ⟨ax', m, ha', rfl, rfl⟩ := WaveletPacket_eq h
  obtain rfl : ax' = ax := by have := ha.1; have := ha'.1; omega
  have hq : ∀ q ∈ path, q ∈ (packet1 (M := M) w .periodization ax' m (some x.shape)).parts := by
    intro q hq; simpa [packet1] using hp q hq
  rw [fetch_along _ _ ho' hq hl, fetch_along _ _ ho hq hl, packet1_roll hw ha.2 c hp ⟨rfl, h1, hd⟩, map_some_map]

/-- **C92 (2-D, roll).** The same for `WaveletPacket2D` and a roll along one of the two axes. -/
theorem C92_packet2_roll {w : Wavelet R} (hw : w.Ok) {maxlevel : Option ℤ} {axes : List ℤ} {a b : ℕ} {x : Arr M}
    {k : PKind Char (Arr M)} {t : PTree Char (Arr M)} (ha : AxesAre x.ndim (some axes) [a, b])
    (h : WaveletPacket2D w .periodization maxlevel axes x = .ok (k, t)) {path : List Char}
    (hp : ∀ q ∈ path, q ∈ ['a', 'h', 'v', 'd']) (hl : (path.length : ℤ) ≤ k.maxlevel) {ax : ℕ} (hm : ax = a ∨ ax = b)
    (h1 : 1 ≤ x.shape.getD ax 0) (hd : 2 ^ path.length ∣ x.shape.getD ax 0) (c : ℤ) :
    ∃ t', WaveletPacket2D w .periodization maxlevel axes (Spec.Arr.roll ax (2 ^ path.length * c) x) = .ok (k, t') ∧
      ∀ ops ops' : List (POp Char (Arr M)), (∀ op ∈ ops, op.ReadOnly) → (∀ op ∈ ops', op.ReadOnly) →
        (k.fetch (ops'.foldl k.exec t') path).1 =
          ((k.fetch (ops.foldl k.exec t) path).1).map (Option.map (Spec.Arr.roll ax c)) := by
  refine ⟨_, WaveletPacket2D_shape (shape_roll _ _ _) h, fun ops ops' ho ho' => ?_⟩
  obtain ⟨m, rfl, rfl⟩ := WaveletPacket2D_eq h
  rw [fetch_along _ _ ho' hp hl, fetch_along _ _ ho hp hl, packet2_roll hw ha (by simpa using hm) c hp ⟨rfl, h1, hd⟩,
    map_some_map]

/-- **C92 (n-D, roll).** The same for `WaveletPacketND` and a roll along one of the transformed axes. -/
theorem C92_packetn_roll {w : Wavelet R} (hw : w.Ok) {maxlevel : Option ℤ} {axes : List ℤ} {axs : List ℕ} {x : Arr M}
    {k : PKind Key (Arr M)} {t : PTree Key (Arr M)} (ha : AxesAre x.ndim (some axes) axs)
    (h : WaveletPacketND w .periodization maxlevel (some axes) x = .ok (k, t)) {path : List Key}
    (hp : ∀ key ∈ path, key.length = axes.length ∧ ∀ q ∈ key, q = 'a' ∨ q = 'd') (hl : (path.length : ℤ) ≤ k.maxlevel)
    {ax : ℕ} (hm : ax ∈ axs) (h1 : 1 ≤ x.shape.getD ax 0) (hd : 2 ^ path.length ∣ x.shape.getD ax 0) (c : ℤ) :
    ∃ t', WaveletPacketND w .periodization maxlevel (some axes) (Spec.Arr.roll ax (2 ^ path.length * c) x) = .ok (k, t') ∧
      ∀ ops ops' : List (POp Key (Arr M)), (∀ op ∈ ops, op.ReadOnly) → (∀ op ∈ ops', op.ReadOnly) →
        (k.fetch (ops'.foldl k.exec t') path).1 =
          ((k.fetch (ops.foldl k.exec t) path).1).map (Option.map (Spec.Arr.roll ax c)) := by
  refine ⟨_, WaveletPacketND_shape (shape_roll _ _ _) h, fun ops ops' ho ho' => ?_⟩
  obtain ⟨m, rfl, rfl⟩ := WaveletPacketND_eq h
  have hq : ∀ q ∈ path, q ∈ words axes.length := fun q hq => mem_words.2 (hp q hq)
  rw [fetch_along _ _ ho' hq hl, fetch_along _ _ ho hq hl]
  simp only [Option.getD_some]
  rw [packetN_roll hw (by have := ha.2.2 ax hm; omega) ha hm c hq ⟨rfl, h1, hd⟩, map_some_map]

/-! ### Transposition -/

theorem WaveletPacket_closed {w : Wavelet R} {mode : Mode} {maxlevel : Option ℤ} {axis : ℤ} {ax : ℕ} {x : Arr M}
    (ha : AxisIs x.ndim axis ax) : WaveletPacket w mode maxlevel axis x =
      (packetLevel w [x.shape.getD ax 0] maxlevel).map fun m =>
        (packet1 w mode ax m (some x.shape), (packet1 w mode ax m (some x.shape)).init (some x)) := by
  have e2 : (if axis < 0 then axis + (x.ndim : ℤ) else axis).toNat = ax := by
    have := ha.1
    omega
  have e : ¬ ¬ (0 ≤ (if axis < 0 then axis + (x.ndim : ℤ) else axis) ∧
      (if axis < 0 then axis + (x.ndim : ℤ) else axis) < x.ndim) := by
    have := ha.1
    have := ha.2
    omega
  unfold WaveletPacket
  simp only [if_neg e, e2]
  cases maxlevel with
  | some m => rfl
  | none =>
    simp only [packetLevel, List.foldl_nil]
    cases dwtMaxLevel (x.shape.getD ax 0) w.dec_len <;> rfl

theorem numUnique_axes {N : ℕ} {axes : List ℤ} {ax : List ℕ} (ha : AxesAre N (some axes) ax) : numUnique axes = axes.length := by
  have h1 : (axes.map fun a : ℤ => if a < 0 then a + (N : ℤ) else a).Nodup := by
    rw [← ha.1]
    exact ha.2.1.map Nat.cast_injective
  unfold numUnique
  rw [List.dedup_eq_self.mpr (List.Nodup.of_map _ h1)]

theorem axes_le_ndim {N : ℕ} {axes : List ℤ} {ax : List ℕ} (ha : AxesAre N (some axes) ax) : axes.length ≤ N := by
  rw [axesAre_length ha]
  have := (ha.2.1.subperm (l₂ := List.range N) fun j hj => List.mem_range.mpr (ha.2.2 j hj)).length_le
  simpa using this

theorem WaveletPacketND_closed {w : Wavelet R} {mode : Mode} {maxlevel : Option ℤ} {axes : List ℤ} {ax : List ℕ} {x : Arr M}
    (hd : 1 ≤ x.ndim) (ha : AxesAre x.ndim (some axes) ax) : WaveletPacketND w mode maxlevel (some axes) x =
      (packetLevel w (ax.map fun a => x.shape.getD a 0) maxlevel).map fun m =>
        (packetN w mode axes m (some x.shape), (packetN w mode axes m (some x.shape)).init (some x)) := by
  have h1 := numUnique_axes ha
  have h2 := axes_le_ndim ha
  unfold WaveletPacketND
  simp only [Option.getD_some]
  rw [if_neg (by simpa using h1)]
  simp only [if_neg (show ¬ x.ndim = 0 by omega), if_neg (show ¬ x.ndim < axes.length by omega)]
  rw [transformSize_ok (shape := x.shape) ha.1 ha.2.2]
  simp only [Py_bind_ok]
  cases packetLevel w (ax.map fun a => x.shape.getD a 0) maxlevel <;> rfl

theorem WaveletPacket2D_closed {w : Wavelet R} {mode : Mode} {maxlevel : Option ℤ} {axes : List ℤ} {a b : ℕ} {x : Arr M}
    (ha : AxesAre x.ndim (some axes) [a, b]) : WaveletPacket2D w mode maxlevel axes x =
      (packetLevel w [x.shape.getD a 0, x.shape.getD b 0] maxlevel).map fun m =>
        (packet2 w mode axes m (some x.shape), (packet2 w mode axes m (some x.shape)).init (some x)) := by
  have h1 := numUnique_axes ha
  have h2 := axes_le_ndim ha
  have h3 : axes.length = 2 := axesAre_length ha
  unfold WaveletPacket2D
  rw [if_neg (by rw [h1, h3]; simp)]
  simp only [if_neg (show ¬ x.ndim < 2 by omega)]
  rw [transformSize_ok (shape := x.shape) ha.1 ha.2.2]
  simp only [Py_bind_ok, List.map_cons, List.map_nil]
  cases packetLevel w [x.shape.getD a 0, x.shape.getD b 0] maxlevel <;> rfl

theorem packetLevel_swap (w : Wavelet R) (n n' : ℕ) (maxlevel : Option ℤ) :
    packetLevel w [n, n'] maxlevel = packetLevel w [n', n] maxlevel := by
  cases maxlevel with
  | some m => rfl
  | none => simp only [packetLevel, List.foldl_cons, List.foldl_nil, min_comm]

/-- **C92 (1-D, transpose).** For all modes: the packet of the transposed data, along the same axis, which has another number now,
has the same maximal level and at every node the transposed data, or fails in the same way. -/
theorem C92_packet_transpose {w : Wavelet R} (hw : w.Ok) {mode : Mode} {maxlevel : Option ℤ} {axis axis' : ℤ} {ax : ℕ}
    {x : Arr M} {π : Equiv.Perm ℕ} (hπ : ∀ j, π j < x.ndim ↔ j < x.ndim)
    {k : PKind Char (Arr M)} {t : PTree Char (Arr M)} (ha : AxisIs x.ndim axis ax)
    (ha' : AxisIs x.ndim axis' (π.symm ax)) (h : WaveletPacket w mode maxlevel axis x = .ok (k, t)) :
    ∃ k' t', WaveletPacket w mode maxlevel axis' (Spec.Arr.transpose π x) = .ok (k', t') ∧ k'.maxlevel = k.maxlevel ∧
      ∀ path : List Char, (∀ q ∈ path, q = 'a' ∨ q = 'd') → (path.length : ℤ) ≤ k.maxlevel →
        ∀ ops ops' : List (POp Char (Arr M)), (∀ op ∈ ops, op.ReadOnly) → (∀ op ∈ ops', op.ReadOnly) →
          (k'.fetch (ops'.foldl k'.exec t') path).1 =
            ((k.fetch (ops.foldl k.exec t) path).1).map (Option.map (Spec.Arr.transpose π)) := by
  have hx : (Spec.Arr.transpose π x).ndim = x.ndim := tShape_length π x.shape
  rw [WaveletPacket_closed ha] at h
  rw [WaveletPacket_closed (ax := π.symm ax) (by rw [hx]; exact ha'), shape_transpose, tShape_getD_symm hπ ha.2]
  cases hL : packetLevel w [x.shape.getD ax 0] maxlevel with
  | error e => rw [hL] at h; cases h
  | ok m =>
    rw [hL] at h
    cases h
    refine ⟨_, _, rfl, rfl, fun path hp hl ops ops' ho ho' => ?_⟩
    have hq : ∀ q ∈ path, q ∈ (['a', 'd'] : List Char) := by intro q hq; simpa using hp q hq
    rw [fetch_along (packet1 w mode (π.symm ax : ℕ) m (some (tShape π x.shape))) _ ho' hq hl, fetch_along _ _ ho hq hl,
      packet1_transpose (m := m) (sz := some x.shape) hw ha.2 hπ hp rfl, map_some_map]

/-- **C92 (2-D, transpose).** The packet of the transposed image has the same maximal level, and at a node the transposed data of
the node whose name has `h` and `v` exchanged. -/
theorem C92_packet2_transpose {w : Wavelet R} (hw : w.Ok) {mode : Mode} {maxlevel : Option ℤ} {axes : List ℤ}
    {a b : ℕ} {x : Arr M} {k : PKind Char (Arr M)} {t : PTree Char (Arr M)} (ha : AxesAre x.ndim (some axes) [a, b])
    (h : WaveletPacket2D w mode maxlevel axes x = .ok (k, t)) :
    ∃ k' t', WaveletPacket2D w mode maxlevel axes (Spec.Arr.transpose (Equiv.swap a b) x) = .ok (k', t') ∧
      k'.maxlevel = k.maxlevel ∧
      ∀ path : List Char, (∀ q ∈ path, q ∈ ['a', 'h', 'v', 'd']) → (path.length : ℤ) ≤ k.maxlevel →
        ∀ ops ops' : List (POp Char (Arr M)), (∀ op ∈ ops, op.ReadOnly) → (∀ op ∈ ops', op.ReadOnly) →
          (k'.fetch (ops'.foldl k'.exec t') (path.map swapHV)).1 =
            ((k.fetch (ops.foldl k.exec t) path).1).map (Option.map (Spec.Arr.transpose (Equiv.swap a b))) := by
  have hx : (Spec.Arr.transpose (Equiv.swap a b) x).ndim = x.ndim := tShape_length _ x.shape
  have hab : a < x.shape.length ∧ b < x.shape.length := ⟨ha.2.2 a (by simp), ha.2.2 b (by simp)⟩
  rw [WaveletPacket2D_closed ha] at h
  rw [WaveletPacket2D_closed (by rw [hx]; exact ha), shape_transpose, tShape_getD hab.1, tShape_getD hab.2,
    Equiv.swap_apply_left, Equiv.swap_apply_right, packetLevel_swap]
  cases hL : packetLevel w [x.shape.getD a 0, x.shape.getD b 0] maxlevel with
  | error e => rw [hL] at h; cases h
  | ok m =>
    rw [hL] at h
    cases h
    refine ⟨_, _, rfl, rfl, fun path hp hl ops ops' ho ho' => ?_⟩
    have hq : ∀ q ∈ path.map swapHV, q ∈ (['a', 'h', 'v', 'd'] : List Char) := by
      intro q hq
      obtain ⟨r, hr, rfl⟩ := List.mem_map.mp hq
      have := hp r hr
      simp only [List.mem_cons, List.not_mem_nil, or_false] at this
      rcases this with rfl | rfl | rfl | rfl <;> decide
    rw [fetch_along _ _ ho' hq (by rw [List.length_map]; exact hl), fetch_along _ _ ho hp hl,
      packet2_transpose (m := m) (sz := some x.shape) hw ha hp rfl, map_some_map]

/-- **C92 (n-D, transpose).** The same as in one dimension for `WaveletPacketND`. -/
theorem C92_packetn_transpose {w : Wavelet R} (hw : w.Ok) {mode : Mode} {maxlevel : Option ℤ} {axes axes' : List ℤ}
    {axs : List ℕ} {x : Arr M} {π : Equiv.Perm ℕ} (hπ : ∀ j, π j < x.ndim ↔ j < x.ndim)
    {k : PKind Key (Arr M)} {t : PTree Key (Arr M)} (hd : 1 ≤ x.ndim) (ha : AxesAre x.ndim (some axes) axs)
    (ha' : AxesAre x.ndim (some axes') (axs.map π.symm)) (h : WaveletPacketND w mode maxlevel (some axes) x = .ok (k, t)) :
    ∃ k' t', WaveletPacketND w mode maxlevel (some axes') (Spec.Arr.transpose π x) = .ok (k', t') ∧
      k'.maxlevel = k.maxlevel ∧
      ∀ path : List Key, (∀ key ∈ path, key.length = axes.length ∧ ∀ q ∈ key, q = 'a' ∨ q = 'd') →
        (path.length : ℤ) ≤ k.maxlevel →
        ∀ ops ops' : List (POp Key (Arr M)), (∀ op ∈ ops, op.ReadOnly) → (∀ op ∈ ops', op.ReadOnly) →
          (k'.fetch (ops'.foldl k'.exec t') path).1 =
            ((k.fetch (ops.foldl k.exec t) path).1).map (Option.map (Spec.Arr.transpose π)) := by
  have hx : (Spec.Arr.transpose π x).ndim = x.ndim := tShape_length π x.shape
  have hsz : ((axs.map π.symm).map fun a => (tShape π x.shape).getD a 0) = axs.map fun a => x.shape.getD a 0 := by
    rw [List.map_map]
    exact List.map_congr_left fun a h => tShape_getD_symm hπ (ha.2.2 a h)
  have e : axes'.length = axes.length := by
    rw [axesAre_length ha, axesAre_length ha', List.length_map]
  rw [WaveletPacketND_closed hd ha] at h
  rw [WaveletPacketND_closed (by rw [hx]; exact hd) (by rw [hx]; exact ha'), shape_transpose, hsz]
  cases hL : packetLevel w (axs.map fun a => x.shape.getD a 0) maxlevel with
  | error e => rw [hL] at h; cases h
  | ok m =>
    rw [hL] at h
    cases h
    refine ⟨_, _, rfl, rfl, fun path hp hl ops ops' ho ho' => ?_⟩
    have hq : ∀ q ∈ path, q ∈ words axes.length := fun q hq => mem_words.2 (hp q hq)
    have hq' : ∀ q ∈ path, q ∈ words axes'.length := by rw [e]; exact hq
    rw [fetch_along (packetN w mode axes' m (some (tShape π x.shape))) _ ho' hq' hl, fetch_along _ _ ho hq hl,
      packetN_transpose (m := m) (sz := some x.shape) hw hd hπ ha ha' hq rfl, map_some_map]

/-! ### The hypotheses are met -/

/-- Eight samples rolled by four, node `da`. -/
example : ∃ k t, WaveletPacket (M := ℚ) rotQ .periodization (some 3) (-1) (Arr.of1 [1, -2, 3, 5, 0, 7, 4, 6]) = .ok (k, t) ∧
    (['d', 'a'].length : ℤ) ≤ k.maxlevel ∧ AxisIs (Arr.of1 ([1, -2, 3, 5, 0, 7, 4, 6] : List ℚ)).ndim (-1) 0 ∧
    2 ^ ['d', 'a'].length ∣ (Arr.of1 ([1, -2, 3, 5, 0, 7, 4, 6] : List ℚ)).shape.getD 0 0 :=
  ⟨_, _, rfl, by decide, ⟨by decide, by decide⟩, by decide⟩

/-- A 4 by 4 image and its transpose, node `hd` and node `vd`. -/
example : ∃ k t k' t', WaveletPacket2D rotQ .symmetric (some 2) [-2, -1] ex44 = .ok (k, t) ∧
    WaveletPacket2D rotQ .symmetric (some 2) [-2, -1] (Spec.Arr.transpose (Equiv.swap 0 1) ex44) = .ok (k', t') ∧
    (['h', 'd'].length : ℤ) ≤ k.maxlevel ∧ (['h', 'd'].length : ℤ) ≤ k'.maxlevel ∧ ['h', 'd'].map swapHV = ['v', 'd'] ∧
    AxesAre ex44.ndim (some [-2, -1]) [0, 1] :=
  ⟨_, _, _, _, rfl, rfl, by decide, by decide, by decide, ⟨by decide, by decide, by decide⟩⟩

/-- The same image as an n-D packet along its last axis, which is the first axis of the transpose. -/
example : ∃ k t k' t', WaveletPacketND rotQ .periodization (some 2) (some [-1]) ex44 = .ok (k, t) ∧
    WaveletPacketND rotQ .periodization (some 2) (some [0]) (Spec.Arr.transpose (Equiv.swap 0 1) ex44) = .ok (k', t') ∧
    ([['d'], ['a']].length : ℤ) ≤ k.maxlevel ∧ ([['d'], ['a']].length : ℤ) ≤ k'.maxlevel ∧
    AxesAre ex44.ndim (some [-1]) [1] ∧ AxesAre ex44.ndim (some [0]) ([1].map (Equiv.swap 0 1).symm) ∧
    2 ^ 2 ∣ ex44.shape.getD 1 0 :=
  ⟨_, _, _, _, rfl, rfl, by decide, by decide, ⟨by decide, by decide, by decide⟩, ⟨by decide, by decide, by decide⟩, by decide⟩

end Pywt
