import Verif.Props.Packet
import Verif.Proof.PacketLeaves

/-!
# C48, C49, C50: editing, rebuilding and pickling wavelet packets
-/

set_option autoImplicit false

namespace Pywt

open Spec

section trees
variable {P D : Type} [DecidableEq P]

/-! ### C48: assignments, deletions and leaves, after any history -/

/-- **C48.** After any sequence of operations, assignments and deletions included, the existing nodes form
a tree: the root exists, every other node has a parent that exists, is named by a valid part, and is not
deeper than `maxlevel`. -/
theorem C48_tree (k : PKind P D) (data : Option D) (ops : List (POp P D)) :
    let t := ops.foldl k.exec (k.init data)
    (t []).isSome ∧ ∀ p q, (t (p ++ [q])).isSome →
      (t p).isSome ∧ q ∈ k.parts ∧ ((p ++ [q]).length : ℤ) ≤ k.maxlevel := by
  have h := (PKind.tidy_init k data).execs ops
  refine ⟨h.root, fun p q hq => ?_⟩
  obtain ⟨h1, h2, h3⟩ := h.up p q hq
  exact ⟨h1, h2, by simp; omega⟩

/-- **C48.** `wp[path] = v` succeeds exactly for paths of at most `maxlevel` valid parts.  Then the node
at the path holds `v`; its missing ancestors are created without data; every other node, with its data,
is as it was. -/
theorem C48_assign (k : PKind P D) (data : Option D) (ops : List (POp P D)) (path : List P) (v : D) :
    let t := ops.foldl k.exec (k.init data)
    let r := k.setItem t [] v path
    (r.1 = .ok () ↔ (path.length : ℤ) ≤ k.maxlevel ∧ ∀ q ∈ path, q ∈ k.parts) ∧
    (r.1 = .ok () →
      (r.2 path).bind (·.data) = some v ∧
      (∀ p, p ≠ path → (t p).isSome → r.2 p = t p) ∧
      (∀ p, p ≠ path → t p = none → p <+: path → ∃ nd, r.2 p = some nd ∧ nd.data = none) ∧
      (∀ p, t p = none → ¬ p <+: path → r.2 p = none)) := by
  intro t r
  have h := (PKind.tidy_init k data).execs ops
  obtain ⟨-, h2, h3⟩ := PKind.Tidy.setItem v path [] h h.root
  refine ⟨by simpa using h2, fun hok => ?_⟩
  have h4 := h3 hok
  simp only [List.nil_append, List.nil_prefix, true_and] at h4
  refine ⟨?_, fun p hp ht => ?_, fun p hp ht hpre => ?_, fun p ht hpre => ?_⟩
  · show ((k.setItem t [] v path).2 path).bind (·.data) = some v
    rw [h4 path, if_pos rfl]
    rfl
  · show (k.setItem t [] v path).2 p = t p
    rw [h4 p, if_neg hp, if_pos ht]
  · refine ⟨⟨none, none⟩, ?_, rfl⟩
    show (k.setItem t [] v path).2 p = _
    rw [h4 p, if_neg hp, if_neg (by show ¬ (t p).isSome = true; rw [ht]; simp), if_pos hpre]
  · show (k.setItem t [] v path).2 p = _
    rw [h4 p, if_neg (by rintro rfl; exact hpre List.prefix_rfl),
      if_neg (by show ¬ (t p).isSome = true; rw [ht]; simp), if_neg hpre]

/-- **C48.** A path that is too long is an `IndexError`; nothing is changed. -/
theorem C48_assign_too_long (k : PKind P D) (t : PTree P D) {path : List P} (v : D)
    (h : (path.length : ℤ) > k.maxlevel) : k.setItem t [] v path = (.error .index, t) := by
  cases path with
  | nil => unfold PKind.setItem; rw [if_pos (by simpa using h)]
  | cons q qs => unfold PKind.setItem; rw [if_pos (by simpa using h)]

/-- **C48.** Reading a node that exists changes nothing. -/
theorem C48_read_existing (k : PKind P D) (data : Option D) (hm : 0 ≤ k.maxlevel) (ops : List (POp P D))
    {path : List P} (hp : ((ops.foldl k.exec (k.init data)) path).isSome) :
    let t := ops.foldl k.exec (k.init data)
    k.fetch t path = (.ok ((t path).bind (·.data)), t) := by
  intro t
  have h := (PKind.tidy_init k data).execs ops
  unfold PKind.fetch
  rw [PKind.Tidy.getItem_existing path [] h (by simpa using hp) hm]
  simp [t]

/-- **C48.** What was assigned is read back. -/
theorem C48_assign_read (k : PKind P D) (data : Option D) (hm : 0 ≤ k.maxlevel) (ops : List (POp P D))
    {path : List P} (v : D) (hl : (path.length : ℤ) ≤ k.maxlevel) (hq : ∀ q ∈ path, q ∈ k.parts) :
    (k.fetch (k.exec (ops.foldl k.exec (k.init data)) (.set path v)) path).1 = .ok (some v) := by
  have h1 := C48_assign k data ops path v
  simp only at h1
  have hok := h1.1.2 ⟨hl, hq⟩
  have h2 := (h1.2 hok).1
  have h3 := C48_read_existing k data hm (ops ++ [.set path v]) (path := path) (by
    simp only [List.foldl_append, List.foldl_cons, List.foldl_nil, PKind.exec]
    cases hh : (k.setItem (ops.foldl k.exec (k.init data)) [] v path).2 path with
    | none => rw [hh] at h2; cases h2
    | some nd => rfl)
  simp only [List.foldl_append, List.foldl_cons, List.foldl_nil] at h3
  rw [h3]
  simp only [PKind.exec]
  rw [h2]

/-- **C48.** `del wp[path]` of a node other than the root that exists removes the node and everything
below it and nothing else. -/
theorem C48_delete (k : PKind P D) (data : Option D) (hm : 0 ≤ k.maxlevel) (ops : List (POp P D))
    {path : List P} (hne : path ≠ []) (hp : ((ops.foldl k.exec (k.init data)) path).isSome) :
    let t := ops.foldl k.exec (k.init data)
    (k.delItem t path).1 = .ok () ∧
    (∀ r, path <+: r → (k.delItem t path).2 r = none) ∧
    (∀ r, ¬ path <+: r → (k.delItem t path).2 r = t r) := by
  intro t
  have h := (PKind.tidy_init k data).execs ops
  have e := PKind.Tidy.getItem_existing path [] h (by simpa using hp) hm
  unfold PKind.delItem
  simp only [t, e, if_neg hne]
  refine ⟨trivial, fun r hr => by rw [if_pos hr], fun r hr => by rw [if_neg hr]⟩

/-- **C48.** Deleting the root does nothing. -/
theorem C48_delete_root (k : PKind P D) (hm : 0 ≤ k.maxlevel) (t : PTree P D) :
    k.delItem t [] = (.ok (), t) := by
  unfold PKind.delItem PKind.getItem
  rw [if_neg (by omega)]
  rfl

/-- **C48.** `get_leaf_nodes(decompose=False)` returns, after any history, exactly the nodes without
subnodes, each once, from left to right, and changes nothing. -/
theorem C48_leaf_nodes (k : PKind P D) (data : Option D) (ops : List (POp P D)) :
    let t := ops.foldl k.exec (k.init data)
    ∃ l, k.getLeafNodes t false = (.ok l, t) ∧ (∀ r, r ∈ l ↔ Leaf t r) ∧ l.Pairwise (LeftOf k.parts) := by
  intro t
  have h := (PKind.tidy_init k data).execs ops
  obtain ⟨l, h1, h2, h3⟩ := h.walk_leaves k.fuel [] h.root (by unfold PKind.fuel; simp)
  refine ⟨l, h1, fun r => ?_, h3⟩
  rw [h2]
  simp [t]

omit [DecidableEq P] in
/-- `LeftOf` excludes duplicates when the names of the parts differ. -/
theorem leftOf_irrefl {parts : List P} (hn : parts.Nodup) (r : List P) : ¬ LeftOf parts r r := by
  rintro ⟨c, q, q', u, v, h1, h2, h3⟩
  have : c ++ q :: u = c ++ q' :: v := h1.symm.trans h2
  simp only [List.append_cancel_left_eq, List.cons.injEq] at this
  obtain ⟨rfl, -⟩ := this
  have := hn.sublist h3
  simp at this

end trees

/-- The parts of the three kinds of packets have different names. -/
example : (['a', 'd'] : List Char).Nodup ∧ (['a', 'h', 'v', 'd'] : List Char).Nodup ∧ (words 3).Nodup := by
  decide

variable {R M : Type} [Ring R] [AddCommGroup M] [Module R M]

/-- **C48.** `get_leaf_nodes(decompose=True)` after operations that assign and delete nothing decomposes
completely: it returns all `2^maxlevel` nodes of level `maxlevel` (1-D). -/
theorem C48_leaf_nodes_decompose {w : Wavelet R} (hw : w.Ok) {mode : Mode} {maxlevel : Option ℤ} {axis : ℤ}
    {ax : ℕ} {x : Arr M} {k : PKind Char (Arr M)} {t : PTree Char (Arr M)} (ha : AxisIs x.ndim axis ax)
    (h : WaveletPacket w mode maxlevel axis x = .ok (k, t)) (ops : List (POp Char (Arr M)))
    (ho : ∀ op ∈ ops, op.ReadOnly) {n : ℕ} (hn : k.maxlevel = n)
    (hl : LevelsOk mode w.dec_len (x.shape.getD ax 0) n) :
    (k.getLeafNodes (ops.foldl k.exec t) true).1 = .ok (wordsOf ['a', 'd'] n) ∧
    ∀ path ∈ wordsOf ['a', 'd'] n, ∃ d nd, iterDwt w mode axis x path = .ok d ∧
      (k.getLeafNodes (ops.foldl k.exec t) true).2 path = some nd ∧ nd.data = some d := by
  have h0 := C32_natural hw ha h ops ho (n := n) (by omega) hl
  obtain ⟨ax', m, ha', rfl, rfl⟩ := WaveletPacket_eq h
  have hI := (PKind.inv_init (k := packet1 w mode ax' m (some x.shape)) x).execs ops
    fun op h => .inl (ho op h)
  rw [hI.getLeafNodes hn]
  exact h0

/-- **C48 (2-D).** -/
theorem C48_leaf_nodes_decompose_2d {w : Wavelet R} (hw : w.Ok) {mode : Mode} {maxlevel : Option ℤ}
    {axes : List ℤ} {a b : ℕ} {x : Arr M} {k : PKind Char (Arr M)} {t : PTree Char (Arr M)}
    (ha : AxesAre x.ndim (some axes) [a, b])
    (h : WaveletPacket2D w mode maxlevel axes x = .ok (k, t)) (ops : List (POp Char (Arr M)))
    (ho : ∀ op ∈ ops, op.ReadOnly) {n : ℕ} (hn : k.maxlevel = n)
    (hla : LevelsOk mode w.dec_len (x.shape.getD a 0) n)
    (hlb : LevelsOk mode w.dec_len (x.shape.getD b 0) n) :
    (k.getLeafNodes (ops.foldl k.exec t) true).1 = .ok (wordsOf ['a', 'h', 'v', 'd'] n) ∧
    ∀ path ∈ wordsOf ['a', 'h', 'v', 'd'] n, ∃ d nd, iterDwt2 w mode axes x path = .ok d ∧
      (k.getLeafNodes (ops.foldl k.exec t) true).2 path = some nd ∧ nd.data = some d := by
  obtain ⟨h0, h1, -⟩ := C32_2d hw ha h ops ho (n := n) (by omega) hla hlb
  obtain ⟨m, rfl, rfl⟩ := WaveletPacket2D_eq h
  have hI := (PKind.inv_init (k := packet2 w mode axes m (some x.shape)) x).execs ops
    fun op h => .inl (ho op h)
  rw [hI.getLeafNodes hn]
  exact ⟨h0, h1⟩

/-- **C48 (n-D).** -/
theorem C48_leaf_nodes_decompose_nd {w : Wavelet R} (hw : w.Ok) {mode : Mode} {maxlevel : Option ℤ}
    {axes : List ℤ} {ax : List ℕ} {x : Arr M} {k : PKind Key (Arr M)} {t : PTree Key (Arr M)}
    (ha : AxesAre x.ndim (some axes) ax) (hd : 1 ≤ x.ndim)
    (h : WaveletPacketND w mode maxlevel (some axes) x = .ok (k, t)) (ops : List (POp Key (Arr M)))
    (ho : ∀ op ∈ ops, op.ReadOnly) {n : ℕ} (hn : k.maxlevel = n)
    (hl : ∀ a ∈ ax, LevelsOk mode w.dec_len (x.shape.getD a 0) n) :
    (k.getLeafNodes (ops.foldl k.exec t) true).1 = .ok (wordsOf (words axes.length) n) ∧
    ∀ path ∈ wordsOf (words axes.length) n, ∃ d nd, iterDwtn w mode axes x path = .ok d ∧
      (k.getLeafNodes (ops.foldl k.exec t) true).2 path = some nd ∧ nd.data = some d := by
  have h0 := C32_nd hw ha hd h ops ho (n := n) (by omega) hl
  obtain ⟨m, rfl, rfl⟩ := WaveletPacketND_eq h
  simp only [Option.getD_some] at hn h0 ⊢
  have hI := (PKind.inv_init (k := packetN w mode axes m (some x.shape)) x).execs ops
    fun op h => .inl (ho op h)
  rw [hI.getLeafNodes hn]
  exact h0

theorem foldl_min_spec (n : ℕ) (l : List ℕ) : l.foldl min n ≤ n ∧ (∀ s ∈ l, l.foldl min n ≤ s) ∧
    l.foldl min n ∈ n :: l := by
  induction l generalizing n with
  | nil => simp
  | cons a l ih =>
    obtain ⟨h1, h2, h3⟩ := ih (min n a)
    simp only [List.foldl_cons]
    refine ⟨by omega, fun s hs => ?_, ?_⟩
    · rcases List.mem_cons.1 hs with rfl | hs
      · omega
      · exact h2 s hs
    · rcases List.mem_cons.1 h3 with h3 | h3
      · rw [h3]
        rcases min_choice n a with h | h <;> rw [h] <;> simp
      · simp [h3]

/-- **C48.** Without `maxlevel`, the depth of a packet is `dwt_max_level` of the length along the axis;
`maxlevel` can be any number (1-D). -/
theorem C48_maxlevel {w : Wavelet R} {mode : Mode} {maxlevel : Option ℤ} {axis : ℤ} {ax : ℕ} {x : Arr M}
    {k : PKind Char (Arr M)} {t : PTree Char (Arr M)} (ha : AxisIs x.ndim axis ax)
    (h : WaveletPacket w mode maxlevel axis x = .ok (k, t)) :
    (∀ m, maxlevel = some m → k.maxlevel = m) ∧
    (maxlevel = none → ∃ L : ℕ, dwtMaxLevel (x.shape.getD ax 0) w.dec_len = .ok L ∧ k.maxlevel = L) := by
  have e2 : (if axis < 0 then axis + (x.ndim : ℤ) else axis).toNat = ax := by
    have := ha.1
    omega
  have e : ¬ ¬ (0 ≤ (if axis < 0 then axis + (x.ndim : ℤ) else axis) ∧
      (if axis < 0 then axis + (x.ndim : ℤ) else axis) < x.ndim) := by
    have := ha.1
    have := ha.2
    omega
  unfold WaveletPacket at h
  simp only [if_neg e, e2] at h
  refine ⟨fun m hm => ?_, fun hm => ?_⟩
  · subst hm
    simp only [Py_pure] at h
    injection h with h
    injection h with h1 h2
    rw [← h1]; rfl
  · subst hm
    simp only at h
    cases hL : dwtMaxLevel (x.shape.getD ax 0) w.dec_len with
    | error e => rw [hL] at h; cases h
    | ok L =>
      rw [hL] at h
      simp only [Py_bind_ok, Py_pure] at h
      injection h with h
      injection h with h1 h2
      exact ⟨L, rfl, by rw [← h1]; rfl⟩

theorem packetLevel_spec {w : Wavelet R} {ns : List ℕ} {m : ℤ}
    (h : packetLevel w ns none = .ok m) :
    ∃ s L : ℕ, s ∈ ns ∧ (∀ s' ∈ ns, s ≤ s') ∧ dwtMaxLevel s w.dec_len = .ok L ∧ m = L := by
  cases ns with
  | nil => cases h
  | cons n ns =>
    simp only [packetLevel] at h
    obtain ⟨h1, h2, h3⟩ := foldl_min_spec n ns
    cases hL : dwtMaxLevel (ns.foldl min n) w.dec_len with
    | error e => rw [hL] at h; cases h
    | ok L =>
      rw [hL] at h
      simp only [Py_bind_ok, Py_pure] at h
      injection h with h
      refine ⟨ns.foldl min n, L, h3, fun s' hs' => ?_, hL, h.symm⟩
      rcases List.mem_cons.1 hs' with rfl | hs'
      · exact h1
      · exact h2 s' hs'

/-- **C48 (2-D).** Without `maxlevel`, the depth is `dwt_max_level` of the shorter of the two lengths. -/
theorem C48_maxlevel_2d {w : Wavelet R} {mode : Mode} {axes : List ℤ} {a b : ℕ} {x : Arr M}
    {k : PKind Char (Arr M)} {t : PTree Char (Arr M)} (ha : AxesAre x.ndim (some axes) [a, b])
    (h : WaveletPacket2D w mode none axes x = .ok (k, t)) :
    ∃ s L : ℕ, (s = x.shape.getD a 0 ∨ s = x.shape.getD b 0) ∧ s ≤ x.shape.getD a 0 ∧
      s ≤ x.shape.getD b 0 ∧ dwtMaxLevel s w.dec_len = .ok L ∧ k.maxlevel = L := by
  have h3 := transformSize_ok (shape := x.shape) ha.1 ha.2.2
  unfold WaveletPacket2D at h
  by_cases h1 : numUnique axes ≠ 2
  · rw [if_pos h1] at h; cases h
  rw [if_neg h1] at h
  by_cases h2 : x.ndim < 2
  · simp only [if_pos h2] at h; cases h
  simp only [if_neg h2] at h
  rw [h3] at h
  simp only [Py_bind_ok] at h
  cases h4 : packetLevel w (([a, b] : List ℕ).map fun a => x.shape.getD a 0) none with
  | error e => rw [h4] at h; cases h
  | ok m =>
    rw [h4] at h
    simp only [Py_bind_ok, Py_pure] at h
    injection h with h
    injection h with h1 h2
    obtain ⟨s, L, s1, s2, s3, s4⟩ := packetLevel_spec h4
    simp only [List.map_cons, List.map_nil, List.mem_cons, List.not_mem_nil, or_false] at s1 s2
    refine ⟨s, L, s1, s2 _ (Or.inl rfl), s2 _ (Or.inr rfl), s3, ?_⟩
    rw [← h1]; exact s4

/-- **C48 (n-D).** Without `maxlevel`, the depth is `dwt_max_level` of the shortest transformed axis. -/
theorem C48_maxlevel_nd {w : Wavelet R} {mode : Mode} {axes : List ℤ} {ax : List ℕ} {x : Arr M}
    {k : PKind Key (Arr M)} {t : PTree Key (Arr M)} (ha : AxesAre x.ndim (some axes) ax)
    (h : WaveletPacketND w mode none (some axes) x = .ok (k, t)) :
    ∃ a ∈ ax, (∀ a' ∈ ax, x.shape.getD a 0 ≤ x.shape.getD a' 0) ∧
      ∃ L : ℕ, dwtMaxLevel (x.shape.getD a 0) w.dec_len = .ok L ∧ k.maxlevel = L := by
  have h3 := transformSize_ok (shape := x.shape) ha.1 ha.2.2
  unfold WaveletPacketND at h
  simp only [Option.getD_some] at h
  by_cases h1 : numUnique axes ≠ axes.length
  · rw [if_pos h1] at h; cases h
  rw [if_neg h1] at h
  by_cases h2 : x.ndim = 0
  · simp only [if_pos h2] at h; cases h
  simp only [if_neg h2] at h
  by_cases h5 : x.ndim < axes.length
  · simp only [if_pos h5] at h; cases h
  simp only [if_neg h5] at h
  rw [h3] at h
  simp only [Py_bind_ok] at h
  cases h4 : packetLevel w (ax.map fun a => x.shape.getD a 0) none with
  | error e => rw [h4] at h; cases h
  | ok m =>
    rw [h4] at h
    simp only [Py_bind_ok, Py_pure] at h
    injection h with h
    injection h with h1 h2
    obtain ⟨s, L, s1, s2, s3, s4⟩ := packetLevel_spec h4
    obtain ⟨a, ha', rfl⟩ := List.mem_map.1 s1
    refine ⟨a, ha', fun a' h' => s2 _ (List.mem_map.2 ⟨a', h', rfl⟩), L, s3, ?_⟩
    rw [← h1]; exact s4

/-- An edited tree: a node assigned at depth 2, then its parent deleted. -/
example : ∃ k t, WaveletPacket haarQ .symmetric (some 2) 0 (Arr.of1 ([1, 2, 3, 4] : List ℚ)) = .ok (k, t) ∧
    let t1 := k.exec t (.set ['a', 'd'] (Arr.of1 [7]))
    (t1 ['a', 'd']).isSome ∧ (t1 ['a']).isSome ∧ ¬ (t1 ['d']).isSome ∧
    (k.exec t1 (.del ['a'])) ['a', 'd'] = none ∧
    (k.getLeafNodes t1 false).1 = .ok [['a', 'd']] := by
  exact ⟨_, _, rfl, by decide +kernel⟩

/-! ### C49: packets rebuilt from their leaves -/

/-- The leaves and their data, as read from an unmodified packet. -/
theorem leaves_read {P D : Type} [DecidableEq P] {k : PKind P D} {x : D} {t : PTree P D} (h : k.Inv x t)
    (hm : 0 ≤ k.maxlevel) {l leaves : List (List P)} (hg : (k.getLeafNodes t false).1 = .ok l)
    (hL : leaves.Perm l) {f : List P → D} (hf : ∀ p ∈ leaves, (k.fetch t p).1 = .ok (some (f p))) :
    (∀ r, r ∈ leaves ↔ Leaf t r) ∧ ∀ r ∈ leaves, ∀ d, k.along x r = .ok d → f r = d := by
  obtain ⟨l', h1, h2, -⟩ := h.tidy.walk_leaves k.fuel [] h.root (by unfold PKind.fuel; simp)
  have hl' : (k.getLeafNodes t false).1 = .ok l' := by
    unfold PKind.getLeafNodes
    rw [h1]
  have e : l = l' := by
    rw [hg] at hl'
    injection hl'
  subst e
  have hmem : ∀ r, r ∈ leaves ↔ Leaf t r := by
    intro r
    rw [hL.mem_iff, h2]
    simp
  refine ⟨hmem, fun r hr d hd => ?_⟩
  have hleaf := (hmem r).1 hr
  have h3 := PKind.Tidy.getItem_existing r [] h.tidy (by simpa using hleaf.1) hm
  have h4 := hf r hr
  unfold PKind.fetch at h4
  rw [h3] at h4
  simp only [List.nil_append] at h4
  obtain ⟨d', d1, d2⟩ := h.dataAt hleaf.1
  rw [d2] at h4
  rw [hd] at d1
  injection d1 with d1
  subst d1
  injection h4 with h4
  injection h4 with h4
  exact h4.symm

/-- **C49 (1-D, partial).** Take a packet `wp` after operations that assign and delete nothing; assign the
data of its leaves, in any order, to a new packet created without data but with the same wavelet, mode,
axis and depth.  Its `reconstruct` returns the original data, if every node that was decomposed has an
even length.  Missing: odd lengths, for which the claim is false (`C49_from_leaves_fails`,
`C49_from_leaves_longer`). -/
theorem C49_from_leaves_partial {w : Wavelet R} (hw : w.Ok) (hpr : PR w.dec_lo w.dec_hi w.rec_lo w.rec_hi)
    {mode : Mode} {maxlevel : Option ℤ} {axis : ℤ} {ax : ℕ} {x : Arr M} {k k' : PKind Char (Arr M)}
    {t t' : PTree Char (Arr M)} (ha : AxisIs x.ndim axis ax)
    (h : WaveletPacket w mode maxlevel axis x = .ok (k, t)) (hm : 0 ≤ k.maxlevel)
    (ops : List (POp Char (Arr M))) (ho : ∀ op ∈ ops, op.ReadOnly)
    (hev : ∀ p c d, ((ops.foldl k.exec t) (p ++ [c])).isSome → iterDwt w mode axis x p = .ok d →
      d.shape.getD ax 0 % 2 = 0)
    {leaves l : List (List Char)}
    (hg : (k.getLeafNodes (ops.foldl k.exec t) false).1 = .ok l) (hL : leaves.Perm l)
    {f : List Char → Arr M} (hf : ∀ p ∈ leaves, (k.fetch (ops.foldl k.exec t) p).1 = .ok (some (f p)))
    (h' : WaveletPacket.empty w mode k.maxlevel axis = (k', t')) (update : Bool) :
    (k'.reconstructRoot ((leaves.map fun p => POp.set p (f p)).foldl k'.exec t') update).1 =
      .ok (some x) := by
  obtain ⟨ax', m, ha', rfl, rfl⟩ := WaveletPacket_eq h
  have e : ax' = ax := by have := ha.1; have := ha'.1; omega
  subst e
  unfold WaveletPacket.empty at h'
  injection h' with h1 h2
  subst h1
  rw [← h2]
  have hI := (PKind.inv_init (k := packet1 w mode ax' m (some x.shape)) x).execs ops
    fun op h => .inl (ho op h)
  obtain ⟨l1, l2⟩ := leaves_read hI hm hg hL hf
  refine PKind.Inv.from_leaves (k := packet1 w mode ax' m (some x.shape)) (k' := packet1 w mode axis m none)
    rfl rfl rfl hm hI ?_ l1 f l2 update
  intro p d c hp hq hd hc
  obtain ⟨q, hq⟩ := hq
  have hn := (packet1_along hw p x d ha.2 hd).1
  refine packet1_exact hw hpr (by rw [hn]; exact ha) hc (hev p q d hq ?_)
  rw [iterDwt_axis hw mode p x ha, ← packet1_along_iter w mode ax' m (some x.shape)]
  exact hd

/-- **C49 (2-D, partial).** The same for `WaveletPacket2D`. -/
theorem C49_from_leaves_2d_partial {w : Wavelet R} (hw : w.Ok)
    (hpr : PR w.dec_lo w.dec_hi w.rec_lo w.rec_hi)
    {mode : Mode} {maxlevel : Option ℤ} {axes : List ℤ} {a b : ℕ} {x : Arr M} {k k' : PKind Char (Arr M)}
    {t t' : PTree Char (Arr M)} (ha : AxesAre x.ndim (some axes) [a, b])
    (h : WaveletPacket2D w mode maxlevel axes x = .ok (k, t)) (hm : 0 ≤ k.maxlevel)
    (ops : List (POp Char (Arr M))) (ho : ∀ op ∈ ops, op.ReadOnly)
    (hev : ∀ p c d, ((ops.foldl k.exec t) (p ++ [c])).isSome → iterDwt2 w mode axes x p = .ok d →
      d.shape.getD a 0 % 2 = 0 ∧ d.shape.getD b 0 % 2 = 0)
    {leaves l : List (List Char)}
    (hg : (k.getLeafNodes (ops.foldl k.exec t) false).1 = .ok l) (hL : leaves.Perm l)
    {f : List Char → Arr M} (hf : ∀ p ∈ leaves, (k.fetch (ops.foldl k.exec t) p).1 = .ok (some (f p)))
    (h' : WaveletPacket2D.empty w mode k.maxlevel axes = .ok (k', t')) (update : Bool) :
    (k'.reconstructRoot ((leaves.map fun p => POp.set p (f p)).foldl k'.exec t') update).1 =
      .ok (some x) := by
  obtain ⟨m, rfl, rfl⟩ := WaveletPacket2D_eq h
  unfold WaveletPacket2D.empty at h'
  by_cases hu : numUnique axes ≠ 2
  · rw [if_pos hu] at h'; cases h'
  rw [if_neg hu] at h'
  simp only [Py_pure] at h'
  injection h' with h'
  injection h' with h1 h2
  subst h1
  rw [← h2]
  have hI := (PKind.inv_init (k := packet2 w mode axes m (some x.shape)) x).execs ops
    fun op h => .inl (ho op h)
  obtain ⟨l1, l2⟩ := leaves_read hI hm hg hL hf
  refine PKind.Inv.from_leaves (k := packet2 w mode axes m (some x.shape)) (k' := packet2 w mode axes m none)
    rfl rfl rfl hm hI ?_ l1 f l2 update
  intro p d c hp hq hd hc
  obtain ⟨q, hq⟩ := hq
  have hn := packet2_along hw ha p d hd
  have he := hev p q d hq (by rw [← packet2_along_iter w mode axes m (some x.shape)]; exact hd)
  exact packet2_exact hw hpr (by rw [hn]; exact ha) hc (by
    intro j hj
    simp only [List.mem_cons, List.not_mem_nil, or_false] at hj
    rcases hj with rfl | rfl
    · exact he.1
    · exact he.2)

theorem from_leaves_nd {w : Wavelet R} (hw : w.Ok)
    (hpr : PR w.dec_lo w.dec_hi w.rec_lo w.rec_hi)
    {mode : Mode} {m : ℤ} {axes : List ℤ} {ax : List ℕ} {x : Arr M} {t : PTree Key (Arr M)}
    (ha : AxesAre x.ndim (some axes) ax) (hd1 : 1 ≤ x.ndim)
    (hI : (packetN w mode axes m (some x.shape)).Inv x t) (hm : 0 ≤ m)
    (hev : ∀ p c d, (t (p ++ [c])).isSome → iterDwtn w mode axes x p = .ok d →
      ∀ a ∈ ax, d.shape.getD a 0 % 2 = 0)
    {leaves l : List (List Key)}
    (hg : ((packetN w mode axes m (some x.shape)).getLeafNodes t false).1 = .ok l) (hL : leaves.Perm l)
    {f : List Key → Arr M}
    (hf : ∀ p ∈ leaves, ((packetN w mode axes m (some x.shape)).fetch t p).1 = .ok (some (f p)))
    (update : Bool) :
    ((packetN w mode axes m none).reconstructRoot ((leaves.map fun p => POp.set p (f p)).foldl
      (packetN w mode axes m none).exec ((packetN w mode axes m none).init none)) update).1 =
      .ok (some x) := by
  obtain ⟨l1, l2⟩ := leaves_read hI hm hg hL hf
  refine PKind.Inv.from_leaves (k := packetN w mode axes m (some x.shape)) (k' := packetN w mode axes m none)
    rfl rfl rfl hm hI ?_ l1 f l2 update
  intro p d c hp hq hd hc
  obtain ⟨q, hq⟩ := hq
  have hlet : ∀ q ∈ p, q ∈ words ax.length := by
    have h1 := hI.letters p hp
    rw [← axesAre_length ha]
    exact h1
  have hn := (packetN_along hw ha hd1 p d hlet hd).1
  have h1 : AxesAre d.ndim (some axes) ax := by rw [hn]; exact ha
  have h2 : 1 ≤ d.ndim := by omega
  have h3 := hev p q d hq (by rw [← packetN_along_iter w mode axes m (some x.shape)]; exact hd)
  have h4 := packetN_exact (m' := m) (sz' := none) hw hpr h1 h2 hc h3
  convert h4 using 4

theorem WaveletPacketND_empty_eq {w : Wavelet R} {mode : Mode} {m : ℤ} {axes : List ℤ}
    {k : PKind Key (Arr M)} {t : PTree Key (Arr M)}
    (h : WaveletPacketND.empty w mode m (some axes) = .ok (k, t)) :
    k = packetN w mode axes m none ∧ t = (packetN w mode axes m none).init none := by
  unfold WaveletPacketND.empty at h
  by_cases hu : numUnique axes ≠ axes.length
  · simp only [if_pos hu] at h; cases h
  simp only [if_neg hu, Except.ok.injEq, Prod.mk.injEq] at h
  exact ⟨h.1.symm, h.2.symm⟩

/-- **C49 (n-D, partial).** The same for `WaveletPacketND`. -/
theorem C49_from_leaves_nd_partial {w : Wavelet R} (hw : w.Ok)
    (hpr : PR w.dec_lo w.dec_hi w.rec_lo w.rec_hi)
    {mode : Mode} {maxlevel : Option ℤ} {axes : List ℤ} {ax : List ℕ} {x : Arr M} {k k' : PKind Key (Arr M)}
    {t t' : PTree Key (Arr M)} (ha : AxesAre x.ndim (some axes) ax) (hd1 : 1 ≤ x.ndim)
    (h : WaveletPacketND w mode maxlevel (some axes) x = .ok (k, t)) (hm : 0 ≤ k.maxlevel)
    (ops : List (POp Key (Arr M))) (ho : ∀ op ∈ ops, op.ReadOnly)
    (hev : ∀ p c d, ((ops.foldl k.exec t) (p ++ [c])).isSome → iterDwtn w mode axes x p = .ok d →
      ∀ a ∈ ax, d.shape.getD a 0 % 2 = 0)
    {leaves l : List (List Key)}
    (hg : (k.getLeafNodes (ops.foldl k.exec t) false).1 = .ok l) (hL : leaves.Perm l)
    {f : List Key → Arr M} (hf : ∀ p ∈ leaves, (k.fetch (ops.foldl k.exec t) p).1 = .ok (some (f p)))
    (h' : WaveletPacketND.empty w mode k.maxlevel (some axes) = .ok (k', t')) (update : Bool) :
    (k'.reconstructRoot ((leaves.map fun p => POp.set p (f p)).foldl k'.exec t') update).1 =
      .ok (some x) := by
  obtain ⟨m, rfl, rfl⟩ := WaveletPacketND_eq h
  simp only [Option.getD_some] at hm hev hg hf h'
  obtain ⟨rfl, rfl⟩ := WaveletPacketND_empty_eq h'
  exact from_leaves_nd hw hpr ha hd1
    ((PKind.inv_init (k := packetN w mode axes m (some x.shape)) x).execs ops fun op h => .inl (ho op h))
    hm hev hg hL hf update

/-- **C49 (1-D).** In periodization mode a length divisible by `2 ^ maxlevel` is enough: the packet made of
the leaves returns the original data. -/
theorem C49_from_leaves_periodization {w : Wavelet R} (hw : w.Ok)
    (hpr : PR w.dec_lo w.dec_hi w.rec_lo w.rec_hi)
    {maxlevel : Option ℤ} {axis : ℤ} {ax : ℕ} {x : Arr M} {k k' : PKind Char (Arr M)}
    {t t' : PTree Char (Arr M)} (ha : AxisIs x.ndim axis ax)
    (h : WaveletPacket w .periodization maxlevel axis x = .ok (k, t)) (hm : 0 ≤ k.maxlevel)
    (hdvd : 2 ^ k.maxlevel.toNat ∣ x.shape.getD ax 0)
    (ops : List (POp Char (Arr M))) (ho : ∀ op ∈ ops, op.ReadOnly) {leaves l : List (List Char)}
    (hg : (k.getLeafNodes (ops.foldl k.exec t) false).1 = .ok l) (hL : leaves.Perm l)
    {f : List Char → Arr M} (hf : ∀ p ∈ leaves, (k.fetch (ops.foldl k.exec t) p).1 = .ok (some (f p)))
    (h' : WaveletPacket.empty w .periodization k.maxlevel axis = (k', t')) (update : Bool) :
    (k'.reconstructRoot ((leaves.map fun p => POp.set p (f p)).foldl k'.exec t') update).1 =
      .ok (some x) := by
  refine C49_from_leaves_partial hw hpr ha h hm ops ho ?_ hg hL hf h' update
  obtain ⟨ax', m, ha', rfl, rfl⟩ := WaveletPacket_eq h
  have e : ax' = ax := by have := ha.1; have := ha'.1; omega
  subst e
  intro p c d hp hd
  rw [iterDwt_axis hw .periodization p x ha, ← packet1_along_iter w .periodization ax' m (some x.shape)] at hd
  rw [(packet1_along hw p x d ha.2 hd).2]
  have h2 := (((PKind.inv_init (k := packet1 w .periodization ax' m (some x.shape)) x).execs ops
    fun op h => .inl (ho op h)).tidy.up p c hp).2.2
  exact approxLen_per_even (dvd_trans (pow_dvd_pow 2 (by omega)) hdvd)

/-- **C49 (2-D).** The same for `WaveletPacket2D`. -/
theorem C49_from_leaves_2d_periodization {w : Wavelet R} (hw : w.Ok)
    (hpr : PR w.dec_lo w.dec_hi w.rec_lo w.rec_hi)
    {maxlevel : Option ℤ} {axes : List ℤ} {a b : ℕ} {x : Arr M} {k k' : PKind Char (Arr M)}
    {t t' : PTree Char (Arr M)} (ha : AxesAre x.ndim (some axes) [a, b])
    (h : WaveletPacket2D w .periodization maxlevel axes x = .ok (k, t)) (hm : 0 ≤ k.maxlevel)
    (hdvd : ∀ j ∈ [a, b], 2 ^ k.maxlevel.toNat ∣ x.shape.getD j 0)
    (ops : List (POp Char (Arr M))) (ho : ∀ op ∈ ops, op.ReadOnly) {leaves l : List (List Char)}
    (hg : (k.getLeafNodes (ops.foldl k.exec t) false).1 = .ok l) (hL : leaves.Perm l)
    {f : List Char → Arr M} (hf : ∀ p ∈ leaves, (k.fetch (ops.foldl k.exec t) p).1 = .ok (some (f p)))
    (h' : WaveletPacket2D.empty w .periodization k.maxlevel axes = .ok (k', t')) (update : Bool) :
    (k'.reconstructRoot ((leaves.map fun p => POp.set p (f p)).foldl k'.exec t') update).1 =
      .ok (some x) := by
  refine C49_from_leaves_2d_partial hw hpr ha h hm ops ho ?_ hg hL hf h' update
  obtain ⟨m, rfl, rfl⟩ := WaveletPacket2D_eq h
  intro p c d hp hd
  rw [← packet2_along_iter w .periodization axes m (some x.shape)] at hd
  have h2 := (((PKind.inv_init (k := packet2 w .periodization axes m (some x.shape)) x).execs ops
    fun op h => .inl (ho op h)).tidy.up p c hp).2.2
  have key : ∀ j ∈ [a, b], d.shape.getD j 0 % 2 = 0 := by
    intro j hj
    rw [packet2_along_len hw p x d ha hd j hj]
    exact approxLen_per_even (dvd_trans (pow_dvd_pow 2 (by omega)) (hdvd j hj))
  exact ⟨key a (by simp), key b (by simp)⟩

/-- **C49 (n-D).** The same for `WaveletPacketND`. -/
theorem C49_from_leaves_nd_periodization {w : Wavelet R} (hw : w.Ok)
    (hpr : PR w.dec_lo w.dec_hi w.rec_lo w.rec_hi)
    {maxlevel : Option ℤ} {axes : List ℤ} {ax : List ℕ} {x : Arr M} {k k' : PKind Key (Arr M)}
    {t t' : PTree Key (Arr M)} (ha : AxesAre x.ndim (some axes) ax) (hd1 : 1 ≤ x.ndim)
    (h : WaveletPacketND w .periodization maxlevel (some axes) x = .ok (k, t)) (hm : 0 ≤ k.maxlevel)
    (hdvd : ∀ j ∈ ax, 2 ^ k.maxlevel.toNat ∣ x.shape.getD j 0)
    (ops : List (POp Key (Arr M))) (ho : ∀ op ∈ ops, op.ReadOnly) {leaves l : List (List Key)}
    (hg : (k.getLeafNodes (ops.foldl k.exec t) false).1 = .ok l) (hL : leaves.Perm l)
    {f : List Key → Arr M} (hf : ∀ p ∈ leaves, (k.fetch (ops.foldl k.exec t) p).1 = .ok (some (f p)))
    (h' : WaveletPacketND.empty w .periodization k.maxlevel (some axes) = .ok (k', t')) (update : Bool) :
    (k'.reconstructRoot ((leaves.map fun p => POp.set p (f p)).foldl k'.exec t') update).1 =
      .ok (some x) := by
  refine C49_from_leaves_nd_partial hw hpr ha hd1 h hm ops ho ?_ hg hL hf h' update
  obtain ⟨m, rfl, rfl⟩ := WaveletPacketND_eq h
  simp only [Option.getD_some] at hm hdvd ⊢
  intro p c d hp hd
  rw [← packetN_along_iter w .periodization axes m (some x.shape)] at hd
  have hI := (PKind.inv_init (k := packetN w .periodization axes m (some x.shape)) x).execs ops
    fun op h => .inl (ho op h)
  obtain ⟨h1, -, h2⟩ := hI.tidy.up p c hp
  have hlet : ∀ q ∈ p, q ∈ words ax.length := by
    have h1 := hI.letters p h1
    rw [← axesAre_length ha]
    exact h1
  intro j hj
  rw [(packetN_along hw ha hd1 p d hlet hd).2 j hj]
  refine approxLen_per_even (dvd_trans (pow_dvd_pow 2 ?_) (hdvd j hj))
  have h3 : (p.length : ℤ) < m := h2
  have h4 : (packetN (M := M) w .periodization axes m (some x.shape)).maxlevel = m := rfl
  rw [h4]
  omega

/-- Four samples. -/
def ex4 : Arr ℚ := Arr.of1 [1, 2, 3, 5]

/-- A 2 × 4 array. -/
def exRect : Arr ℚ := ⟨[2, 4], [1, 2, 3, 4, 5, 6, 7, 9], by decide⟩

/-- Six samples. -/
def ex6 : Arr ℚ := Arr.of1 [1, 2, 3, 4, 5, 7]

/-- Eight samples: a packet whose node `d` is decomposed, with leaves `a`, `da`, `dd`. -/
example : ∃ k t, WaveletPacket haarQ .symmetric (some 2) (-1) (Arr.of1 ([1, 2, 3, 4, 5, 7, 0, 1] : List ℚ)) = .ok (k, t) ∧
    0 ≤ k.maxlevel ∧
    (k.getLeafNodes (k.exec t (.get ['d', 'a'])) false).1 = .ok [['a'], ['d', 'a'], ['d', 'd']] := by
  exact ⟨_, _, rfl, by decide, by decide +kernel⟩

/-- The data read at a path, or `x`. -/
def readOr {P : Type} [DecidableEq P] (k : PKind P (Arr ℚ)) (t : PTree P (Arr ℚ)) (x : Arr ℚ) (p : List P) :
    Arr ℚ :=
  match (k.fetch t p).1 with
  | .ok (some d) => d
  | _ => x

/-- The hypotheses of the 1-D theorem, for four samples and the leaves `a`, `da`, `dd` in another order. -/
example : ∃ k t k' t', WaveletPacket haarQ .periodization (some 2) (-1) ex4 = .ok (k, t) ∧
    WaveletPacket.empty haarQ .periodization 2 (-1) = (k', t') ∧
    (k'.reconstructRoot (([['d', 'a'], ['a'], ['d', 'd']].map fun p =>
      POp.set p (readOr k (k.exec t (.get ['d', 'a'])) ex4 p)).foldl k'.exec t') true).1 =
      .ok (some ex4) := by
  let k : PKind Char (Arr ℚ) := packet1 haarQ .periodization 0 2 (some [4])
  let k' : PKind Char (Arr ℚ) := packet1 haarQ .periodization (-1) 2 none
  refine ⟨k, k.init (some ex4), k', k'.init none, rfl, rfl, ?_⟩
  exact C49_from_leaves_periodization (k := k) (t := k.init (some ex4)) (k' := k') (t' := k'.init none)
    (maxlevel := some 2) (axis := -1) (ax := 0) haarQ_ok haarQ_PR (by unfold AxisIs; decide) rfl
    (by decide) (by decide) [.get ['d', 'a']] (by simp [POp.ReadOnly])
    (l := [['a'], ['d', 'a'], ['d', 'd']]) (by decide +kernel) (by decide)
    (f := readOr k (k.exec (k.init (some ex4)) (.get ['d', 'a'])) ex4) (by decide +kernel) rfl true

/-- The hypotheses of the 2-D theorem, for a 2 × 4 array. -/
example : ∃ k t k' t', WaveletPacket2D haarQ .periodization (some 1) [0, 1] exRect = .ok (k, t) ∧
    WaveletPacket2D.empty haarQ .periodization 1 [0, 1] = .ok (k', t') ∧
    (k'.reconstructRoot (([['v'], ['d'], ['a'], ['h']].map fun p =>
      POp.set p (readOr k (k.exec t (.get ['h'])) exRect p)).foldl k'.exec t') true).1 =
      .ok (some exRect) := by
  let k : PKind Char (Arr ℚ) := packet2 haarQ .periodization [0, 1] 1 (some [2, 4])
  let k' : PKind Char (Arr ℚ) := packet2 haarQ .periodization [0, 1] 1 none
  refine ⟨k, k.init (some exRect), k', k'.init none, rfl, rfl, ?_⟩
  exact C49_from_leaves_2d_periodization (k := k) (t := k.init (some exRect)) (k' := k')
    (t' := k'.init none) (maxlevel := some 1) (axes := [0, 1]) (a := 0) (b := 1) haarQ_ok haarQ_PR
    (by unfold AxesAre; decide) rfl (by decide) (by decide) [.get ['h']] (by simp [POp.ReadOnly])
    (l := [['a'], ['h'], ['v'], ['d']]) (by decide +kernel) (by decide)
    (f := readOr k (k.exec (k.init (some exRect)) (.get ['h'])) exRect) (by decide +kernel) rfl true

/-- The hypotheses of the n-D theorem, for a 2 × 4 array transformed along its second axis. -/
example : ∃ k t k' t', WaveletPacketND haarQ .periodization (some 2) (some [1]) exRect = .ok (k, t) ∧
    WaveletPacketND.empty haarQ .periodization 2 (some [1]) = .ok (k', t') ∧
    (k'.reconstructRoot (([[['d'], ['a']], [['a']], [['d'], ['d']]].map fun p =>
      POp.set p (readOr k (k.exec t (.get [['d'], ['a']])) exRect p)).foldl k'.exec t') true).1 =
      .ok (some exRect) := by
  let k : PKind Key (Arr ℚ) := packetN haarQ .periodization [1] 2 (some [2, 4])
  let k' : PKind Key (Arr ℚ) := packetN haarQ .periodization [1] 2 none
  refine ⟨k, k.init (some exRect), k', k'.init none, rfl, rfl, ?_⟩
  exact C49_from_leaves_nd_periodization (k := k) (t := k.init (some exRect)) (k' := k')
    (t' := k'.init none) (maxlevel := some 2) (axes := [1]) (ax := [1]) haarQ_ok haarQ_PR (by unfold AxesAre; decide)
    (by decide) rfl (by decide) (by decide) [.get [['d'], ['a']]] (by simp [POp.ReadOnly])
    (l := [[['a']], [['d'], ['a']], [['d'], ['d']]]) (by decide +kernel) (by decide)
    (f := readOr k (k.exec (k.init (some exRect)) (.get [['d'], ['a']])) exRect) (by decide +kernel) rfl true

/-- **C49 fails for odd lengths.** Six samples, Haar wavelet: the nodes of level 1 have three samples.  A
packet whose node `d` has been decomposed has the leaves `a`, `da`, `dd`; a new packet made of these leaves
cannot be reconstructed (`ValueError`), because the node `d` is restored with four samples. -/
theorem C49_from_leaves_fails : ∃ k t k' t' a da dd,
    WaveletPacket haarQ .symmetric (some 2) (-1) ex6 = .ok (k, t) ∧
    WaveletPacket.empty haarQ .symmetric 2 (-1) = (k', t') ∧
    let t1 := k.exec t (.get ['d', 'a'])
    (k.getLeafNodes t1 false).1 = .ok [['a'], ['d', 'a'], ['d', 'd']] ∧
    (k.fetch t1 ['a']).1 = .ok (some a) ∧ (k.fetch t1 ['d', 'a']).1 = .ok (some da) ∧
    (k.fetch t1 ['d', 'd']).1 = .ok (some dd) ∧
    (k.reconstructRoot t1 false).1 = .ok (some ex6) ∧
    (k'.reconstructRoot ([.set ['a'] a, .set ['d', 'a'] da, .set ['d', 'd'] dd].foldl k'.exec t') false).1 =
      .error .value := by
  refine ⟨_, _, _, _, Arr.of1 [3/2, 7/2, 6], Arr.of1 [-1/2, -1], Arr.of1 [0, 0], rfl, rfl, ?_⟩
  decide +kernel

/-- **C49 fails for odd lengths:** when both nodes of level 1 have been decomposed, the new packet returns
eight samples instead of six. -/
theorem C49_from_leaves_longer : ∃ k t k' t' aa ad da dd y,
    WaveletPacket haarQ .symmetric (some 2) (-1) ex6 = .ok (k, t) ∧
    WaveletPacket.empty haarQ .symmetric 2 (-1) = (k', t') ∧
    let t1 := (k.getLevel t 2 true).2
    (k.fetch t1 ['a', 'a']).1 = .ok (some aa) ∧ (k.fetch t1 ['a', 'd']).1 = .ok (some ad) ∧
    (k.fetch t1 ['d', 'a']).1 = .ok (some da) ∧ (k.fetch t1 ['d', 'd']).1 = .ok (some dd) ∧
    (k'.reconstructRoot ([.set ['a', 'a'] aa, .set ['a', 'd'] ad, .set ['d', 'a'] da,
      .set ['d', 'd'] dd].foldl k'.exec t') false).1 = .ok (some y) ∧ y.shape = [8] := by
  refine ⟨_, _, _, _, Arr.of1 [5/2, 6], Arr.of1 [-1, 0], Arr.of1 [-1/2, -1], Arr.of1 [0, 0],
    Arr.of1 [1, 2, 3, 4, 5, 7, 5, 7], rfl, rfl, ?_⟩
  decide +kernel

/-! ### C50: pickling -/

/-- **C50 (1-D, partial).** Unpickling a pickled `WaveletPacket` that transforms the last axis and has
undergone operations that assign and delete nothing returns the packet as it was constructed; every read
then gives the same result as on the pickled packet.  Missing: other axes (`C50_axis_lost`), packets with
assigned nodes (`C50_assigned_lost`) or without data (`C50_leaves_lost`). -/
theorem C50_unpickle_partial {w : Wavelet R} {mode : Mode} {maxlevel : Option ℤ} {axis : ℤ} {x : Arr M}
    {k : PKind Char (Arr M)} {t : PTree Char (Arr M)} (ha : AxisIs x.ndim axis (x.ndim - 1))
    (h : WaveletPacket w mode maxlevel axis x = .ok (k, t))
    (ops : List (POp Char (Arr M))) (ho : ∀ op ∈ ops, op.ReadOnly) :
    unpickle1 w mode k (ops.foldl k.exec t) = .ok (k, t) ∧
    ∀ path : List Char, (∀ c ∈ path, c = 'a' ∨ c = 'd') → (path.length : ℤ) ≤ k.maxlevel →
      (k.fetch t path).1 = (k.fetch (ops.foldl k.exec t) path).1 := by
  obtain ⟨ax', m, ha', rfl, rfl⟩ := WaveletPacket_eq h
  have e : ax' = x.ndim - 1 := by have := ha.1; have := ha'.1; omega
  subst e
  have h0 := PKind.inv_init (k := packet1 w mode ((x.ndim - 1 : ℕ) : ℤ) m (some x.shape)) x
  have hI := h0.execs ops fun op h => .inl (ho op h)
  refine ⟨?_, fun path hp hl => ?_⟩
  · obtain ⟨d, d1, d2⟩ := hI.dataAt hI.root
    have e : x = d := by unfold PKind.along at d1; injection d1
    subst e
    have hn := ha.2
    have h1 : 0 ≤ (-1 : ℤ) + x.ndim ∧ (-1 : ℤ) + x.ndim < x.ndim := by omega
    have h2 : ((-1 : ℤ) + x.ndim).toNat = x.ndim - 1 := by omega
    unfold unpickle1
    rw [d2]
    simp only [Option.bind_some, WaveletPacket, show ((-1 : ℤ) < 0) from by decide, if_true,
      if_neg (not_not.2 h1), h2]
    rfl
  · have hp' : ∀ q ∈ path, q ∈ (packet1 (M := M) w mode ((x.ndim - 1 : ℕ) : ℤ) m (some x.shape)).parts := by
      intro q hq; simpa [packet1] using hp q hq
    rw [h0.fetch hp' hl, hI.fetch hp' hl]

/-- **C50 (2-D, partial).** The same for a `WaveletPacket2D` with the default axes. -/
theorem C50_unpickle_2d_partial {w : Wavelet R} {mode : Mode} {maxlevel : Option ℤ} {x : Arr M}
    {k : PKind Char (Arr M)} {t : PTree Char (Arr M)}
    (h : WaveletPacket2D w mode maxlevel [-2, -1] x = .ok (k, t))
    (ops : List (POp Char (Arr M))) (ho : ∀ op ∈ ops, op.ReadOnly) :
    unpickle2 w mode k (ops.foldl k.exec t) = .ok (k, t) ∧
    ∀ path : List Char, (∀ c ∈ path, c = 'a' ∨ c = 'h' ∨ c = 'v' ∨ c = 'd') →
      (path.length : ℤ) ≤ k.maxlevel →
      (k.fetch t path).1 = (k.fetch (ops.foldl k.exec t) path).1 := by
  obtain ⟨m, rfl, rfl⟩ := WaveletPacket2D_eq h
  have h0 := PKind.inv_init (k := packet2 w mode [-2, -1] m (some x.shape)) x
  have hI := h0.execs ops fun op h => .inl (ho op h)
  refine ⟨?_, fun path hp hl => ?_⟩
  · obtain ⟨d, d1, d2⟩ := hI.dataAt hI.root
    have e : x = d := by unfold PKind.along at d1; injection d1
    subst e
    unfold unpickle2
    rw [d2]
    have hu : ¬ numUnique [-2, -1] ≠ 2 := by decide
    unfold WaveletPacket2D at h ⊢
    simp only [if_neg hu, Option.bind_some] at h ⊢
    by_cases h2 : x.ndim < 2
    · simp only [if_pos h2] at h; cases h
    simp only [if_neg h2] at h ⊢
    cases h3 : transformSize x.shape [-2, -1] with
    | error e => rw [h3] at h; cases h
    | ok sizes => rfl
  · have hp' : ∀ q ∈ path, q ∈ (packet2 (M := M) w mode [-2, -1] m (some x.shape)).parts := by
      intro q hq; simpa [packet2] using hp q hq
    rw [h0.fetch hp' hl, hI.fetch hp' hl]

example : ∃ k t, WaveletPacket haarQ .symmetric none (-1) exRect = .ok (k, t) ∧
    (k.fetch t ['a', 'd']).1 = .ok (some ⟨[2, 1], [-1, -5/4], by decide⟩) := by
  exact ⟨_, _, rfl, by decide +kernel⟩

/-- **C50 fails for other axes:** a pickled packet that transforms the first axis comes back as a packet
that transforms the last one. -/
theorem C50_axis_lost : ∃ k t k' t' a a',
    WaveletPacket haarQ .symmetric (some 1) 0 exRect = .ok (k, t) ∧
    unpickle1 haarQ .symmetric k t = .ok (k', t') ∧
    (k.fetch t ['a']).1 = .ok (some a) ∧ a.shape = [1, 4] ∧
    (k'.fetch t' ['a']).1 = .ok (some a') ∧ a'.shape = [2, 2] := by
  refine ⟨_, _, _, _, ⟨[1, 4], [3, 4, 5, 13/2], by decide⟩, ⟨[2, 2], [3/2, 7/2, 11/2, 8], by decide⟩, rfl, rfl,
    ?_⟩
  decide +kernel

/-- **C50 fails for edited packets:** an assigned node is replaced by the computed one. -/
theorem C50_assigned_lost : ∃ k t k' t' a,
    WaveletPacket haarQ .symmetric (some 2) (-1) ex6 = .ok (k, t) ∧
    let t1 := k.exec (k.exec t (.get ['a'])) (.set ['a'] (Arr.of1 [0, 0, 0]))
    unpickle1 haarQ .symmetric k t1 = .ok (k', t') ∧
    (k.fetch t1 ['a']).1 = .ok (some (Arr.of1 [0, 0, 0])) ∧
    (k'.fetch t' ['a']).1 = .ok (some a) ∧ a ≠ Arr.of1 [0, 0, 0] := by
  refine ⟨_, _, _, _, Arr.of1 [3/2, 7/2, 6], rfl, rfl, ?_⟩
  decide +kernel

/-- **C50 fails for packets built from their nodes:** they come back empty. -/
theorem C50_leaves_lost (w : Wavelet R) (mode : Mode) (m : ℤ) (hm : 1 ≤ m) (a d : Arr M) :
    ∃ k t, WaveletPacket.empty w mode m (-1) = (k, t) ∧
    let t1 := k.exec (k.exec t (.set ['a'] a)) (.set ['d'] d)
    (k.fetch t1 ['a']).1 = .ok (some a) ∧ (k.fetch t1 ['d']).1 = .ok (some d) ∧
    unpickle1 w mode k t1 = .ok (k, t) ∧ t ['a'] = none ∧ t ['d'] = none := by
  refine ⟨_, _, rfl, ?_⟩
  set k : PKind Char (Arr M) := packet1 w mode (-1) m none with hk
  have hm0 : 0 ≤ k.maxlevel := by show 0 ≤ m; omega
  have hm1 : (1 : ℤ) ≤ k.maxlevel := hm
  have ra : ∀ q ∈ ['a'], q ∈ k.parts := by simp [hk, packet1]
  have rd : ∀ q ∈ ['d'], q ∈ k.parts := by simp [hk, packet1]
  have A := C48_assign k none [] ['a'] a
  have B := C48_assign k none [.set ['a'] a] ['d'] d
  simp only [List.foldl_cons, List.foldl_nil] at A B
  have A2 := A.2 (A.1.2 ⟨by simpa using hm1, ra⟩)
  have B2 := B.2 (B.1.2 ⟨by simpa using hm1, rd⟩)
  have eA : ∀ t v p, k.exec t (.set p v) = (k.setItem t [] v p).2 := fun _ _ _ => rfl
  simp only [eA] at B2 ⊢
  have root1 := A2.2.1 [] (by simp) (by rfl)
  have root2 := B2.2.1 [] (by simp) (by rw [root1]; rfl)
  have node1 : ((k.setItem (k.init none) [] a ['a']).2 ['a']).isSome := by
    cases hh : (k.setItem (k.init none) [] a ['a']).2 ['a'] with
    | none => have := A2.1; rw [hh] at this; cases this
    | some nd => rfl
  have node2 := B2.2.1 ['a'] (by simp) node1
  have ka := C48_read_existing k none hm0 [.set ['a'] a, .set ['d'] d] (path := ['a']) (by
    simp only [List.foldl_cons, List.foldl_nil, eA]
    rw [node2]; exact node1)
  have kd := C48_assign_read k none hm0 [.set ['a'] a] (path := ['d']) d (by simpa using hm1) rd
  simp only [List.foldl_cons, List.foldl_nil, eA] at ka kd
  refine ⟨?_, kd, ?_, rfl, rfl⟩
  · rw [ka, node2, A2.1]
  · unfold unpickle1
    rw [root2, root1]
    rfl

end Pywt
