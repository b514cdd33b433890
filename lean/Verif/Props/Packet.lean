import Verif.Proof.Gray
import Verif.Proof.PacketKinds
import Verif.Proof.Examples

/-!
# C29–C32: wavelet packets

`WaveletPacket … = .ok (k, t)`: the constructor returns a packet with the parameters `k` and the tree
`t`.  `ops.foldl k.exec t` is the tree after the operations `ops` (item access, `decompose`,
`get_level`, `get_leaf_nodes`, `reconstruct`; exceptions caught).
-/

namespace Pywt

open Spec

set_option autoImplicit false
set_option linter.unusedSectionVars false

/-! ### C29: Gray-code order -/

/-- **C29.** For `level ≥ 1`, `get_graycode_order` lists every word of that length exactly once. -/
theorem C29_all_words {α : Type} {x y : α} (hxy : x ≠ y) {n : ℕ} (hn : 1 ≤ n) :
    (getGraycodeOrder (n : ℤ) x y).Nodup ∧ (getGraycodeOrder (n : ℤ) x y).length = 2 ^ n ∧
      ∀ w, w ∈ getGraycodeOrder (n : ℤ) x y ↔ w.length = n ∧ ∀ c ∈ w, c = x ∨ c = y := by
  obtain ⟨m, rfl⟩ : ∃ m, n = m + 1 := ⟨n - 1, by omega⟩
  have e : ((m + 1 : ℕ) - 1 : ℤ).toNat = m := by omega
  unfold getGraycodeOrder
  rw [e]
  exact ⟨graycode_nodup hxy m, graycode_length x y m, fun w => mem_graycode⟩

/-- Consecutive words differ in exactly one position. -/
theorem C29_one_letter {α : Type} {x y : α} (hxy : x ≠ y) (level : ℤ) :
    (getGraycodeOrder level x y).IsChain DifferInOne := graycode_chain hxy _

/-- Below level 1 the function still returns the words of length one. -/
theorem C29_level_zero {α : Type} (x y : α) {level : ℤ} (h : level ≤ 1) :
    getGraycodeOrder level x y = [[x], [y]] := by
  unfold getGraycodeOrder
  have e : (level - 1).toNat = 0 := by omega
  rw [e]
  rfl

example : getGraycodeOrder 3 'a' 'd' = ["aaa", "aad", "add", "ada", "dda", "ddd", "dad", "daa"].map
    String.toList := by decide

variable {R M : Type} [Ring R] [AddCommGroup M] [Module R M]

/-! ### C30: the data of the nodes -/

theorem iterDwt_axis {w : Wavelet R} (hw : w.Ok) (mode : Mode) {axis : ℤ} {ax : ℕ} (p : List Char)
    (x : Arr M) (ha : AxisIs x.ndim axis ax) :
    iterDwt w mode axis x p = iterDwt w mode (ax : ℤ) x p := by
  induction p generalizing x with
  | nil => rfl
  | cons q p ih =>
    have ha' : AxisIs x.ndim (ax : ℤ) ax := ⟨by simp, ha.2⟩
    have hax : ax < x.shape.length := ha.2
    unfold iterDwt
    by_cases hl : LenOk mode (x.shape.getD ax 0)
    · rw [dwtA_ok hw ha hl, dwtA_ok hw ha' hl]
      simp only
      apply ih
      have : ∀ n (f : List M → List M), (x.along ax n f).ndim = x.ndim := by
        intro n f; unfold Arr.ndim; rw [Arr.shape_along]; simp
      split_ifs <;> rw [this] <;> exact ha
    · rw [dwtA_err hw ha hl, dwtA_err hw ha' hl]

/-- **C30 (1-D).** After any sequence of operations that assign and delete nothing, `wp[path].data` is
the repeated `dwt` of the original data along `path` — or the error which that raises. -/
theorem C30_node_data {w : Wavelet R} (hw : w.Ok) {mode : Mode} {maxlevel : Option ℤ} {axis : ℤ}
    {x : Arr M} {k : PKind Char (Arr M)} {t : PTree Char (Arr M)}
    (h : WaveletPacket w mode maxlevel axis x = .ok (k, t)) (ops : List (POp Char (Arr M)))
    (ho : ∀ op ∈ ops, op.ReadOnly) {path : List Char} (hp : ∀ c ∈ path, c = 'a' ∨ c = 'd')
    (hl : (path.length : ℤ) ≤ k.maxlevel) :
    (k.fetch (ops.foldl k.exec t) path).1 = (iterDwt w mode axis x path).map some := by
  obtain ⟨ax, m, ha, rfl, rfl⟩ := WaveletPacket_eq h
  rw [iterDwt_axis hw mode path x ha, ← packet1_along_iter w mode ax m (some x.shape)]
  exact ((PKind.inv_init x).execs ops fun op h => .inl (ho op h)).fetch
    (by intro q hq; simpa [packet1] using hp q hq) hl

/-- **C30 (2-D).** The same for `WaveletPacket2D` and `dwt2`. -/
theorem C30_node_data_2d {w : Wavelet R} {mode : Mode} {maxlevel : Option ℤ} {axes : List ℤ}
    {x : Arr M} {k : PKind Char (Arr M)} {t : PTree Char (Arr M)}
    (h : WaveletPacket2D w mode maxlevel axes x = .ok (k, t)) (ops : List (POp Char (Arr M)))
    (ho : ∀ op ∈ ops, op.ReadOnly) {path : List Char}
    (hp : ∀ c ∈ path, c = 'a' ∨ c = 'h' ∨ c = 'v' ∨ c = 'd') (hl : (path.length : ℤ) ≤ k.maxlevel) :
    (k.fetch (ops.foldl k.exec t) path).1 = (iterDwt2 w mode axes x path).map some := by
  obtain ⟨m, rfl, rfl⟩ := WaveletPacket2D_eq h
  rw [← packet2_along_iter w mode axes m (some x.shape)]
  exact ((PKind.inv_init x).execs ops fun op h => .inl (ho op h)).fetch
    (by intro q hq; simpa [packet2] using hp q hq) hl

/-- **C30 (n-D).** The same for `WaveletPacketND` and `dwtn`; a path is a list of subband names. -/
theorem C30_node_data_nd {w : Wavelet R} {mode : Mode} {maxlevel : Option ℤ} {axes : List ℤ}
    {x : Arr M} {k : PKind Key (Arr M)} {t : PTree Key (Arr M)}
    (h : WaveletPacketND w mode maxlevel (some axes) x = .ok (k, t)) (ops : List (POp Key (Arr M)))
    (ho : ∀ op ∈ ops, op.ReadOnly) {path : List Key}
    (hp : ∀ key ∈ path, key.length = axes.length ∧ ∀ c ∈ key, c = 'a' ∨ c = 'd')
    (hl : (path.length : ℤ) ≤ k.maxlevel) :
    (k.fetch (ops.foldl k.exec t) path).1 = (iterDwtn w mode axes x path).map some := by
  obtain ⟨m, rfl, rfl⟩ := WaveletPacketND_eq h
  rw [← packetN_along_iter w mode axes m (some x.shape)]
  exact ((PKind.inv_init x).execs ops fun op h => .inl (ho op h)).fetch
    (by intro q hq; simpa [packetN] using mem_words.2 (hp q hq)) hl

/-- With `axes=None` all axes are transformed. -/
theorem C30_nd_default_axes (w : Wavelet R) (mode : Mode) (maxlevel : Option ℤ) (x : Arr M) :
    WaveletPacketND w mode maxlevel none x =
      WaveletPacketND w mode maxlevel (some (rangeAxes x.ndim)) x := rfl

/-- A path that is too long is an `IndexError`, and a letter that names no part is a `ValueError`,
whatever the tree; neither changes the tree. -/
theorem C30_bad_path {P D : Type} [DecidableEq P] (k : PKind P D) (t : PTree P D) :
    (∀ path, (path.length : ℤ) > k.maxlevel → k.fetch t path = (.error .index, t)) ∧
    (∀ q path, q ∉ k.parts → ((q :: path).length : ℤ) ≤ k.maxlevel →
      k.fetch t (q :: path) = (.error .value, t)) := by
  refine ⟨fun path hl => ?_, fun q path hq hl => ?_⟩
  · have : k.getItem t [] path = (.error .index, t) := by
      cases path with
      | nil => unfold PKind.getItem; rw [if_pos (by simpa using hl)]
      | cons q qs => unfold PKind.getItem; rw [if_pos hl]
    unfold PKind.fetch
    rw [this]
  · have : k.getItem t [] (q :: path) = (.error .value, t) := by
      unfold PKind.getItem
      rw [if_neg (by omega), PKind.getSubnode_bad t hq]
    unfold PKind.fetch
    rw [this]

/-- **The tree does not protect assigned data:** after `wp['a'] = v` on a fresh packet, `wp['a'].data` is
`v`; but merely reading `wp['d']` decomposes the root and replaces `wp['a']` by the computed
approximation. -/
theorem C30_assigned_data_lost {w : Wavelet R} (hw : w.Ok) {mode : Mode} {m : ℤ} (hm : 1 ≤ m) {axis : ℤ}
    {ax : ℕ} {x : Arr M} (ha : AxisIs x.ndim axis ax) (hl : LenOk mode (x.shape.getD ax 0)) (v : Arr M) :
    ∃ k t cA cD, WaveletPacket w mode (some m) axis x = .ok (k, t) ∧
      dwtA w mode axis x = .ok (cA, cD) ∧
      let t1 := k.exec t (.set ['a'] v)
      (k.fetch t1 ['a']).1 = .ok (some v) ∧
      (k.fetch (k.exec t1 (.get ['d'])) ['a']).1 = .ok (some cA) := by
  have hd := dwtA_ok hw ha hl
  have ha' : AxisIs x.ndim (ax : ℤ) ax := ⟨by simp, ha.2⟩
  have hd' := dwtA_ok hw ha' hl
  refine ⟨packet1 w mode ax m (some x.shape), (packet1 w mode ax m (some x.shape)).init (some x), _, _,
    ?_, hd, ?_⟩
  · unfold WaveletPacket
    have e : ¬ ¬ (0 ≤ (if axis < 0 then axis + (x.ndim : ℤ) else axis) ∧
        (if axis < 0 then axis + (x.ndim : ℤ) else axis) < x.ndim) := by
      have := ha.1
      have := ha.2
      omega
    have e2 : (if axis < 0 then axis + (x.ndim : ℤ) else axis).toNat = ax := by
      have := ha.1
      omega
    simp only [if_neg e, e2, Py_pure]
  · set k := packet1 (M := M) w mode ax m (some x.shape) with hk
    have hmx : k.maxlevel = m := rfl
    have hparts : k.parts = ['a', 'd'] := rfl
    set A := x.along ax (coeffLen mode (x.shape.getD ax 0) w.dec_len) (analysis mode w.dec_lo) with hA
    set B := x.along ax (coeffLen mode (x.shape.getD ax 0) w.dec_len) (analysis mode w.dec_hi) with hB
    have hdec : k.dec x = .ok fun c : Char => if c = 'a' then A else B := by
      rw [hk, packet1_dec hw ha.2, if_pos hl]
    have t1 : k.exec (k.init (some x)) (.set ['a'] v) = fun r : List Char =>
        if r = ['a'] then some ⟨some v, none⟩ else if r = [] then some ⟨some x, some x.shape⟩ else none := by
      have e1 : ¬ (((([] : List Char).length + ['a'].length : ℕ) : ℤ) > k.maxlevel) := by
        rw [hmx]; simp; omega
      have e2 : ¬ ((['a'].length : ℕ) : ℤ) > k.maxlevel := by rw [hmx]; simp; omega
      have e3 : k.getSubnode (k.init (some x)) [] 'a' false = (.ok none, k.init (some x)) := by
        rw [PKind.getSubnode_false _ _ _ (by simp [hparts])]
        simp [PKind.init]
      simp only [PKind.exec, PKind.setItem]
      rw [if_neg e1, e3]
      simp only [List.nil_append]
      rw [if_neg e2]
      simp only [PKind.create, List.nil_append, PKind.init, if_true, PKind.node]
      funext r
      by_cases h1 : r = ['a']
      · simp [h1]
      · simp only [if_neg h1]
        by_cases h2 : r = []
        · subst h2; simp; rfl
        · simp [h2]
    simp only
    rw [t1]
    have e4 : ¬ ((['a'].length : ℕ) : ℤ) > k.maxlevel := by rw [hmx]; simp; omega
    have e5 : ¬ ((['d'].length : ℕ) : ℤ) > k.maxlevel := by rw [hmx]; simp; omega
    have e6 : ¬ (0 : ℤ) > k.maxlevel := by rw [hmx]; omega
    have e7 : (0 : ℤ) < k.maxlevel := by rw [hmx]; omega
    constructor
    · simp only [PKind.fetch, PKind.getItem, if_neg e4, PKind.getSubnode, hparts, List.nil_append]
      simp [e6]
    · have t2 : k.exec (fun r : List Char => if r = ['a'] then some ⟨some v, none⟩ else
          if r = [] then some ⟨some x, some x.shape⟩ else none) (.get ['d']) =
          k.createAll (fun r : List Char => if r = ['a'] then some ⟨some v, none⟩ else
            if r = [] then some ⟨some x, some x.shape⟩ else none) []
            (fun q => some (if q = 'a' then A else B)) ['a', 'd'] := by
        simp only [PKind.exec, PKind.getItem, if_neg e5, PKind.getSubnode, hparts, List.nil_append,
          PKind.decompose, List.length_nil, Nat.cast_zero, if_pos e7]
        simp [hdec, e6, PKind.createAll, PKind.create]
      rw [t2]
      have e8 := PKind.createAll_child (k := k) (fun r : List Char => if r = ['a'] then
          some (⟨some v, none⟩ : PNode (Arr M)) else
          if r = [] then some ⟨some x, some x.shape⟩ else none) []
        (fun q => some (if q = 'a' then A else B)) (qs := ['a', 'd']) (q := 'a') (by simp)
      simp only [List.nil_append] at e8
      simp only [PKind.fetch, PKind.getItem, if_neg e4, PKind.getSubnode, hparts, List.nil_append, e8]
      simp [e6, e8, PKind.node]

/-! ### C31: reconstruction -/

/-- **C31 (1-D).** For a perfect-reconstruction wavelet, after any sequence of operations that assign and
delete nothing (reconstructions included), `wp.reconstruct(update)` returns the original data, whatever
part of the tree has been expanded; it leaves the tree as it is. -/
theorem C31_reconstruct {w : Wavelet R} (hw : w.Ok) (hpr : PR w.dec_lo w.dec_hi w.rec_lo w.rec_hi)
    {mode : Mode} {maxlevel : Option ℤ} {axis : ℤ} {x : Arr M} {k : PKind Char (Arr M)}
    {t : PTree Char (Arr M)} (h : WaveletPacket w mode maxlevel axis x = .ok (k, t))
    (ops : List (POp Char (Arr M))) (ho : ∀ op ∈ ops, op.NoEdit) (update : Bool) :
    k.reconstructRoot (ops.foldl k.exec t) update = (.ok (some x), ops.foldl k.exec t) := by
  obtain ⟨ax, m, ha, rfl, rfl⟩ := WaveletPacket_eq h
  have hi := packet1_inverts hw hpr mode ax m (some x.shape) x
  have hs : ∀ s, (packet1 (M := M) w mode ax m (some x.shape)).size = some s →
      s = (packet1 (M := M) w mode ax m (some x.shape)).shapeOf x := by
    intro s hs; simp [packet1] at hs ⊢; exact hs.symm
  exact ((PKind.inv_init x).execs ops fun op h => .inr ⟨ho op h, hi, hs⟩).reconstructRoot hi hs update

/-- **C31 (1-D), inner nodes.** `wp[path].reconstruct()` returns the data of that node. -/
theorem C31_reconstruct_node {w : Wavelet R} (hw : w.Ok) (hpr : PR w.dec_lo w.dec_hi w.rec_lo w.rec_hi)
    {mode : Mode} {maxlevel : Option ℤ} {axis : ℤ} {x : Arr M} {k : PKind Char (Arr M)}
    {t : PTree Char (Arr M)} (h : WaveletPacket w mode maxlevel axis x = .ok (k, t))
    (ops : List (POp Char (Arr M))) (ho : ∀ op ∈ ops, op.NoEdit) (update : Bool)
    {path : List Char} (hp : ((ops.foldl k.exec t) path).isSome) :
    ∃ d, iterDwt w mode axis x path = .ok d ∧
      k.reconstructNode (ops.foldl k.exec t) path update = (.ok (some d), ops.foldl k.exec t) := by
  obtain ⟨ax, m, ha, rfl, rfl⟩ := WaveletPacket_eq h
  have hi := packet1_inverts hw hpr mode ax m (some x.shape) x
  have hs : ∀ s, (packet1 (M := M) w mode ax m (some x.shape)).size = some s →
      s = (packet1 (M := M) w mode ax m (some x.shape)).shapeOf x := by
    intro s hs; simp [packet1] at hs ⊢; exact hs.symm
  have hI := (PKind.inv_init (k := packet1 w mode ax m (some x.shape)) x).execs ops
    fun op h => .inr ⟨ho op h, hi, hs⟩
  obtain ⟨d, hd, -⟩ := hI.dataAt hp
  refine ⟨d, ?_, hI.reconstructNode hi hp hd update⟩
  rw [iterDwt_axis hw mode path x ha, ← packet1_along_iter w mode ax m (some x.shape)]
  exact hd

/-- **C31 (2-D).** -/
theorem C31_reconstruct_2d {w : Wavelet R} (hw : w.Ok) (hpr : PR w.dec_lo w.dec_hi w.rec_lo w.rec_hi)
    {mode : Mode} {maxlevel : Option ℤ} {axes : List ℤ} {a b : ℕ} {x : Arr M} {k : PKind Char (Arr M)}
    {t : PTree Char (Arr M)} (ha : AxesAre x.ndim (some axes) [a, b])
    (h : WaveletPacket2D w mode maxlevel axes x = .ok (k, t))
    (ops : List (POp Char (Arr M))) (ho : ∀ op ∈ ops, op.NoEdit) (update : Bool) :
    k.reconstructRoot (ops.foldl k.exec t) update = (.ok (some x), ops.foldl k.exec t) := by
  obtain ⟨m, rfl, rfl⟩ := WaveletPacket2D_eq h
  have hi := packet2_inverts (m := m) (sz := some x.shape) (mode := mode) hw hpr ha
  have hs : ∀ s, (packet2 (M := M) w mode axes m (some x.shape)).size = some s →
      s = (packet2 (M := M) w mode axes m (some x.shape)).shapeOf x := by
    intro s hs; simp [packet2] at hs ⊢; exact hs.symm
  exact ((PKind.inv_init x).execs ops fun op h => .inr ⟨ho op h, hi, hs⟩).reconstructRoot hi hs update

/-- **C31 (n-D), even sizes only.** `WaveletPacketND` returns the original data if the sizes along the
transformed axes are even at every level that may be decomposed.  Missing: odd sizes, for which the
claim is false (`C31_reconstruct_nd_fails`). -/
theorem C31_reconstruct_nd_partial {w : Wavelet R} (hw : w.Ok)
    (hpr : PR w.dec_lo w.dec_hi w.rec_lo w.rec_hi)
    {mode : Mode} {maxlevel : Option ℤ} {axes : List ℤ} {ax : List ℕ} {x : Arr M} {k : PKind Key (Arr M)}
    {t : PTree Key (Arr M)} (ha : AxesAre x.ndim (some axes) ax) (hd : 1 ≤ x.ndim)
    (h : WaveletPacketND w mode maxlevel (some axes) x = .ok (k, t))
    (he : ∀ a ∈ ax, ∀ j : ℕ, (j : ℤ) < k.maxlevel →
      approxLen mode w.dec_len (x.shape.getD a 0) j % 2 = 0)
    (ops : List (POp Key (Arr M))) (ho : ∀ op ∈ ops, op.NoEdit) (update : Bool) :
    k.reconstructRoot (ops.foldl k.exec t) update = (.ok (some x), ops.foldl k.exec t) := by
  obtain ⟨m, rfl, rfl⟩ := WaveletPacketND_eq h
  have hi := packetN_inverts (m := m) (sz := some x.shape) (mode := mode) hw hpr ha hd he
  have hs : ∀ s, (packetN (M := M) w mode axes m (some x.shape)).size = some s →
      s = (packetN (M := M) w mode axes m (some x.shape)).shapeOf x := by
    intro s hs; simp [packetN] at hs ⊢; exact hs.symm
  exact ((PKind.inv_init x).execs ops fun op h => .inr ⟨ho op h, hi, hs⟩).reconstructRoot hi hs update

/-- **C31 fails for `WaveletPacketND` with an odd size:** after decomposing the root, `reconstruct`
raises `IndexError`, for every perfect-reconstruction wavelet and every array with an odd size along a
transformed axis.  (`NodeND` does not cut the result of `idwtn`, and the root tries to do so with a list
of slices.) -/
theorem C31_reconstruct_nd_fails {w : Wavelet R} (hw : w.Ok)
    (hpr : PR w.dec_lo w.dec_hi w.rec_lo w.rec_hi)
    {mode : Mode} {m : ℤ} (hm : 1 ≤ m) {axes : List ℤ} {ax : List ℕ} {x : Arr M} {k : PKind Key (Arr M)}
    {t : PTree Key (Arr M)} (ha : AxesAre x.ndim (some axes) ax) (hd : 1 ≤ x.ndim)
    (hl : ∀ a ∈ ax, LenOk mode (x.shape.getD a 0)) {a : ℕ} (hax : a ∈ ax)
    (hodd : x.shape.getD a 0 % 2 = 1)
    (h : WaveletPacketND w mode (some m) (some axes) x = .ok (k, t)) (update : Bool) :
    (k.reconstructRoot (k.exec t (.decompose [])) update).1 = .error .index := by
  have hm' : k.maxlevel = m := by
    unfold WaveletPacketND at h
    simp only [Option.getD_some] at h
    by_cases h1 : numUnique axes ≠ axes.length
    · rw [if_pos h1] at h; cases h
    rw [if_neg h1] at h
    by_cases h2 : x.ndim = 0
    · simp only [if_pos h2] at h; cases h
    simp only [if_neg h2] at h
    by_cases h5 : x.ndim < axes.length
    · simp only [if_pos h5] at h; cases h
    simp only [if_neg h5] at h
    cases h3 : transformSize x.shape axes with
    | error e => rw [h3] at h; cases h
    | ok sizes =>
      rw [h3] at h
      simp only [Py_bind_ok, packetLevel, Py_pure] at h
      injection h with h
      injection h with h1 h2
      rw [← h1]; rfl
  obtain ⟨m', hk, ht⟩ := WaveletPacketND_eq h
  simp only [Option.getD_some] at hk
  have hmm : m' = m := by rw [hk] at hm'; exact hm'
  subst hmm
  obtain ⟨c, hdec⟩ : ∃ c, k.dec x = .ok c := by
    rw [hk, packetN_dec hw ha hd, if_pos hl]
    exact ⟨_, rfl⟩
  obtain ⟨y, y1, y2, y3, y4⟩ := packetN_recon (m := m') (sz := some x.shape) hw hpr ha hd (c := c)
    (by rw [← hk]; exact hdec)
  have hI : k.Inv x t := by rw [ht]; exact PKind.inv_init x
  have h0 : t [] = some ⟨some x, some x.shape⟩ := by
    rw [ht, hk]; rfl
  have hmax : ((([] : List Key).length : ℕ) : ℤ) < k.maxlevel := by rw [hm']; simp; omega
  have et : k.exec t (.decompose []) = k.createAll t [] (fun q => some (c q)) k.parts := by
    have e1 : k.getItem t [] [] = (.ok [], t) := by
      unfold PKind.getItem
      rw [if_neg (by rw [hm']; omega)]
    simp only [PKind.exec, e1, PKind.decompose, if_pos hmax, h0, hdec]
  have hparts : k.parts = words axes.length := by rw [hk]; rfl
  rw [et]
  set t' := k.createAll t [] (fun q => some (c q)) k.parts with ht'
  have hch : ∀ q ∈ k.parts, t' [q] = some (k.node (some (c q))) := fun q hq =>
    PKind.createAll_child t [] _ hq
  have hroot : t' [] = some ⟨some x, some x.shape⟩ := by
    rw [ht', PKind.createAll_other t [] _ (by intro q rest; simp), h0]
  have hgc : ∀ q ∈ k.parts, k.hasAny t' [q] = false := by
    intro q hq
    unfold PKind.hasAny
    rw [List.any_eq_false]
    intro r hr
    rw [ht']
    have := PKind.createAll_below (k := k) t [] (fun q => some (c q)) (qs := k.parts) hq
      (rest := [r]) (by simp)
    simp only [List.nil_append, List.singleton_append] at this ⊢
    rw [this]
    simp
  have hany : k.hasAny t' [] = true := by
    unfold PKind.hasAny
    rw [List.any_eq_true]
    obtain ⟨k0, l, hw0⟩ := words_ne_nil axes.length
    refine ⟨k0, by rw [hparts, hw0]; simp, ?_⟩
    rw [List.nil_append, hch k0 (by rw [hparts, hw0]; simp)]
    rfl
  have hfuel : ∃ n, k.fuel = n + 2 := ⟨k.maxlevel.toNat - 1, by unfold PKind.fuel; rw [hm']; omega⟩
  obtain ⟨n, hn⟩ := hfuel
  have hrec : k.reconstruct t' k.fuel [] = .ok (some y) := by
    rw [hn]
    unfold PKind.reconstruct
    simp only [hroot, hany, Bool.not_true]
    obtain ⟨g, hg, hgr⟩ : ∃ g, PKind.gather (fun q => if (t' ([] ++ [q])).isSome then
        PKind.reconstruct k t' (n + 1) ([] ++ [q]) else .ok none) k.parts = .ok g ∧ k.recon g = .ok y := by
      refine ⟨_, PKind.gather_ok (g := fun q => some (c q)) k.parts (by
        intro q hq
        rw [List.nil_append, hch q hq]
        simp only [Option.isSome_some, if_true]
        unfold PKind.reconstruct
        simp only [hch q hq, hgc q hq]
        rfl), ?_⟩
      rw [hk]; convert y1
    have hcut : ∀ s r, k.cut s r = .ok r := by rw [hk]; intro s r; rfl
    rw [hg]
    simp only [Py_bind_ok, hgr, hcut, Py_pure]
    simp
  unfold PKind.reconstructRoot
  rw [if_pos hany]
  unfold PKind.reconstructNode
  rw [hrec]
  simp only
  have hsz : k.size = some x.shape := by rw [hk]; rfl
  have hsh : k.shapeOf y ≠ x.shape := by
    have : k.shapeOf y = y.shape := by rw [hk]; rfl
    rw [this]
    intro hcon
    have := y3 a hax
    rw [hcon] at this
    omega
  rw [hsz]
  simp only [if_pos hsh]

/-! ### C32: `get_level` -/

/-- What "natural order" means: every word of the given length exactly once, in lexicographic order. -/
theorem C32_natural_order (n : ℕ) :
    (wordsOf ['a', 'd'] n).length = 2 ^ n ∧ (wordsOf ['a', 'd'] n).Nodup ∧
      (∀ w, w ∈ wordsOf ['a', 'd'] n ↔ w.length = n ∧ ∀ c ∈ w, c = 'a' ∨ c = 'd') ∧
      (wordsOf ['a', 'd'] n).Pairwise (List.Lex (· < ·)) := by
  refine ⟨wordsOf_length _ n, wordsOf_nodup (by decide) n, fun w => ?_, wordsOf_sorted (by decide) n⟩
  rw [mem_wordsOf]
  simp

/-- **C32 (1-D, natural order).** After any sequence of operations that assign and delete nothing,
`get_level(n)` returns the `2^n` nodes of level `n` in natural order, each holding the repeated `dwt` of
the data. -/
theorem C32_natural {w : Wavelet R} (hw : w.Ok) {mode : Mode} {maxlevel : Option ℤ} {axis : ℤ} {ax : ℕ}
    {x : Arr M} {k : PKind Char (Arr M)} {t : PTree Char (Arr M)} (ha : AxisIs x.ndim axis ax)
    (h : WaveletPacket w mode maxlevel axis x = .ok (k, t)) (ops : List (POp Char (Arr M)))
    (ho : ∀ op ∈ ops, op.ReadOnly) {n : ℕ} (hn : (n : ℤ) ≤ k.maxlevel)
    (hl : LevelsOk mode w.dec_len (x.shape.getD ax 0) n) :
    (k.getLevel (ops.foldl k.exec t) n true).1 = .ok (wordsOf ['a', 'd'] n) ∧
    ∀ path ∈ wordsOf ['a', 'd'] n, ∃ d nd, iterDwt w mode axis x path = .ok d ∧
      (k.getLevel (ops.foldl k.exec t) n true).2 path = some nd ∧ nd.data = some d := by
  obtain ⟨ax', m, ha', rfl, rfl⟩ := WaveletPacket_eq h
  have e : ax' = ax := by have := ha.1; have := ha'.1; omega
  subst e
  have hI := (PKind.inv_init (k := packet1 w mode ax' m (some x.shape)) x).execs ops
    fun op h => .inl (ho op h)
  obtain ⟨h1, h2⟩ := hI.getLevel hn (fun s hs _ => by
    obtain ⟨d, hd, -⟩ := packet1_along_ok (m := m) (sz := some x.shape) hw s ha.2
      (mode := mode) fun j hj => hl j (by omega)
    exact ⟨d, hd⟩)
  refine ⟨h1, fun path hp => ?_⟩
  obtain ⟨d, d1, d2⟩ := h2 path hp
  refine ⟨d, _, ?_, d2, rfl⟩
  rw [iterDwt_axis hw mode path x ha, ← packet1_along_iter w mode ax' m (some x.shape)]
  exact d1

/-- **C32 (1-D, frequency order).** For `n ≥ 1`, `get_level(n, order='freq')` returns the same nodes in
Gray-code order. -/
theorem C32_freq {w : Wavelet R} (hw : w.Ok) {mode : Mode} {maxlevel : Option ℤ} {axis : ℤ} {ax : ℕ}
    {x : Arr M} {k : PKind Char (Arr M)} {t : PTree Char (Arr M)} (ha : AxisIs x.ndim axis ax)
    (h : WaveletPacket w mode maxlevel axis x = .ok (k, t)) (ops : List (POp Char (Arr M)))
    (ho : ∀ op ∈ ops, op.ReadOnly) {n : ℕ} (hn0 : 1 ≤ n) (hn : (n : ℤ) ≤ k.maxlevel)
    (hl : LevelsOk mode w.dec_len (x.shape.getD ax 0) n) :
    (k.getLevelFreq 'a' 'd' (ops.foldl k.exec t) n true).1 = .ok (getGraycodeOrder n 'a' 'd') ∧
    (k.getLevelFreq 'a' 'd' (ops.foldl k.exec t) n true).2 =
      (k.getLevel (ops.foldl k.exec t) n true).2 := by
  obtain ⟨h1, -⟩ := C32_natural hw ha h ops ho hn hl
  unfold PKind.getLevelFreq
  rcases hg : k.getLevel (ops.foldl k.exec t) n true with ⟨r, t'⟩
  rw [hg] at h1
  simp only at h1
  subst h1
  refine ⟨?_, rfl⟩
  simp only
  congr 1
  rw [List.filter_eq_self]
  intro p hp
  rw [decide_eq_true_eq]
  exact ((C32_natural_order n).2.2.1 p).2 (((C29_all_words (by decide) hn0).2.2 p).1 hp)

/-- **C32 fails at level 0 in frequency order:** the list is empty, although the root is on level 0. -/
theorem C32_freq_level_zero {D : Type} (k : PKind Char D) (t : PTree Char D) (hk : 0 ≤ k.maxlevel)
    (dec : Bool) :
    (k.getLevel t 0 dec).1 = .ok [[]] ∧ (k.getLevelFreq 'a' 'd' t 0 dec).1 = .ok [] := by
  have h : k.getLevel t 0 dec = (.ok [[]], t) := by
    unfold PKind.getLevel
    rw [if_neg (by omega)]
    unfold PKind.fuel PKind.walk
    simp
  refine ⟨by rw [h], ?_⟩
  unfold PKind.getLevelFreq
  rw [h]
  rfl

/-- With `decompose=False` only the nodes that exist are returned, in the same order, and nothing is
computed. -/
theorem C32_existing {w : Wavelet R} {mode : Mode} {maxlevel : Option ℤ} {axis : ℤ}
    {x : Arr M} {k : PKind Char (Arr M)} {t : PTree Char (Arr M)}
    (h : WaveletPacket w mode maxlevel axis x = .ok (k, t)) (ops : List (POp Char (Arr M)))
    (ho : ∀ op ∈ ops, op.ReadOnly) {n : ℕ} (hn : (n : ℤ) ≤ k.maxlevel) :
    k.getLevel (ops.foldl k.exec t) n false =
      (.ok ((wordsOf ['a', 'd'] n).filter fun p => ((ops.foldl k.exec t) p).isSome),
        ops.foldl k.exec t) := by
  obtain ⟨ax, m, ha, rfl, rfl⟩ := WaveletPacket_eq h
  exact ((PKind.inv_init x).execs ops fun op h => .inl (ho op h)).getLevel_existing hn

/-- A level beyond `maxlevel` is a `ValueError`, in any tree. -/
theorem C32_too_deep {P D : Type} [DecidableEq P] (k : PKind P D) (t : PTree P D) {level : ℤ}
    (h : k.maxlevel < level) (dec : Bool) : k.getLevel t level dec = (.error .value, t) := by
  unfold PKind.getLevel
  rw [if_pos h]

/-- **C32 (2-D).** `WaveletPacket2D.get_level(n)` returns the `4^n` nodes in natural order; in frequency
order (`n ≥ 1`) it returns a table whose rows and columns follow the Gray code of the row filters and of
the column filters. -/
theorem C32_2d {w : Wavelet R} (hw : w.Ok) {mode : Mode} {maxlevel : Option ℤ} {axes : List ℤ} {a b : ℕ}
    {x : Arr M} {k : PKind Char (Arr M)} {t : PTree Char (Arr M)} (ha : AxesAre x.ndim (some axes) [a, b])
    (h : WaveletPacket2D w mode maxlevel axes x = .ok (k, t)) (ops : List (POp Char (Arr M)))
    (ho : ∀ op ∈ ops, op.ReadOnly) {n : ℕ} (hn : (n : ℤ) ≤ k.maxlevel)
    (hla : LevelsOk mode w.dec_len (x.shape.getD a 0) n)
    (hlb : LevelsOk mode w.dec_len (x.shape.getD b 0) n) :
    (k.getLevel (ops.foldl k.exec t) n true).1 = .ok (wordsOf ['a', 'h', 'v', 'd'] n) ∧
    (∀ path ∈ wordsOf ['a', 'h', 'v', 'd'] n, ∃ d nd, iterDwt2 w mode axes x path = .ok d ∧
      (k.getLevel (ops.foldl k.exec t) n true).2 path = some nd ∧ nd.data = some d) ∧
    (1 ≤ n → (getLevelFreq2 k (ops.foldl k.exec t) n true).1 =
      .ok ((getGraycodeOrder n 'l' 'h').map fun row => (getGraycodeOrder n 'l' 'h').map fun col =>
        List.zipWith joinLetter row col)) := by
  obtain ⟨m, rfl, rfl⟩ := WaveletPacket2D_eq h
  have hI := (PKind.inv_init (k := packet2 w mode axes m (some x.shape)) x).execs ops
    fun op h => .inl (ho op h)
  obtain ⟨h1, h2⟩ := hI.getLevel hn (fun s hs _ =>
    packet2_along_ok (m := m) (sz := some x.shape) hw s ha
      (mode := mode) (fun j hj => hla j (by omega)) fun j hj => hlb j (by omega))
  refine ⟨h1, fun path hp => ?_, fun hn1 => ?_⟩
  · obtain ⟨d, d1, d2⟩ := h2 path hp
    refine ⟨d, _, ?_, d2, rfl⟩
    rw [← packet2_along_iter w mode axes m (some x.shape)]
    exact d1
  · unfold getLevelFreq2
    rcases hg : (packet2 (M := M) w mode axes m (some x.shape)).getLevel
      (ops.foldl (packet2 w mode axes m (some x.shape)).exec
        ((packet2 w mode axes m (some x.shape)).init (some x))) n true with ⟨r, t'⟩
    rw [hg] at h1
    simp only at h1
    subst h1
    simp only
    congr 1
    exact freqGrid_words hn1

/-- **C32 (n-D).** `WaveletPacketND.get_level(n)` returns all nodes of level `n`. -/
theorem C32_nd {w : Wavelet R} (hw : w.Ok) {mode : Mode} {maxlevel : Option ℤ} {axes : List ℤ}
    {ax : List ℕ} {x : Arr M} {k : PKind Key (Arr M)} {t : PTree Key (Arr M)}
    (ha : AxesAre x.ndim (some axes) ax) (hd : 1 ≤ x.ndim)
    (h : WaveletPacketND w mode maxlevel (some axes) x = .ok (k, t)) (ops : List (POp Key (Arr M)))
    (ho : ∀ op ∈ ops, op.ReadOnly) {n : ℕ} (hn : (n : ℤ) ≤ k.maxlevel)
    (hl : ∀ a ∈ ax, LevelsOk mode w.dec_len (x.shape.getD a 0) n) :
    (k.getLevel (ops.foldl k.exec t) n true).1 = .ok (wordsOf (words axes.length) n) ∧
    (∀ path ∈ wordsOf (words axes.length) n, ∃ d nd, iterDwtn w mode axes x path = .ok d ∧
      (k.getLevel (ops.foldl k.exec t) n true).2 path = some nd ∧ nd.data = some d) := by
  obtain ⟨m, rfl, rfl⟩ := WaveletPacketND_eq h
  have hI := (PKind.inv_init (k := packetN w mode axes m (some x.shape)) x).execs ops
    fun op h => .inl (ho op h)
  obtain ⟨h1, h2⟩ := hI.getLevel hn (fun s hs hq =>
    packetN_along_ok (m := m) (sz := some x.shape) hw s ha hd
      (mode := mode) (by intro q h'; rw [← axesAre_length ha]; exact hq q h')
      fun a ha' j hj => hl a ha' j (by omega))
  refine ⟨h1, fun path hp => ?_⟩
  obtain ⟨d, d1, d2⟩ := h2 path hp
  refine ⟨d, _, ?_, d2, rfl⟩
  rw [← packetN_along_iter w mode axes m (some x.shape)]
  exact d1

/-! ### The hypotheses can be met -/

/-- A 1-D packet of seven samples with two levels. -/
example : ∃ k t, WaveletPacket (M := ℚ) legallQ .symmetric (some 2) (-1)
      (Arr.of1 [1, -2, 3, 5, 0, 7, 4]) = .ok (k, t) ∧ k.maxlevel = 2 ∧
    AxisIs (Arr.of1 ([1, -2, 3, 5, 0, 7, 4] : List ℚ)).ndim (-1) 0 ∧
    LevelsOk .symmetric legallQ.dec_len 7 2 := by
  exact ⟨_, _, rfl, rfl, ⟨by decide, by decide⟩, by decide⟩

/-- Without `maxlevel`: sixteen samples, six taps, one level. -/
example : ∃ k t, WaveletPacket (M := ℚ) legallQ .reflect none 0
      (Arr.of1 (List.replicate 16 1)) = .ok (k, t) ∧ k.maxlevel = 1 := by
  exact ⟨_, _, rfl, by decide +kernel⟩

/-- A 3 by 4 array for the 2-D and n-D packets. -/
def ex34 : Arr ℚ := ⟨[3, 4], [1, 2, 3, 4, 5, 6, 7, 8, 9, 10, 11, 12], rfl⟩

example : ∃ k t, WaveletPacket2D haarQ .smooth (some 2) [-2, -1] ex34 = .ok (k, t) ∧ k.maxlevel = 2 ∧
    AxesAre ex34.ndim (some [-2, -1]) [0, 1] ∧ LevelsOk .smooth haarQ.dec_len 3 2 ∧
    LevelsOk .smooth haarQ.dec_len 4 2 := by
  exact ⟨_, _, rfl, rfl, ⟨by decide, by decide, by decide⟩, by decide, by decide⟩

/-- The array has an odd size along axis 0 and sizes 4, 2 along axis 1. -/
example : (∃ k t, WaveletPacketND haarQ .smooth (some 2) (some [0]) ex34 = .ok (k, t)) ∧
    AxesAre ex34.ndim (some [0]) [0] ∧ ex34.shape.getD 0 0 % 2 = 1 ∧
    (∃ k t, WaveletPacketND haarQ .smooth (some 2) (some [-1]) ex34 = .ok (k, t)) ∧
    AxesAre ex34.ndim (some [-1]) [1] ∧
    (∀ a ∈ [1], ∀ j : ℕ, (j : ℤ) < 2 → approxLen .smooth haarQ.dec_len (ex34.shape.getD a 0) j % 2 = 0) := by
  refine ⟨⟨_, _, rfl⟩, ⟨by decide, by decide, by decide⟩, by decide, ⟨_, _, rfl⟩,
    ⟨by decide, by decide, by decide⟩, ?_⟩
  intro a ha j hj
  simp only [List.mem_singleton] at ha
  subst ha
  have : j = 0 ∨ j = 1 := by omega
  rcases this with rfl | rfl <;> decide

example : (POp.get ['a', 'd'] : POp Char (Arr ℚ)).ReadOnly ∧ (POp.decompose [] : POp Char (Arr ℚ)).ReadOnly ∧
    (POp.reconstruct [] true : POp Char (Arr ℚ)).NoEdit := ⟨trivial, trivial, trivial⟩

end Pywt
