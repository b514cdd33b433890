import Verif.Spec.PacketMove
import Verif.Proof.PacketEnergy
import Verif.Proof.RollN
import Verif.Proof.Transpose

/-!
# Proofs for C92
-/

namespace Pywt

open Finset Spec

set_option autoImplicit false
set_option linter.unusedSectionVars false

/-- Two ways to decompose that agree up to a change of the data and of the names. -/
theorem PKind.along_move {P D : Type} {k k' : PKind P D} {F : ℕ → D → D} {σ : P → P} {Good : ℕ → D → Prop}
    (h : ∀ n d, Good (n + 1) d → (∃ e, k.dec d = .error e ∧ k'.dec (F (n + 1) d) = .error e) ∨
      ∃ c c', k.dec d = .ok c ∧ k'.dec (F (n + 1) d) = .ok c' ∧ ∀ q ∈ k.parts, Good n (c q) ∧ c' (σ q) = F n (c q)) :
    ∀ {p : List P} {d : D}, (∀ q ∈ p, q ∈ k.parts) → Good p.length d →
      k'.along (F p.length d) (p.map σ) = (k.along d p).map (F 0)
  | [], d, _, _ => rfl
  | q :: p, d, hq, hg => by
      rw [List.map_cons, PKind.along, PKind.along, List.length_cons]
      rcases h _ _ hg with ⟨e, h1, h2⟩ | ⟨c, c', h1, h2, h3⟩
      · rw [h1, h2]
        rfl
      · obtain ⟨h4, h5⟩ := h3 q (hq q (by simp))
        rw [h1, h2]
        simp only [h5]
        exact PKind.along_move h (fun r hr => hq r (by simp [hr])) h4

variable {R M : Type} [CommRing R] [AddCommGroup M] [Module R M]

/-- The data that can be halved `n` times along one axis. -/
def RollGood (N ax n : ℕ) (d : Arr M) : Prop :=
  d.ndim = N ∧ 1 ≤ d.shape.getD ax 0 ∧ 2 ^ n ∣ d.shape.getD ax 0

theorem pow_roll (n : ℕ) (c : ℤ) : (2 : ℤ) ^ (n + 1) * c = 2 * (2 ^ n * c) := by rw [pow_succ]; ring

theorem packet1_roll {w : Wavelet R} (hw : w.Ok) {ax N : ℕ} (ha : ax < N) {m : ℤ} {sz : Option (List ℕ)} (c : ℤ)
    {p : List Char} {x : Arr M} (hp : ∀ q ∈ p, q = 'a' ∨ q = 'd') (hg : RollGood N ax p.length x) :
    (packet1 w .periodization ax m sz).along (Spec.Arr.roll ax (2 ^ p.length * c) x) p =
      ((packet1 w .periodization ax m sz).along x p).map (Spec.Arr.roll ax c) := by
  have := PKind.along_move (k := packet1 w .periodization ax m sz) (k' := packet1 w .periodization ax m sz)
    (F := fun n => Spec.Arr.roll (M := M) ax (2 ^ n * c)) (σ := id) (Good := RollGood N ax) (by
      rintro n d ⟨g1, g2, g3⟩
      have hd : ax < d.shape.length := by rw [← g1] at ha; exact ha
      obtain ⟨e1, e2, e3, e4⟩ := half_of_dvd g2 g3 w.dec_len
      right
      have key : ∀ ch, (Spec.Arr.roll ax (2 ^ (n + 1) * c) d).analyze (ax, w, .periodization) ch =
          Spec.Arr.roll ax (2 ^ n * c) (d.analyze (ax, w, .periodization) ch) := by
        intro ch
        rw [pow_roll]
        exact analyze_roll_self (s := (ax, w, .periodization)) hw rfl hd g2 e1 ch _
      have hsh : ∀ ch, RollGood N ax n (d.analyze (ax, w, .periodization) ch) := by
        intro ch
        refine ⟨?_, ?_⟩
        · unfold Arr.ndim
          rw [Arr.shape_analyze, List.length_set]
          exact g1
        · rw [Arr.shape_analyze, getD_set hd, if_pos rfl]
          exact ⟨e3, e4⟩
      rw [packet1_dec hw (show ax < d.ndim from hd), if_pos e2, packet1_dec hw (by unfold Arr.ndim; rw [shape_roll]; exact hd),
        shape_roll, if_pos e2]
      refine ⟨_, _, rfl, rfl, fun q hq => ?_⟩
      have ka := key 'a'
      have kd := key 'd'
      have ha' := hsh 'a'
      have hd' := hsh 'd'
      simp only [Arr.analyze, Wavelet.decFilter, shape_roll, if_true, if_neg (show ¬ 'd' = 'a' by decide)] at ka kd ha' hd'
      simp only [id]
      split_ifs
      · exact ⟨ha', ka⟩
      · exact ⟨hd', kd⟩) (p := p) (d := x) (by intro q hq; simpa [packet1] using hp q hq) hg
  simpa using this

theorem words_key {ax : List ℕ} {axes : List ℤ} {N : ℕ} (ha : AxesAre N (some axes) ax) {key : Key}
    (h : key ∈ words axes.length) : key ∈ words ax.length := by rwa [← axesAre_length ha]

theorem sameStages_ok {w : Wavelet R} (hw : w.Ok) {mode : Mode} {ax : List ℕ} {n : ℕ} (h : ∀ a ∈ ax, a < n) :
    ∀ s ∈ sameStages w mode ax, s.1 < n ∧ s.2.1.Ok := by
  intro s hs
  obtain ⟨a, h', rfl⟩ := List.mem_map.1 hs
  exact ⟨h a h', hw⟩

theorem sameStages_axes (w : Wavelet R) (mode : Mode) (ax : List ℕ) : (sameStages w mode ax).map (·.1) = ax := by
  simp [sameStages, Function.comp_def]

theorem subband_rollGood {w : Wavelet R} (hw : w.Ok) {N : ℕ} {axes : List ℤ} {ax : List ℕ} (ha : AxesAre N (some axes) ax)
    {a : ℕ} (hm : a ∈ ax) (c : ℤ) {n : ℕ} {d : Arr M} (hg : RollGood N a (n + 1) d) {key : Key} (hk : key ∈ words ax.length) :
    RollGood N a n (d.subband (sameStages w .periodization ax) key) ∧
    (Spec.Arr.roll a (2 ^ (n + 1) * c) d).subband (sameStages w .periodization ax) key =
      Spec.Arr.roll a (2 ^ n * c) (d.subband (sameStages w .periodization ax) key) := by
  obtain ⟨rfl, g2, g3⟩ := hg
  obtain ⟨e1, e2, e3, e4⟩ := half_of_dvd g2 g3 w.dec_len
  obtain ⟨s1, s2⟩ := subband_same_shape (w := w) (mode := .periodization) ha hk
  refine ⟨⟨s1, ?_⟩, ?_⟩
  · rw [s2 a hm]
    exact ⟨e3, e4⟩
  · rw [pow_roll]
    refine subband_roll_in _ (by rw [sameStages_axes]; exact ha.2.1) ?_ (by rw [sameStages_axes]; exact hm) ?_
      (sameStages_ok hw ha.2.2) g2 e1
    · rw [(mem_words.mp hk).1]
      simp [sameStages]
    · intro s hs _
      obtain ⟨b, -, rfl⟩ := List.mem_map.1 hs
      rfl

theorem packetN_roll {w : Wavelet R} (hw : w.Ok) {N : ℕ} (hN : 1 ≤ N) {axes : List ℤ} {ax : List ℕ}
    (ha : AxesAre N (some axes) ax) {a : ℕ} (hm : a ∈ ax) {m : ℤ} {sz : Option (List ℕ)} (c : ℤ)
    {p : List Key} {x : Arr M} (hp : ∀ q ∈ p, q ∈ words axes.length) (hg : RollGood N a p.length x) :
    (packetN w .periodization axes m sz).along (Spec.Arr.roll a (2 ^ p.length * c) x) p =
      ((packetN w .periodization axes m sz).along x p).map (Spec.Arr.roll a c) := by
  have := PKind.along_move (k := packetN w .periodization axes m sz) (k' := packetN w .periodization axes m sz)
    (F := fun n => Spec.Arr.roll (M := M) a (2 ^ n * c)) (σ := id) (Good := RollGood N a) (by
      intro n d hg
      have hnd : (Spec.Arr.roll a (2 ^ (n + 1) * c) d).ndim = d.ndim := by unfold Arr.ndim; rw [shape_roll]
      have hdn := hg.1
      rw [packetN_dec hw (by rw [hdn]; exact ha) (by rw [hdn]; exact hN),
        packetN_dec hw (by rw [hnd, hdn]; exact ha) (by rw [hnd, hdn]; exact hN), shape_roll]
      split_ifs with hl
      · right
        refine ⟨_, _, rfl, rfl, fun q hq => ?_⟩
        have hq' : q ∈ words ax.length := words_key ha hq
        simp only [id, if_pos hq']
        exact subband_rollGood hw ha hm c hg hq'
      · left
        exact ⟨_, rfl, rfl⟩) (p := p) (d := x) hp hg
  simpa using this

theorem packet2_roll {w : Wavelet R} (hw : w.Ok) {N : ℕ} {axes : List ℤ} {a b : ℕ}
    (ha : AxesAre N (some axes) [a, b]) {e : ℕ} (hm : e ∈ [a, b]) {m : ℤ} {sz : Option (List ℕ)} (c : ℤ)
    {p : List Char} {x : Arr M} (hp : ∀ q ∈ p, q ∈ ['a', 'h', 'v', 'd']) (hg : RollGood N e p.length x) :
    (packet2 w .periodization axes m sz).along (Spec.Arr.roll e (2 ^ p.length * c) x) p =
      ((packet2 w .periodization axes m sz).along x p).map (Spec.Arr.roll e c) := by
  have := PKind.along_move (k := packet2 w .periodization axes m sz) (k' := packet2 w .periodization axes m sz)
    (F := fun n => Spec.Arr.roll (M := M) e (2 ^ n * c)) (σ := id) (Good := RollGood N e) (by
      intro n d hg
      have hnd : (Spec.Arr.roll e (2 ^ (n + 1) * c) d).ndim = d.ndim := by unfold Arr.ndim; rw [shape_roll]
      have hdn := hg.1
      rw [packet2_dec hw (by rw [hdn]; exact ha), packet2_dec hw (by rw [hnd, hdn]; exact ha), shape_roll]
      split_ifs with hl
      · right
        refine ⟨_, _, rfl, rfl, fun q hq => ?_⟩
        have key := fun u v (hk : [u, v] ∈ words 2) => subband_rollGood hw ha hm c hg (key := [u, v]) hk
        simp only [sameStages, List.map_cons, List.map_nil, Arr.subband] at key
        simp only [id, pick2]
        split_ifs
        · exact key 'a' 'a' (by decide)
        · exact key 'd' 'a' (by decide)
        · exact key 'a' 'd' (by decide)
        · exact key 'd' 'd' (by decide)
      · left
        exact ⟨_, rfl, rfl⟩) (p := p) (d := x) hp hg
  simpa using this

/-! ### Transposition -/

theorem packet1_transpose {w : Wavelet R} (hw : w.Ok) {mode : Mode} {ax N : ℕ} (ha : ax < N) {π : Equiv.Perm ℕ}
    (hπ : ∀ j, π j < N ↔ j < N) {m m' : ℤ} {sz sz' : Option (List ℕ)}
    {p : List Char} {x : Arr M} (hp : ∀ q ∈ p, q = 'a' ∨ q = 'd') (hg : x.ndim = N) :
    (packet1 w mode (π.symm ax) m' sz').along (Spec.Arr.transpose π x) p =
      ((packet1 w mode ax m sz).along x p).map (Spec.Arr.transpose π) := by
  have := PKind.along_move (k := packet1 w mode ax m sz) (k' := packet1 w mode (π.symm ax) m' sz')
    (F := fun _ => Spec.Arr.transpose (M := M) π) (σ := id) (Good := fun _ d => d.ndim = N) (by
      rintro n d rfl
      have hd : ax < d.shape.length := ha
      have hnd : (Spec.Arr.transpose π d).ndim = d.ndim := tShape_length π d.shape
      rw [packet1_dec hw ha, packet1_dec hw (by rw [hnd]; exact (perm_symm_lt hπ ax).mpr ha), shape_transpose,
        tShape_getD_symm hπ hd]
      split_ifs with hl
      · right
        refine ⟨_, _, rfl, rfl, fun q hq => ?_⟩
        have key := fun ch => analyze_transpose (s := (ax, w, mode)) hπ hd ch
        have ka := key 'a'
        have kd := key 'd'
        simp only [Arr.analyze, Wavelet.decFilter, tStage, shape_transpose, tShape_getD_symm hπ hd, if_true,
          if_neg (show ¬ 'd' = 'a' by decide)] at ka kd
        simp only [id]
        have hs : ∀ f, (d.along ax (coeffLen mode (d.shape.getD ax 0) w.dec_len) f).ndim = d.ndim := fun f => by
          unfold Arr.ndim
          rw [Arr.shape_along, List.length_set]
        split_ifs
        · exact ⟨hs _, ka⟩
        · exact ⟨hs _, kd⟩
      · left
        exact ⟨_, rfl, rfl⟩) (p := p) (d := x) (by intro q hq; simpa [packet1] using hp q hq) hg
  simpa using this

theorem sameStages_transpose (w : Wavelet R) (mode : Mode) (ax : List ℕ) (π : Equiv.Perm ℕ) :
    sameStages w mode (ax.map π.symm) = (sameStages w mode ax).map (tStage π) := by
  simp [sameStages, tStage, Function.comp_def]

theorem packetN_transpose {w : Wavelet R} (hw : w.Ok) {mode : Mode} {N : ℕ} (hN : 1 ≤ N) {axes axes' : List ℤ} {ax : List ℕ}
    {π : Equiv.Perm ℕ} (hπ : ∀ j, π j < N ↔ j < N) (ha : AxesAre N (some axes) ax)
    (ha' : AxesAre N (some axes') (ax.map π.symm)) {m m' : ℤ} {sz sz' : Option (List ℕ)}
    {p : List Key} {x : Arr M} (hp : ∀ q ∈ p, q ∈ words axes.length) (hg : x.ndim = N) :
    (packetN w mode axes' m' sz').along (Spec.Arr.transpose π x) p =
      ((packetN w mode axes m sz).along x p).map (Spec.Arr.transpose π) := by
  have := PKind.along_move (k := packetN w mode axes m sz) (k' := packetN w mode axes' m' sz')
    (F := fun _ => Spec.Arr.transpose (M := M) π) (σ := id) (Good := fun _ d => d.ndim = N) (by
      rintro n d rfl
      have hnd : (Spec.Arr.transpose π d).ndim = d.ndim := tShape_length π d.shape
      rw [packetN_dec hw ha hN, packetN_dec hw (by rw [hnd]; exact ha') (by rw [hnd]; exact hN), shape_transpose]
      have hiff : (∀ a ∈ ax.map π.symm, LenOk mode ((tShape π d.shape).getD a 0)) ↔ ∀ a ∈ ax, LenOk mode (d.shape.getD a 0) := by
        simp only [List.mem_map, forall_exists_index, and_imp, forall_apply_eq_imp_iff₂]
        refine forall₂_congr fun a h => ?_
        rw [tShape_getD_symm hπ (ha.2.2 a h)]
      simp only [hiff]
      split_ifs with hl
      · right
        refine ⟨_, _, rfl, rfl, fun q hq => ?_⟩
        have hq' : q ∈ words ax.length := words_key ha hq
        simp only [id, List.length_map, if_pos hq']
        refine ⟨(subband_same_shape (w := w) (mode := mode) ha hq').1, ?_⟩
        rw [sameStages_transpose]
        exact subband_transpose hπ fun s hs => (sameStages_ok hw ha.2.2 s hs).1
      · left
        exact ⟨_, rfl, rfl⟩) (p := p) (d := x) hp hg
  simpa using this

theorem packet2_transpose {w : Wavelet R} (hw : w.Ok) {mode : Mode} {axes : List ℤ} {a b N : ℕ}
    (ha : AxesAre N (some axes) [a, b]) {m m' : ℤ} {sz sz' : Option (List ℕ)}
    {p : List Char} {x : Arr M} (hp : ∀ q ∈ p, q ∈ ['a', 'h', 'v', 'd']) (hg : x.ndim = N) :
    (packet2 w mode axes m' sz').along (Spec.Arr.transpose (Equiv.swap a b) x) (p.map swapHV) =
      ((packet2 w mode axes m sz).along x p).map (Spec.Arr.transpose (Equiv.swap a b)) := by
  have hne : a ≠ b := by simpa using ha.2.1
  have hab : a < N ∧ b < N := ⟨ha.2.2 a (by simp), ha.2.2 b (by simp)⟩
  have hπ := swap_axes_lt hab.1 hab.2
  exact PKind.along_move (k := packet2 w mode axes m sz) (k' := packet2 w mode axes m' sz')
    (F := fun _ => Spec.Arr.transpose (M := M) (Equiv.swap a b)) (σ := swapHV) (Good := fun _ d => d.ndim = N) (by
      rintro n d rfl
      have hnd : (Spec.Arr.transpose (Equiv.swap a b) d).ndim = d.ndim := tShape_length _ d.shape
      have h1 : (tShape (Equiv.swap a b) d.shape).getD a 0 = d.shape.getD b 0 := by
        rw [tShape_getD hab.1, Equiv.swap_apply_left]
      have h2 : (tShape (Equiv.swap a b) d.shape).getD b 0 = d.shape.getD a 0 := by
        rw [tShape_getD hab.2, Equiv.swap_apply_right]
      rw [packet2_dec hw ha, packet2_dec hw (by rw [hnd]; exact ha), shape_transpose, h1, h2]
      by_cases hl : LenOk mode (d.shape.getD a 0) ∧ LenOk mode (d.shape.getD b 0)
      · right
        rw [if_pos hl, if_pos hl.symm]
        refine ⟨_, _, rfl, rfl, fun q hq => ?_⟩
        have key := fun u v => subband_swap (s := (a, w, mode)) (t := (b, w, mode)) hne rfl (y := d) hab.1 hab.2 u v
        simp only [Arr.subband] at key
        have hs : ∀ u v, ((d.analyze (a, w, mode) u).analyze (b, w, mode) v).ndim = d.ndim := fun u v => by
          unfold Arr.ndim
          rw [Arr.shape_analyze, List.length_set, Arr.shape_analyze, List.length_set]
        simp only [packet2, List.mem_cons, List.not_mem_nil, or_false] at hq
        rcases hq with rfl | rfl | rfl | rfl
        · exact ⟨hs 'a' 'a', key 'a' 'a'⟩
        · exact ⟨hs 'd' 'a', key 'a' 'd'⟩
        · exact ⟨hs 'a' 'd', key 'd' 'a'⟩
        · exact ⟨hs 'd' 'd', key 'd' 'd'⟩
      · left
        rw [if_neg hl, if_neg fun h => hl h.symm]
        exact ⟨_, rfl, rfl⟩) (p := p) (d := x) hp hg

end Pywt
