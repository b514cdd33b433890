import Verif.Spec.Transpose
import Verif.Proof.Transpose
import Verif.Props.MultiDim
import Verif.Props.MultilevelN

/-!
# C86: transposed arrays
-/

namespace Pywt

open Finset Spec

set_option autoImplicit false
set_option linter.unusedSectionVars false

variable {R M : Type} [CommRing R] [AddCommGroup M] [Module R M]

/-- What transposing means: axis `j` of the result is axis `π j` of the array. -/
theorem C86_transpose_values {π : Equiv.Perm ℕ} {x : Arr M} (hπ : ∀ j, π j < x.shape.length ↔ j < x.shape.length) :
    (Spec.Arr.transpose π x).shape.length = x.shape.length ∧
    (∀ j < x.shape.length, (Spec.Arr.transpose π x).shape.getD j 0 = x.shape.getD (π j) 0) ∧
    ∀ idx, InB x.shape idx → (Spec.Arr.transpose π x).get (fun j => idx (π j)) = x.get idx := by
  refine ⟨tShape_length π x.shape, fun j hj => tShape_getD hj, fun idx h => ?_⟩
  rw [transpose_get hπ]
  · simp
  · rw [inB_transpose hπ]
    simpa using h

/-- **C86 (one level).** `dwtn` of a transposed array along the same axes, which have other numbers now, with the same wavelets and
modes: every subband is transposed. -/
theorem C86_dwtn_transpose {x : Arr M} {π : Equiv.Perm ℕ} (hπ : ∀ j, π j < x.ndim ↔ j < x.ndim)
    {wavelet : PerAxis (Wavelet R)} {mode : PerAxis Mode} {axes axes' : Option (List ℤ)} {st : List (Stage R)} (hd : 1 ≤ x.ndim)
    (hr : Resolves x.ndim wavelet mode axes st) (hr' : Resolves x.ndim wavelet mode axes' (st.map (tStage π)))
    (hst : StagesOk st x.shape) (hb : ∀ s ∈ st, s.1 < x.ndim) {cs : List (Key × Arr M)}
    (h : dwtn x wavelet mode axes = .ok cs) :
    dwtn (Spec.Arr.transpose π x) wavelet mode axes' = .ok (cs.map fun p => (p.1, Spec.Arr.transpose π p.2)) := by
  have hx : (Spec.Arr.transpose π x).ndim = x.ndim := tShape_length π x.shape
  rw [dwtn_ok hd hr hst, Except.ok.injEq] at h
  rw [dwtn_ok (by rw [hx]; exact hd) (by rw [hx]; exact hr') (by rw [shape_transpose]; exact (stagesOk_transpose hπ hb).mpr hst),
    ← h, List.map_map, List.length_map]
  congr 1
  refine List.map_congr_left fun k _ => ?_
  simp only [Function.comp_apply, Prod.mk.injEq, true_and]
  exact subband_transpose hπ hb

/-- **C86 (several levels).** `wavedecn` of a transposed array, for all modes and levels, given or default: every coefficient
array is transposed, and the call fails exactly if it fails for the array itself. -/
theorem C86_wavedecn_transpose {x : Arr M} {π : Equiv.Perm ℕ} (hπ : ∀ j, π j < x.ndim ↔ j < x.ndim)
    {wavelet : PerAxis (Wavelet R)} {mode : PerAxis Mode} {axes axes' : Option (List ℤ)} {st : List (Stage R)} (hne : st ≠ [])
    (hr : Resolves x.ndim wavelet mode axes st) (hr' : Resolves x.ndim wavelet mode axes' (st.map (tStage π)))
    (hb : ∀ s ∈ st, s.1 < x.ndim ∧ s.2.1.Ok) (hn : (st.map (·.1)).Nodup) (level : Option ℤ) :
    wavedecn (Spec.Arr.transpose π x) wavelet mode level axes' =
      (wavedecn x wavelet mode level axes).map fun cs => cs.map (mapItem (Spec.Arr.transpose π)) := by
  have hd : 1 ≤ x.ndim := by
    cases st with
    | nil => exact absurd rfl hne
    | cons s st => have := (hb s (by simp)).1; omega
  have hb1 : ∀ s ∈ st, s.1 < x.shape.length := fun s hs => (hb s hs).1
  have hx : (Spec.Arr.transpose π x).ndim = x.ndim := tShape_length π x.shape
  have hb' : ∀ s ∈ st.map (tStage π), s.1 < (Spec.Arr.transpose π x).ndim ∧ s.2.1.Ok := by
    intro s hs
    obtain ⟨u, hu, rfl⟩ := List.mem_map.mp hs
    rw [hx]
    exact ⟨(perm_symm_lt hπ u.1).mpr (hb u hu).1, (hb u hu).2⟩
  have hn' : ((st.map (tStage π)).map (·.1)).Nodup := by
    have : (st.map (tStage π)).map (·.1) = (st.map (·.1)).map π.symm := by
      rw [List.map_map, List.map_map]
      rfl
    rw [this]
    exact hn.map π.symm.injective
  obtain ⟨L, hL, h⟩ := wavedecn_eq hd hne hr hb hn
  obtain ⟨L', hL', h'⟩ := wavedecn_eq (x := Spec.Arr.transpose π x) (by rw [hx]; exact hd) (by simpa using hne)
    (by rw [hx]; exact hr') hb' hn'
  have hiff : ∀ l, l ≤ L' ↔ l ≤ L := by
    intro l
    rw [hL, hL']
    constructor
    · intro H s hs
      have := H _ (List.mem_map_of_mem (f := tStage π) hs)
      rw [show (tStage π s).1 = π.symm s.1 from rfl, shape_transpose, tShape_getD_symm hπ (hb1 s hs)] at this
      exact this
    · intro H s hs
      obtain ⟨u, hu, rfl⟩ := List.mem_map.mp hs
      rw [show (tStage π u).1 = π.symm u.1 from rfl, shape_transpose, tShape_getD_symm hπ (hb1 u hu)]
      exact H u hu
  have e : L' = L := le_antisymm ((hiff L').mp le_rfl) ((hiff L).mpr le_rfl)
  rw [h, h', e, shape_transpose]
  simp only [levelsOk_transpose hπ hb1]
  split
  · rfl
  · split
    · rw [cascadeN_transpose hπ hb1]
      rfl
    · rfl

/-- **C86 (images).** `dwt2` of the transposed image, with the same wavelet and mode for both axes: the approximation and the
diagonal details are transposed, horizontal and vertical details are transposed and change places. -/
theorem C86_dwt2_transpose {x : Arr M} {w : Wavelet R} {mode : Mode} {axes : List ℤ} {s t : Stage R}
    (hr : Resolves x.ndim (.one w) (.one mode) (some axes) [s, t]) (hst : StagesOk [s, t] x.shape) (hn : s.1 ≠ t.1)
    {cA cH cV cD : Arr M} (h : dwt2 x (.one w) (.one mode) axes = .ok (cA, (cH, cV, cD))) :
    dwt2 (Spec.Arr.transpose (Equiv.swap s.1 t.1) x) (.one w) (.one mode) axes =
      .ok (Spec.Arr.transpose (Equiv.swap s.1 t.1) cA, (Spec.Arr.transpose (Equiv.swap s.1 t.1) cV,
        Spec.Arr.transpose (Equiv.swap s.1 t.1) cH, Spec.Arr.transpose (Equiv.swap s.1 t.1) cD)) := by
  have hs : s.1 < x.shape.length := hst.1
  have ht : t.1 < x.shape.length := by have := hst.2.2.2.1; rwa [List.length_set] at this
  have h2 : s.2 = t.2 := stage_same hr
  have hx : (Spec.Arr.transpose (Equiv.swap s.1 t.1) x).ndim = x.ndim := tShape_length _ x.shape
  have hπ := swap_axes_lt hs ht
  have hok : StagesOk [s, t] (Spec.Arr.transpose (Equiv.swap s.1 t.1) x).shape := by
    rw [shape_transpose, stagesOk_swap hn (by rw [tShape_length]; exact hs) (by rw [tShape_length]; exact ht), ← tStages_swap h2]
    exact (stagesOk_transpose hπ (by simp [hs, ht])).mpr hst
  rw [C19_dwt2_layout hr hst hn, Except.ok.injEq, Prod.mk.injEq, Prod.mk.injEq, Prod.mk.injEq] at h
  rw [C19_dwt2_layout (by rw [hx]; exact hr) hok hn, ← h.1, ← h.2.1, ← h.2.2.1, ← h.2.2.2]
  have key := fun c d => subband_swap hn h2 hs ht c d
  simp only [Arr.subband] at key
  rw [key, key, key, key]

/-- **C86 (images, several levels).** `wavedec2` in the same way. -/
theorem C86_wavedec2_transpose {x : Arr M} {w : Wavelet R} {mode : Mode} {axes : List ℤ} {s t : Stage R}
    (hr : Resolves x.ndim (.one w) (.one mode) (some axes) [s, t]) (hb : ∀ u ∈ [s, t], u.1 < x.ndim ∧ u.2.1.Ok)
    (hn : s.1 ≠ t.1) {l : ℕ} {cs : List (Item M)} (h : wavedec2 x (.one w) (.one mode) (some (l : ℤ)) axes = .ok cs) :
    ∃ (cA : Arr M) (ds : List (Arr M × Arr M × Arr M)), cs = .arr cA :: ds.map Item.ofTriple ∧
      wavedec2 (Spec.Arr.transpose (Equiv.swap s.1 t.1) x) (.one w) (.one mode) (some (l : ℤ)) axes =
        .ok (.arr (Spec.Arr.transpose (Equiv.swap s.1 t.1) cA) :: ds.map fun d => Item.ofTriple
          (Spec.Arr.transpose (Equiv.swap s.1 t.1) d.2.1, Spec.Arr.transpose (Equiv.swap s.1 t.1) d.1,
            Spec.Arr.transpose (Equiv.swap s.1 t.1) d.2.2)) := by
  have hs : s.1 < x.shape.length := (hb s (by simp)).1
  have ht : t.1 < x.shape.length := (hb t (by simp)).1
  have h2 : s.2 = t.2 := stage_same hr
  have hx : (Spec.Arr.transpose (Equiv.swap s.1 t.1) x).ndim = x.ndim := tShape_length _ x.shape
  have hπ := swap_axes_lt hs ht
  rw [C20_wavedec2_explicit_level hr hb hn, if_neg (by omega), Int.toNat_natCast] at h
  split at h
  · rename_i hlv
    rw [Except.ok.injEq] at h
    refine ⟨x.approxN [s, t] l, ((List.range l).map fun j => x.triple [s, t] j).reverse, ?_, ?_⟩
    · rw [← h, Arr.cascade2, List.map_reverse, List.map_map]
      rfl
    · rw [C20_wavedec2_explicit_level (by rw [hx]; exact hr) (by rw [hx]; exact hb) hn, if_neg (by omega), Int.toNat_natCast,
        if_pos, Except.ok.injEq, Arr.cascade2, (approxN_swap hn h2 hs ht l).2, List.map_reverse, List.map_map]
      · congr 2
        refine List.map_congr_left fun j _ => ?_
        obtain ⟨e1, e2⟩ := approxN_swap hn h2 hs ht j
        have key := fun c d => subband_swap (y := x.approxN [s, t] j) hn h2 (by rw [e1]; exact hs) (by rw [e1]; exact ht) c d
        rw [e2, key, key, key]
        rfl
      · rw [shape_transpose, levelsOk_swap hn (by rw [tShape_length]; exact hs) (by rw [tShape_length]; exact ht),
          ← tStages_swap h2]
        exact (levelsOk_transpose hπ (by simp [hs, ht]) l).mpr hlv
  · simp at h

/-- The hypotheses are met by images of 6×9 pixels and the 5/3 bank with symmetric extension, and by arrays of shape 3×8×4 whose
axes are moved round. -/
example (x y : Arr ℚ) (hx : x.shape = [6, 9]) (hy : y.shape = [3, 8, 4]) :
    (∃ s t : Stage ℚ, Resolves x.ndim (.one legallQ) (.one .symmetric) (some [-2, -1]) [s, t] ∧ s.1 ≠ t.1 ∧
      StagesOk [s, t] x.shape ∧ (∀ u ∈ [s, t], u.1 < x.ndim ∧ u.2.1.Ok) ∧
      ∃ cs, wavedec2 x (.one legallQ) (.one .symmetric) (some ((2 : ℕ) : ℤ)) [-2, -1] = .ok cs) ∧
    ∃ (π : Equiv.Perm ℕ) (st : List (Stage ℚ)), (∀ j, π j < y.ndim ↔ j < y.ndim) ∧ π 0 = 1 ∧ π 1 = 2 ∧ π 2 = 0 ∧
      Resolves y.ndim (.many [legallQ, haarQ]) (.many [.zero, .smooth]) (some [1, -1]) st ∧
      Resolves y.ndim (.many [legallQ, haarQ]) (.many [.zero, .smooth]) (some [0, 1]) (st.map (tStage π)) ∧
      (∀ s ∈ st, s.1 < y.ndim ∧ s.2.1.Ok) ∧ (st.map (·.1)).Nodup ∧ StagesOk st y.shape := by
  constructor
  · have hr : Resolves x.ndim (.one legallQ) (.one .symmetric) (some [-2, -1])
        [(0, legallQ, .symmetric), (1, legallQ, .symmetric)] := by
      unfold Arr.ndim
      rw [hx]
      exact ⟨rfl, rfl, rfl⟩
    have hb : ∀ u ∈ ([(0, legallQ, .symmetric), (1, legallQ, .symmetric)] : List (Stage ℚ)), u.1 < x.ndim ∧ u.2.1.Ok := by
      intro s hs
      unfold Arr.ndim
      rw [hx]
      simp only [List.mem_cons, List.not_mem_nil, or_false] at hs
      rcases hs with rfl | rfl
      · exact ⟨by simp, legallQ_ok⟩
      · exact ⟨by simp, legallQ_ok⟩
    refine ⟨_, _, hr, by simp, by rw [hx]; decide +kernel, hb,
      x.cascade2 [(0, legallQ, .symmetric), (1, legallQ, .symmetric)] 2, ?_⟩
    rw [C20_wavedec2_explicit_level hr hb (by simp), if_neg (by decide), if_pos]
    · rfl
    · rw [hx]
      decide +kernel
  · refine ⟨(Equiv.swap 0 1).trans (Equiv.swap 0 2) , [(1, legallQ, .zero), (2, haarQ, .smooth)], ?_, by decide, by decide, by decide,
      ?_, ?_, ?_, by decide, by rw [hy]; decide +kernel⟩
    · intro j
      unfold Arr.ndim
      rw [hy, Equiv.trans_apply, swap_axes_lt (by simp) (by simp), swap_axes_lt (by simp) (by simp)]
    · unfold Arr.ndim
      rw [hy]
      exact ⟨rfl, rfl, rfl⟩
    · unfold Arr.ndim
      rw [hy]
      exact ⟨by decide, rfl, rfl⟩
    · intro s hs
      unfold Arr.ndim
      rw [hy]
      simp only [List.mem_cons, List.not_mem_nil, or_false] at hs
      rcases hs with rfl | rfl
      · exact ⟨by simp, legallQ_ok⟩
      · exact ⟨by simp, haarQ_ok⟩

end Pywt
