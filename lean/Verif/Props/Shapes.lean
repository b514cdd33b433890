import Verif.Proof.Shapes
import Verif.Proof.Examples

/-!
# C21: predicted shapes and sizes

`Item.shapes` replaces every array of a coefficient list by its shape, `Item.count` counts its
samples (`Verif.Spec.Shapes`).
-/

namespace Pywt

open Finset Spec

set_option autoImplicit false

section
variable {R M : Type} [Ring R] [AddCommGroup M] [Module R M]

/-- With an explicit level, whenever `wavedecn` returns, `wavedecn_shapes` returns the shapes of
exactly the arrays `wavedecn` returned, under the same keys and in the same order. -/
theorem C21_shapes_explicit_level {x : Arr M} {wavelet : PerAxis (Wavelet R)}
    {mode : PerAxis Mode} {axes : Option (List ℤ)} {st : List (Stage R)} (hne : st ≠ [])
    (hr : Resolves x.ndim wavelet mode axes st) (hb : ∀ s ∈ st, s.1 < x.ndim ∧ s.2.1.Ok)
    (hn : (st.map (·.1)).Nodup) {l : ℤ} {cs : List (Item M)}
    (h : wavedecn x wavelet mode (some l) axes = .ok cs) :
    wavedecnShapes x.shape wavelet mode (some l) axes = .ok (cs.map Item.shapes) := by
  have hd : 1 ≤ x.ndim := by
    cases st with
    | nil => exact absurd rfl hne
    | cons s st => have := (hb s (by simp)).1; omega
  obtain ⟨L, -, hall⟩ := wavedecn_eq hd hne hr hb hn
  obtain ⟨L', -, hsh⟩ := wavedecnShapes_eq hd hne hr hb hn
  rw [hall] at h
  split at h
  · simp at h
  rename_i hneg
  split at h
  · rename_i hlv
    simp only [Except.ok.injEq] at h
    subst h
    exact hsh (some l) hneg hlv
  · simp at h

/-- Without a level the two functions agree if the wavelets of all axes have filters of one
length. -/
theorem C21_shapes_default_level_partial {x : Arr M} {wavelet : PerAxis (Wavelet R)}
    {mode : PerAxis Mode} {axes : Option (List ℤ)} {st : List (Stage R)} (hne : st ≠ [])
    (hr : Resolves x.ndim wavelet mode axes st) (hb : ∀ s ∈ st, s.1 < x.ndim ∧ s.2.1.Ok)
    (hn : (st.map (·.1)).Nodup) (hF : ∀ s ∈ st, ∀ t ∈ st, s.2.1.dec_len = t.2.1.dec_len) :
    ∃ cs, wavedecn x wavelet mode none axes = .ok cs ∧
      wavedecnShapes x.shape wavelet mode none axes = .ok (cs.map Item.shapes) := by
  have hd : 1 ≤ x.ndim := by
    cases st with
    | nil => exact absurd rfl hne
    | cons s st => have := (hb s (by simp)).1; omega
  obtain ⟨L, hL, hall⟩ := wavedecn_eq hd hne hr hb hn
  obtain ⟨L', hL', hsh⟩ := wavedecnShapes_eq hd hne hr hb hn
  have key : ∀ l, l ≤ L ↔ l ≤ L' := by
    intro l
    rw [hL, hL']
    constructor
    · intro h
      by_cases hl : l = 0
      · exact .inl hl
      · refine .inr fun s hs t ht => ?_
        rw [hF s hs t ht]
        exact (h t ht).resolve_left hl
    · rintro (h | h) s hs
      · exact .inl h
      · exact .inr (h s hs s hs)
  have hLL : L = L' := le_antisymm ((key L).mp le_rfl) ((key L').mpr le_rfl)
  have hlv := levelsOkN_of_default hn hb (fun l hl s hs => (hL l).mp hl s hs)
  refine ⟨x.cascadeN st L, ?_, ?_⟩
  · rw [hall]
    simp [hlv]
  · have := hsh none (by simp) (by simpa [← hLL] using hlv)
    simpa [← hLL] using this

/-- `wavedecn_size` of the coefficients, and of the predicted shapes, is the number of samples in all
arrays together. -/
theorem C21_size {x : Arr M} {wavelet : PerAxis (Wavelet R)}
    {mode : PerAxis Mode} {axes : Option (List ℤ)} {st : List (Stage R)} (hne : st ≠ [])
    (hr : Resolves x.ndim wavelet mode axes st) (hb : ∀ s ∈ st, s.1 < x.ndim ∧ s.2.1.Ok)
    (hn : (st.map (·.1)).Nodup) {level : Option ℤ} {cs : List (Item M)}
    (h : wavedecn x wavelet mode level axes = .ok cs) :
    wavedecnSize cs = .ok (cs.map Item.count).sum ∧
      wavedecnSizeShapes (cs.map Item.shapes) = .ok (cs.map Item.count).sum := by
  have hd : 1 ≤ x.ndim := by
    cases st with
    | nil => exact absurd rfl hne
    | cons s st => have := (hb s (by simp)).1; omega
  obtain ⟨L, -, hall⟩ := wavedecn_eq hd hne hr hb hn
  rw [hall] at h
  split at h
  · simp at h
  split at h
  · rename_i hneg hlv
    simp only [Except.ok.injEq] at h
    subst h
    constructor
    · unfold Arr.cascadeN
      simp only [wavedecnSize]
      rw [sizeDicts_eq]
      · rw [List.map_cons, List.sum_cons]; rfl
      · intro c hc
        obtain ⟨j, -, rfl⟩ := List.mem_map.mp (List.mem_reverse.mp hc)
        refine ⟨_, rfl, fun p hp => ?_⟩
        obtain ⟨q, -, rfl⟩ := List.mem_map.mp hp
        rfl
    · unfold Arr.cascadeN
      rw [List.map_cons, Item.shapes]
      simp only [wavedecnSizeShapes]
      rw [sizeShapes_eq]
      · rw [List.map_cons, List.sum_cons, Item.count, Arr.ok]
      · intro c hc
        obtain ⟨j, -, rfl⟩ := List.mem_map.mp (List.mem_reverse.mp hc)
        exact ⟨_, rfl⟩
  · simp at h

/-- `dwtn_max_level` is the level `wavedecn` uses by default. -/
theorem C21_dwtn_max_level {x : Arr M} {wavelet : PerAxis (Wavelet R)}
    {mode : PerAxis Mode} {axes : Option (List ℤ)} {st : List (Stage R)} (hne : st ≠ [])
    (hr : Resolves x.ndim wavelet mode axes st) (hb : ∀ s ∈ st, s.1 < x.ndim ∧ s.2.1.Ok)
    (hn : (st.map (·.1)).Nodup) :
    ∃ L : ℕ, dwtnMaxLevel x.shape wavelet axes = .ok L ∧
      wavedecn x wavelet mode none axes = wavedecn x wavelet mode (some L) axes ∧
      ∀ l, l ≤ L ↔ ∀ s ∈ st, l = 0 ∨ (s.2.1.dec_len - 1) * 2 ^ l ≤ x.shape.getD s.1 0 := by
  have hd : 1 ≤ x.ndim := by
    cases st with
    | nil => exact absurd rfl hne
    | cons s st => have := (hb s (by simp)).1; omega
  obtain ⟨L, h1, h2⟩ := dwtnMaxLevel_eq (shape := x.shape) hd hne hr hb hn
  obtain ⟨L', hL, hall⟩ := wavedecn_eq hd hne hr hb hn
  have : L = L' := le_antisymm ((hL L).mpr ((h2 L).mp le_rfl)) ((h2 L').mpr ((hL L').mp le_rfl))
  subst this
  refine ⟨L, h1, ?_, h2⟩
  rw [hall, hall]
  simp

end

/-- The stages of the witness below. -/
def stagesQ : List (Stage ℚ) := [(0, legallQ, .symmetric), (1, haarQ, .symmetric)]

/-- Without a level and with wavelets of different lengths the two functions disagree: `wavedecn`
takes the smallest of the levels the axes allow, `wavedecn_shapes` the level that the shortest axis
allows for the longest filter.  Witness: any 10×2 array, a 6-tap wavelet for the first axis and a
2-tap one for the second; `wavedecn` computes one level, `wavedecn_shapes` describes none. -/
theorem C21_shapes_default_level_disagree {x : Arr ℚ} (hx : x.shape = [10, 2]) :
    ∃ cs ss, wavedecn x (.many [legallQ, haarQ]) (.one .symmetric) none none = .ok cs ∧
      wavedecnShapes x.shape (.many [legallQ, haarQ]) (.one .symmetric) none none = .ok ss ∧
      ss ≠ cs.map Item.shapes ∧ cs.length = 2 ∧ ss.length = 1 := by
  have hd : x.ndim = 2 := by unfold Arr.ndim; rw [hx]; rfl
  have hr : Resolves x.ndim (.many [legallQ, haarQ]) (.one .symmetric) none stagesQ := by
    rw [hd]; exact ⟨rfl, rfl, rfl⟩
  have hb : ∀ s ∈ stagesQ, s.1 < x.ndim ∧ s.2.1.Ok := by rw [hd]; decide
  have hn : (stagesQ.map (·.1)).Nodup := by decide
  obtain ⟨L, hL, hall⟩ := wavedecn_eq (by omega) (by simp [stagesQ]) hr hb hn
  obtain ⟨L', hL', hsh⟩ := wavedecnShapes_eq (by omega) (by simp [stagesQ]) hr hb hn
  rw [hx] at hL hL' hall hsh
  have e1 : L = 1 := by
    have h1 : 1 ≤ L := (hL 1).mpr (by decide)
    have h2 : ¬ 2 ≤ L := fun h => absurd ((hL 2).mp h) (by decide)
    omega
  have e0 : L' = 0 := by
    have h2 : ¬ 1 ≤ L' := fun h => absurd ((hL' 1).mp h) (by decide)
    omega
  subst e1 e0
  refine ⟨x.cascadeN stagesQ 1, (x.cascadeN stagesQ 0).map Item.shapes, ?_, ?_, ?_, ?_, ?_⟩
  · have := hall none
    rwa [if_neg (by simp), if_pos (by decide)] at this
  · rw [hx]
    exact hsh none (by simp) (by decide)
  · intro h
    have := congrArg List.length h
    simp [Arr.cascadeN] at this
  · rfl
  · rfl

/-! A 10×2 array meets the hypotheses for one level. -/

example : Resolves (R := ℚ) 2 (.many [legallQ, haarQ]) (.one .symmetric) none stagesQ ∧
    (∀ s ∈ stagesQ, s.1 < 2 ∧ s.2.1.Ok) ∧ (stagesQ.map (·.1)).Nodup ∧
    LevelsOkN stagesQ [10, 2] 1 :=
  ⟨⟨rfl, rfl, rfl⟩, by decide, by decide, by decide⟩

end Pywt
