import Verif.Proof.Packet
import Verif.Proof.Mra
import Verif.Spec.Pack
import Verif.Props.MultiDim
import Verif.Proof.MultilevelN
import Verif.Proof.AxisMulti

/-!
# The three packet classes

What `_decompose` computes, and that the inverse transform undoes it.
-/

namespace Pywt

open Spec

set_option linter.unusedSectionVars false

variable {R M : Type} [Ring R] [AddCommGroup M] [Module R M]

/-- Cutting an array that extends `d` to the shape of `d` gives `d`. -/
theorem cutTo_extends {y d : Arr M} (h : y.Extends d) : cutTo d.shape y = .ok d := by
  obtain ⟨b, b1, b2, b3⟩ := getSlices_crop (r := y) (S := d.shape) h.1 fun j hj => h.2.1 j hj
  unfold cutTo
  rw [b1]
  congr 1
  refine Arr.ext_get b2 fun idx hidx => ?_
  have h1 := b3.2.2 idx hidx
  have h2 := h.2.2 idx (by rw [← b2]; exact hidx)
  rw [← h1, h2]

theorem extends_eq {y d : Arr M} (h : y.Extends d) (hs : y.shape = d.shape) : y = d :=
  Arr.ext_get hs fun idx hidx => h.2.2 idx (by rw [← hs]; exact hidx)

theorem extends_cut {y d : Arr M} (h : y.Extends d) :
    y = d ∨ y.shape ≠ d.shape ∧ cutTo d.shape y = .ok d := by
  by_cases hs : y.shape = d.shape
  · exact .inl (extends_eq h hs)
  · exact .inr ⟨hs, cutTo_extends h⟩

/-! ### `WaveletPacket` -/

theorem packet1_dec {w : Wavelet R} (hw : w.Ok) {mode : Mode} {ax : ℕ} {m : ℤ} {sz : Option (List ℕ)}
    {x : Arr M} (hax : ax < x.ndim) :
    (packet1 w mode ax m sz).dec x =
      if LenOk mode (x.shape.getD ax 0) then .ok fun c : Char =>
        if c = 'a' then x.along ax (coeffLen mode (x.shape.getD ax 0) w.dec_len) (analysis mode w.dec_lo)
        else x.along ax (coeffLen mode (x.shape.getD ax 0) w.dec_len) (analysis mode w.dec_hi)
      else .error .value := by
  have ha : AxisIs x.ndim (ax : ℤ) ax := ⟨by simp, hax⟩
  unfold packet1
  simp only
  split_ifs with hl
  · rw [dwtA_ok hw ha hl]; rfl
  · rw [dwtA_err hw ha hl]; rfl

theorem packet1_dec_bad {w : Wavelet R} {mode : Mode} {ax : ℕ} {m : ℤ} {sz : Option (List ℕ)}
    {x : Arr M} (hax : ¬ ax < x.ndim) : (packet1 w mode ax m sz).dec x = .error .axis := by
  unfold packet1 dwtA normAxis
  simp only
  have e : ¬ ((ax : ℤ) < 0) := by omega
  have e2 : ¬ (0 ≤ (ax : ℤ) ∧ (ax : ℤ) < x.ndim) := by omega
  simp only [if_neg e, if_neg e2]
  rfl

theorem packet1_recon {w : Wavelet R} (hw : w.Ok) (hpr : PR w.dec_lo w.dec_hi w.rec_lo w.rec_hi)
    {mode : Mode} {ax : ℕ} {m : ℤ} {sz : Option (List ℕ)} {d : Arr M} {c : Char → Arr M}
    (hc : (packet1 w mode ax m sz).dec d = .ok c) :
    ∃ y, (packet1 w mode ax m sz).recon
      (fun q => if q ∈ (packet1 (M := M) w mode ax m sz).parts then some (c q) else none) = .ok y ∧
      y.Extends d ∧ y.shape = d.shape.set ax (d.shape.getD ax 0 + d.shape.getD ax 0 % 2) := by
  by_cases hax : ax < d.ndim
  swap
  · rw [packet1_dec_bad hax] at hc; cases hc
  rw [packet1_dec hw hax] at hc
  split_ifs at hc with hl
  injection hc with hc
  have hax' : ax < d.shape.length := hax
  have ha : AxisIs d.ndim (ax : ℤ) ax := ⟨by simp, hax⟩
  obtain ⟨y, y1, y2, y3⟩ := idwtAxis_extends (s := (ax, w, mode)) (x := d)
    (L := d.analyze (ax, w, mode) 'a') (H := d.analyze (ax, w, mode) 'd') hax hw hpr hl
    (by rw [Arr.shape_analyze, Arr.shape_analyze])
    (by rw [Arr.shape_analyze]; exact (getD_set hax' ).trans (if_pos rfl)) (Arr.Extends.refl _) (Arr.Extends.refl _)
  have e1 : d.analyze (ax, w, mode) 'a' = c 'a' := by rw [← hc]; rfl
  have e2 : d.analyze (ax, w, mode) 'd' = c 'd' := by rw [← hc]; rfl
  have hsa : (c 'a').shape = d.shape.set ax (coeffLen mode (d.shape.getD ax 0) w.dec_len) := by
    rw [← hc]; rfl
  have hsd : (c 'd').shape = (c 'a').shape := by rw [← hc]; rfl
  rw [e1, e2] at y1
  have hpair : idwtA w mode (ax : ℤ) (some (c 'a')) (some (c 'd')) = .ok y := by
    have hn : (c 'a').ndim = d.ndim := by unfold Arr.ndim; rw [hsa]; simp
    have hlen : 1 ≤ synthLen mode ((c 'a').shape.getD ax 0) w.rec_len := by
      have hF : w.rec_len = w.dec_len := hw.2.2.2.1
      have h0 : synthLen mode (coeffLen mode (d.shape.getD ax 0) w.dec_len) w.dec_len = _ :=
        synthLen_coeffLen hw.2.1 hw.1
      rw [hsa, getD_set hax', if_pos rfl, hF, h0]
      have := (lenOk_iff.mp hl).1
      omega
    have h1 := idwtPair_ok hw (a := c 'a') (d := c 'd') (axis := (ax : ℤ)) (ax := ax) (mode := mode)
      (by rw [hn]; exact ha) hsd hlen
    have h2 := idwtAxis_ok hw (a := c 'a') (d := c 'd') (axis := ax) (mode := mode) hsd
      (by rw [← Arr.ndim, hn]; exact hax) hlen
    have h3 := y1.symm.trans h2
    simp only [Except.ok.injEq, Option.some.injEq] at h3
    rw [h3]
    exact h1
  refine ⟨y, ?_, y3, ?_⟩
  · simp only [packet1]
    exact hpair
  · rw [y2, Arr.shape_analyze, List.set_set]

theorem packet1_inverts {w : Wavelet R} (hw : w.Ok) (hpr : PR w.dec_lo w.dec_hi w.rec_lo w.rec_hi)
    (mode : Mode) (ax : ℕ) (m : ℤ) (sz : Option (List ℕ)) (x : Arr M) :
    (packet1 w mode ax m sz).Inverts x := by
  intro p d c _ _ _ hc
  obtain ⟨y, y1, y2, -⟩ := packet1_recon hw hpr hc
  exact ⟨y, y1, extends_cut y2⟩


/-! ### The same wavelet and mode on several axes -/

/-- The stages of a transform with the same wavelet and mode on all axes. -/
def sameStages (w : Wavelet R) (mode : Mode) (ax : List ℕ) : List (Stage R) := ax.map fun a => (a, w, mode)

theorem resolves_same (w : Wavelet R) (mode : Mode) {ndim : ℕ} {axes : List ℤ} {ax : List ℕ}
    (ha : AxesAre ndim (some axes) ax) :
    Resolves ndim (.one w) (.one mode) (some axes) (sameStages w mode ax) := by
  refine ⟨?_, ?_, ?_⟩
  · have := ha.1
    simp only at this ⊢
    rw [← this]
    simp [sameStages, Function.comp_def]
  · simp [PerAxis.expand, sameStages, Function.comp_def, List.map_const']
  · simp [PerAxis.expand, sameStages, Function.comp_def, List.map_const']

theorem axesAre_length {ndim : ℕ} {axes : List ℤ} {ax : List ℕ} (ha : AxesAre ndim (some axes) ax) :
    axes.length = ax.length := by
  have := congrArg List.length ha.1
  simpa using this.symm

theorem stagesOk_same {w : Wavelet R} (hw : w.Ok) {mode : Mode} {ax : List ℕ} (hn : ax.Nodup)
    {shape : List ℕ} (hb : ∀ a ∈ ax, a < shape.length) :
    StagesOk (sameStages w mode ax) shape ↔ ∀ a ∈ ax, LenOk mode (shape.getD a 0) := by
  constructor
  · induction ax generalizing shape with
    | nil => intro _ a ha; simp at ha
    | cons b ax ih =>
      intro h a ha
      obtain ⟨h1, h2, h3, h4⟩ := h
      rw [List.nodup_cons] at hn
      rcases List.mem_cons.1 ha with rfl | ha'
      · exact h3
      · have := ih hn.2 (fun a ha => by simpa using hb a (by simp [ha])) h4 a ha'
        rw [getD_set h1, if_neg (by rintro rfl; exact hn.1 ha')] at this
        exact this
  · intro h
    refine stagesOk_of_lens (by simpa [sameStages, Function.comp_def] using hn) ?_
    intro s hs
    obtain ⟨a, ha, rfl⟩ := List.mem_map.1 hs
    exact ⟨hb a ha, hw, h a ha⟩

theorem stagesInv_same {w : Wavelet R} (hw : w.Ok) (hpr : PR w.dec_lo w.dec_hi w.rec_lo w.rec_hi)
    {mode : Mode} {ax : List ℕ} (hn : ax.Nodup)
    {shape : List ℕ} (hb : ∀ a ∈ ax, a < shape.length) (hl : ∀ a ∈ ax, LenOk mode (shape.getD a 0)) :
    StagesInv (sameStages w mode ax) shape := by
  refine ⟨by simpa [sameStages, Function.comp_def] using hn, ?_⟩
  intro s hs
  obtain ⟨a, ha, rfl⟩ := List.mem_map.1 hs
  exact ⟨hb a ha, hw, hpr, hl a ha⟩

/-! ### `WaveletPacketND` -/

section nd
variable {w : Wavelet R} {mode : Mode} {axes : List ℤ} {ax : List ℕ} {m : ℤ} {sz : Option (List ℕ)}
  {x : Arr M}

theorem packetN_dec (hw : w.Ok) (ha : AxesAre x.ndim (some axes) ax) (hd : 1 ≤ x.ndim) :
    (packetN w mode axes m sz).dec x =
      if ∀ a ∈ ax, LenOk mode (x.shape.getD a 0) then .ok fun key =>
        if key ∈ words ax.length then x.subband (sameStages w mode ax) key else x
      else .error .value := by
  have hr := resolves_same w mode ha
  have hst := stagesOk_same hw (mode := mode) ha.2.1 (shape := x.shape) ha.2.2
  unfold packetN
  simp only
  split_ifs with hl
  · rw [dwtn_ok hd hr (hst.2 hl)]
    simp only [Py_bind_ok, Py_pure]
    congr 1
    funext key
    have hlen : (sameStages w mode ax).length = ax.length := by simp [sameStages]
    rw [hlen]
    split_ifs with hk
    · rw [lookup_map hk]; rfl
    · have : ((words ax.length).map fun k => (k, x.subband (sameStages w mode ax) k)).lookup key =
          none := by
        rw [List.lookup_eq_none_iff]
        intro p hp
        obtain ⟨k, hk', rfl⟩ := List.mem_map.1 hp
        simp only [bne_iff_ne, ne_eq]
        rintro rfl
        exact hk hk'
      rw [this]; rfl
  · rw [dwtn_err hr (by
      intro s hs
      obtain ⟨a, ha', rfl⟩ := List.mem_map.1 hs
      exact ⟨ha.2.2 a ha', hw⟩) fun h => hl (hst.1 h)]
    rfl

theorem subband_same_shape (ha : AxesAre x.ndim (some axes) ax) {key : Key}
    (hk : key ∈ words ax.length) :
    (x.subband (sameStages w mode ax) key).ndim = x.ndim ∧
    (∀ a ∈ ax, (x.subband (sameStages w mode ax) key).shape.getD a 0 =
      coeffLen mode (x.shape.getD a 0) w.dec_len) := by
  have hlen : (sameStages w mode ax).length = ax.length := by simp [sameStages]
  have hs := shape_subband (st := sameStages w mode ax) (k := key)
    (by rw [hlen]; exact (mem_words.1 hk).1) x
  have hg := decShape_getD (st := sameStages w mode ax) (shape := x.shape)
    (by simpa [sameStages, Function.comp_def] using ha.2.1) (by
      intro s hs
      obtain ⟨a, ha', rfl⟩ := List.mem_map.1 hs
      exact ha.2.2 a ha')
  refine ⟨?_, fun a ha' => ?_⟩
  · unfold Arr.ndim; rw [hs, decShape_length]
  · rw [hs, hg.2 (a, w, mode) (List.mem_map.2 ⟨a, ha', rfl⟩)]

/-- The sizes of the nodes of a packet. -/
theorem packetN_along (hw : w.Ok) (ha : AxesAre x.ndim (some axes) ax) (hd : 1 ≤ x.ndim) :
    ∀ (p : List Key) (d : Arr M), (∀ q ∈ p, q ∈ words ax.length) →
    (packetN w mode axes m sz).along x p = .ok d → d.ndim = x.ndim ∧
      ∀ a ∈ ax, d.shape.getD a 0 = approxLen mode w.dec_len (x.shape.getD a 0) p.length := by
  intro p
  induction p generalizing x with
  | nil =>
    intro d _ h
    unfold PKind.along at h
    injection h with h
    subst h
    exact ⟨rfl, fun a _ => rfl⟩
  | cons q p ih =>
    intro d hq h
    unfold PKind.along at h
    rw [packetN_dec hw ha hd] at h
    by_cases hl : ∀ a ∈ ax, LenOk mode (x.shape.getD a 0)
    · simp only [if_pos hl, if_pos (hq q (by simp))] at h
      obtain ⟨h1, h2⟩ := subband_same_shape (w := w) (mode := mode) ha (hq q (by simp))
      obtain ⟨i1, i2⟩ := ih (by rw [h1]; exact ha) (by omega) d (fun q' h' => hq q' (by simp [h'])) h
      refine ⟨i1.trans h1, fun a ha' => ?_⟩
      rw [i2 a ha', h2 a ha', List.length_cons, approxLen, approxLen, Function.iterate_succ_apply]
    · simp only [if_neg hl] at h
      cases h

theorem packetN_recon (hw : w.Ok) (hpr : PR w.dec_lo w.dec_hi w.rec_lo w.rec_hi)
    (ha : AxesAre x.ndim (some axes) ax) (hd : 1 ≤ x.ndim) {c : Key → Arr M}
    (hc : (packetN w mode axes m sz).dec x = .ok c) :
    ∃ y, (packetN w mode axes m sz).recon (fun q => if q ∈ (packetN (M := M) w mode axes m sz).parts
        then some (c q) else none) = .ok y ∧ y.Extends x ∧
      (∀ a ∈ ax, y.shape.getD a 0 = x.shape.getD a 0 + x.shape.getD a 0 % 2) ∧
      (∀ j, j ∉ ax → y.shape.getD j 0 = x.shape.getD j 0) := by
  have hr := resolves_same w mode ha
  rw [packetN_dec hw ha hd] at hc
  split_ifs at hc with hl
  injection hc with hc
  obtain ⟨y, h1, h2, h3, h4, h5⟩ := idwtn_dwtn hr
    (stagesInv_same hw hpr (mode := mode) ha.2.1 (shape := x.shape) ha.2.2 hl)
  have hlen : (sameStages w mode ax).length = ax.length := by simp [sameStages]
  refine ⟨y, ?_, h5, fun a ha' => ?_, fun j hj => ?_⟩
  · unfold packetN
    simp only [axesAre_length ha]
    rw [hlen] at h1
    have e : ((words ax.length).map fun key => (key,
        if key ∈ words ax.length then some (c key) else none)) =
        (words ax.length).map fun k => (k, some (x.subband (sameStages w mode ax) k)) := by
      apply List.map_congr_left
      intro k hk
      rw [if_pos hk, ← hc]
      simp only [if_pos hk]
    rw [e, h1]
    rfl
  · exact h3 (a, w, mode) (List.mem_map.2 ⟨a, ha', rfl⟩)
  · apply h4
    simpa [sameStages, Function.comp_def] using hj

theorem packetN_inverts (hw : w.Ok) (hpr : PR w.dec_lo w.dec_hi w.rec_lo w.rec_hi)
    (ha : AxesAre x.ndim (some axes) ax) (hd : 1 ≤ x.ndim)
    (he : ∀ a ∈ ax, ∀ j : ℕ, (j : ℤ) < m → approxLen mode w.dec_len (x.shape.getD a 0) j % 2 = 0) :
    (packetN w mode axes m sz).Inverts x := by
  intro p d c hp hq hal hc
  have hq' : ∀ q ∈ p, q ∈ words ax.length := by
    intro q h
    rw [← axesAre_length ha]
    exact hq q h
  obtain ⟨e1, e2⟩ := packetN_along hw ha hd p d hq' hal
  have ha' : AxesAre d.ndim (some axes) ax := by rw [e1]; exact ha
  obtain ⟨y, y1, y2, y3, y4⟩ := packetN_recon hw hpr ha' (by omega) hc
  refine ⟨y, by convert y1, .inl (extends_eq y2 ?_)⟩
  apply List.ext_getElem y2.1
  intro j h1 h2
  have : y.shape.getD j 0 = d.shape.getD j 0 := by
    by_cases hj : j ∈ ax
    · rw [y3 j hj, e2 j hj, he j hj p.length hp, add_zero]
    · exact y4 j hj
  rw [List.getD_eq_getElem (hn := h1), List.getD_eq_getElem (hn := h2)] at this
  exact this

end nd

/-! ### `WaveletPacket2D` -/

section two
variable {w : Wavelet R} {mode : Mode} {axes : List ℤ} {a b : ℕ} {m : ℤ} {sz : Option (List ℕ)}
  {x : Arr M}

theorem packet2_dec (hw : w.Ok) (ha : AxesAre x.ndim (some axes) [a, b]) :
    (packet2 w mode axes m sz).dec x =
      if LenOk mode (x.shape.getD a 0) ∧ LenOk mode (x.shape.getD b 0) then
        .ok (pick2 ((x.analyze (a, w, mode) 'a').analyze (b, w, mode) 'a',
          ((x.analyze (a, w, mode) 'd').analyze (b, w, mode) 'a',
            (x.analyze (a, w, mode) 'a').analyze (b, w, mode) 'd',
            (x.analyze (a, w, mode) 'd').analyze (b, w, mode) 'd')))
      else .error .value := by
  have hr : Resolves x.ndim (.one w) (.one mode) (some axes) [(a, w, mode), (b, w, mode)] :=
    resolves_same w mode ha
  have hst := stagesOk_same hw (mode := mode) ha.2.1 (shape := x.shape) ha.2.2
  have hne : a ≠ b := by simpa using ha.2.1
  have hlen : axes.length = 2 := axesAre_length ha
  have hax : a < x.ndim := ha.2.2 a (by simp)
  unfold packet2
  simp only
  split_ifs with hl
  · rw [C19_dwt2_layout hr (hst.2 (by simpa using hl)) hne]
    rfl
  · have hu : ¬ x.ndim < numUnique axes := by
      have h1 : numUnique axes ≤ axes.length := (List.dedup_sublist axes).length_le
      have hb : b < x.ndim := ha.2.2 b (by simp)
      omega
    have h0 : ¬ axes.length ≠ 2 := by simpa using hlen
    have he : dwtn x (.one w) (.one mode) (some axes) = .error .value :=
      dwtn_err hr (by
        intro s hs
        simp only [List.mem_cons, List.not_mem_nil, or_false] at hs
        rcases hs with rfl | rfl
        · exact ⟨hax, hw⟩
        · exact ⟨ha.2.2 b (by simp), hw⟩) fun h => hl (by simpa using hst.1 h)
    simp only [dwt2, if_neg h0, if_neg hu, he]
    rfl

theorem packet2_along (hw : w.Ok) (ha : AxesAre x.ndim (some axes) [a, b]) :
    ∀ (p : List Char) (d : Arr M), (packet2 w mode axes m sz).along x p = .ok d → d.ndim = x.ndim := by
  intro p
  induction p generalizing x with
  | nil =>
    intro d h
    unfold PKind.along at h
    injection h with h
    rw [h]
  | cons q p ih =>
    intro d h
    unfold PKind.along at h
    rw [packet2_dec hw ha] at h
    by_cases hl : LenOk mode (x.shape.getD a 0) ∧ LenOk mode (x.shape.getD b 0)
    · simp only [if_pos hl] at h
      have hn : ∀ u v : Char, ((x.analyze (a, w, mode) u).analyze (b, w, mode) v).ndim = x.ndim := by
        intro u v
        unfold Arr.ndim
        rw [Arr.shape_analyze, Arr.shape_analyze]
        simp
      have hn2 : (pick2 ((x.analyze (a, w, mode) 'a').analyze (b, w, mode) 'a',
          ((x.analyze (a, w, mode) 'd').analyze (b, w, mode) 'a',
            (x.analyze (a, w, mode) 'a').analyze (b, w, mode) 'd',
            (x.analyze (a, w, mode) 'd').analyze (b, w, mode) 'd')) q).ndim = x.ndim := by
        unfold pick2
        split_ifs <;> exact hn _ _
      have := ih (by rw [hn2]; exact ha) d h
      rw [this, hn2]
    · simp only [if_neg hl] at h
      cases h

theorem packet2_recon (hw : w.Ok) (hpr : PR w.dec_lo w.dec_hi w.rec_lo w.rec_hi) {d : Arr M}
    {c : Char → Arr M} (ha' : AxesAre d.ndim (some axes) [a, b])
    (hc : (packet2 w mode axes m sz).dec d = .ok c) :
    ∃ y, (packet2 w mode axes m sz).recon
      (fun q => if q ∈ (packet2 (M := M) w mode axes m sz).parts then some (c q) else none) = .ok y ∧
      y.Extends d ∧
      (∀ j ∈ [a, b], y.shape.getD j 0 = d.shape.getD j 0 + d.shape.getD j 0 % 2) ∧
      (∀ j, j ∉ [a, b] → y.shape.getD j 0 = d.shape.getD j 0) := by
  have hr : Resolves d.ndim (.one w) (.one mode) (some axes) [(a, w, mode), (b, w, mode)] :=
    resolves_same w mode ha'
  have hc' := hc
  rw [packet2_dec hw ha'] at hc
  split_ifs at hc with hl
  injection hc with hc
  have hinv : StagesInv [(a, w, mode), (b, w, mode)] d.shape :=
    stagesInv_same hw hpr (mode := mode) ha'.2.1 (shape := d.shape) ha'.2.2 (by simpa using hl)
  obtain ⟨cA, cH, cV, cD, y, y1, y2, y3, y4, y5⟩ := C19_idwt2_dwt2 hr hinv
  refine ⟨y, ?_, y3, fun j hj => y4 (j, w, mode) (by
    simp only [List.mem_cons, List.not_mem_nil, or_false] at hj ⊢
    rcases hj with rfl | rfl <;> simp), fun j hj => y5 j hj⟩
  have hpick : c = pick2 (cA, (cH, cV, cD)) := by
    unfold packet2 at hc'
    simp only [y1, Py_bind_ok, Py_pure] at hc'
    injection hc' with hc'
    exact hc'.symm
  subst hpick
  simp only [packet2]
  have m1 : ('a' : Char) ∈ ['a', 'h', 'v', 'd'] := by decide
  have m2 : ('h' : Char) ∈ ['a', 'h', 'v', 'd'] := by decide
  have m3 : ('v' : Char) ∈ ['a', 'h', 'v', 'd'] := by decide
  have m4 : ('d' : Char) ∈ ['a', 'h', 'v', 'd'] := by decide
  have p1 : pick2 (cA, (cH, cV, cD)) 'a' = cA := rfl
  have p2 : pick2 (cA, (cH, cV, cD)) 'h' = cH := rfl
  have p3 : pick2 (cA, (cH, cV, cD)) 'v' = cV := rfl
  have p4 : pick2 (cA, (cH, cV, cD)) 'd' = cD := rfl
  simp only [if_pos m1, if_pos m2, if_pos m3, if_pos m4, p1, p2, p3, p4, y2]
  simp [Py_pure]

theorem packet2_inverts (hw : w.Ok) (hpr : PR w.dec_lo w.dec_hi w.rec_lo w.rec_hi)
    (ha : AxesAre x.ndim (some axes) [a, b]) : (packet2 w mode axes m sz).Inverts x := by
  intro p d c _ _ hal hc
  have e1 := packet2_along hw ha p d hal
  have ha' : AxesAre d.ndim (some axes) [a, b] := by rw [e1]; exact ha
  obtain ⟨y, y1, y2, -⟩ := packet2_recon hw hpr ha' hc
  exact ⟨y, y1, extends_cut y2⟩

end two

/-! ### When decomposition succeeds -/

theorem packet1_along_ok {w : Wavelet R} (hw : w.Ok) {mode : Mode} {ax : ℕ} {m : ℤ}
    {sz : Option (List ℕ)} : ∀ (p : List Char) {x : Arr M}, ax < x.ndim →
    LevelsOk mode w.dec_len (x.shape.getD ax 0) p.length →
    ∃ d, (packet1 w mode ax m sz).along x p = .ok d ∧ d.ndim = x.ndim ∧
      d.shape.getD ax 0 = approxLen mode w.dec_len (x.shape.getD ax 0) p.length := by
  intro p
  induction p with
  | nil => intro x _ _; exact ⟨x, rfl, rfl, rfl⟩
  | cons q p ih =>
    intro x hax hl
    have hax' : ax < x.shape.length := hax
    have h0 : LenOk mode (x.shape.getD ax 0) := hl 0 (by simp)
    unfold PKind.along
    rw [packet1_dec hw hax, if_pos h0]
    simp only
    have key : ∀ f : List M → List M, ∃ d, (packet1 w mode ax m sz).along
        (x.along ax (coeffLen mode (x.shape.getD ax 0) w.dec_len) f) p = .ok d ∧ d.ndim = x.ndim ∧
        d.shape.getD ax 0 = approxLen mode w.dec_len (x.shape.getD ax 0) (p.length + 1) := by
      intro f
      have e : (x.along ax (coeffLen mode (x.shape.getD ax 0) w.dec_len) f).shape.getD ax 0 =
          coeffLen mode (x.shape.getD ax 0) w.dec_len := by
        rw [Arr.shape_along, getD_set hax', if_pos rfl]
      have e2 : (x.along ax (coeffLen mode (x.shape.getD ax 0) w.dec_len) f).ndim = x.ndim := by
        unfold Arr.ndim; rw [Arr.shape_along]; simp
      obtain ⟨d, d1, d2, d3⟩ := ih (x := x.along ax (coeffLen mode (x.shape.getD ax 0) w.dec_len) f)
        (by rw [e2]; exact hax) (by
          intro j hj
          rw [e]
          have := hl (j + 1) (by simpa using hj)
          rwa [approxLen, Function.iterate_succ_apply] at this)
      refine ⟨d, d1, d2.trans e2, ?_⟩
      rw [d3, e, approxLen, approxLen, Function.iterate_succ_apply]
    split_ifs <;> exact key _

theorem packetN_along_ok {w : Wavelet R} (hw : w.Ok) {mode : Mode} {axes : List ℤ} {ax : List ℕ} {m : ℤ}
    {sz : Option (List ℕ)} : ∀ (p : List Key) {x : Arr M}, AxesAre x.ndim (some axes) ax → 1 ≤ x.ndim →
    (∀ q ∈ p, q ∈ words ax.length) →
    (∀ a ∈ ax, LevelsOk mode w.dec_len (x.shape.getD a 0) p.length) →
    ∃ d, (packetN w mode axes m sz).along x p = .ok d := by
  intro p
  induction p with
  | nil => intro x _ _ _ _; exact ⟨x, rfl⟩
  | cons q p ih =>
    intro x ha hd hq hl
    have h0 : ∀ a ∈ ax, LenOk mode (x.shape.getD a 0) := fun a ha' => hl a ha' 0 (by simp)
    unfold PKind.along
    rw [packetN_dec hw ha hd, if_pos h0]
    simp only [if_pos (hq q (by simp))]
    obtain ⟨h1, h2⟩ := subband_same_shape (w := w) (mode := mode) ha (hq q (by simp))
    refine ih (by rw [h1]; exact ha) (by omega) (fun q' h' => hq q' (by simp [h'])) ?_
    intro a ha' j hj
    rw [h2 a ha']
    have := hl a ha' (j + 1) (by simpa using hj)
    rwa [approxLen, Function.iterate_succ_apply] at this

theorem packet2_along_ok {w : Wavelet R} (hw : w.Ok) {mode : Mode} {axes : List ℤ} {a b : ℕ} {m : ℤ}
    {sz : Option (List ℕ)} : ∀ (p : List Char) {x : Arr M}, AxesAre x.ndim (some axes) [a, b] →
    LevelsOk mode w.dec_len (x.shape.getD a 0) p.length →
    LevelsOk mode w.dec_len (x.shape.getD b 0) p.length →
    ∃ d, (packet2 w mode axes m sz).along x p = .ok d := by
  intro p
  induction p with
  | nil => intro x _ _ _; exact ⟨x, rfl⟩
  | cons q p ih =>
    intro x ha hl hl'
    have h0 : LenOk mode (x.shape.getD a 0) ∧ LenOk mode (x.shape.getD b 0) :=
      ⟨hl 0 (by simp), hl' 0 (by simp)⟩
    unfold PKind.along
    rw [packet2_dec hw ha, if_pos h0]
    simp only
    have hne : a ≠ b := by simpa using ha.2.1
    have h1 : a < x.shape.length := ha.2.2 a (by simp)
    have h2 : b < x.shape.length := ha.2.2 b (by simp)
    have key : ∀ u v : Char, ∃ d, (packet2 w mode axes m sz).along
        ((x.analyze (a, w, mode) u).analyze (b, w, mode) v) p = .ok d := by
      intro u v
      have es : ((x.analyze (a, w, mode) u).analyze (b, w, mode) v).shape =
          (x.shape.set a (coeffLen mode (x.shape.getD a 0) w.dec_len)).set b
            (coeffLen mode (x.shape.getD b 0) w.dec_len) := by
        rw [Arr.shape_analyze, Arr.shape_analyze]
        simp only
        rw [getD_set h1, if_neg (Ne.symm hne)]
      refine ih ?_ ?_ ?_
      · unfold Arr.ndim at ha ⊢; rw [es]; simpa using ha
      · intro j hj
        rw [es, getD_set (by simpa using h2), if_neg hne, getD_set h1, if_pos rfl]
        have := hl (j + 1) (by simpa using hj)
        rwa [approxLen, Function.iterate_succ_apply] at this
      · intro j hj
        rw [es, getD_set (by simpa using h2), if_pos rfl]
        have := hl' (j + 1) (by simpa using hj)
        rwa [approxLen, Function.iterate_succ_apply] at this
    unfold pick2
    split_ifs <;> exact key _ _

/-! ### The specification of the nodes -/

theorem packet1_along_iter (w : Wavelet R) (mode : Mode) (ax : ℕ) (m : ℤ) (sz : Option (List ℕ)) :
    ∀ (p : List Char) (x : Arr M), (packet1 w mode ax m sz).along x p = iterDwt w mode (ax : ℤ) x p := by
  intro p
  induction p with
  | nil => intro x; rfl
  | cons q p ih =>
    intro x
    unfold PKind.along iterDwt
    simp only [packet1]
    cases h : dwtA w mode (ax : ℤ) x with
    | error e => rfl
    | ok c => exact ih _

theorem packet2_along_iter (w : Wavelet R) (mode : Mode) (axes : List ℤ) (m : ℤ) (sz : Option (List ℕ)) :
    ∀ (p : List Char) (x : Arr M), (packet2 w mode axes m sz).along x p = iterDwt2 w mode axes x p := by
  intro p
  induction p with
  | nil => intro x; rfl
  | cons q p ih =>
    intro x
    unfold PKind.along iterDwt2
    simp only [packet2]
    cases h : dwt2 x (.one w) (.one mode) axes with
    | error e => rfl
    | ok c => exact ih _

theorem packetN_along_iter (w : Wavelet R) (mode : Mode) (axes : List ℤ) (m : ℤ) (sz : Option (List ℕ)) :
    ∀ (p : List Key) (x : Arr M), (packetN w mode axes m sz).along x p = iterDwtn w mode axes x p := by
  intro p
  induction p with
  | nil => intro x; rfl
  | cons q p ih =>
    intro x
    unfold PKind.along iterDwtn
    simp only [packetN]
    cases h : dwtn x (.one w) (.one mode) (some axes) with
    | error e => rfl
    | ok c => exact ih _

/-! ### The constructors -/

theorem transformSize_ok {shape : List ℕ} {axes : List ℤ} {ax : List ℕ}
    (h : ax.map (fun n : ℕ => (n : ℤ)) =
        axes.map fun a : ℤ => if a < 0 then a + (shape.length : ℤ) else a)
    (hb : ∀ a ∈ ax, a < shape.length) :
    transformSize shape axes = .ok (ax.map fun a => shape.getD a 0) := by
  induction axes generalizing ax with
  | nil =>
    have : ax = [] := by simpa using h
    subst this
    rfl
  | cons z axes ih =>
    cases ax with
    | nil => simp at h
    | cons a ax =>
      simp only [List.map_cons, List.cons.injEq] at h
      have ha : AxisIs shape.length z a := ⟨h.1, hb a (by simp)⟩
      unfold transformSize
      rw [ha.pyIndex]
      simp only [ih h.2 fun a ha => hb a (by simp [ha]), Py_bind_ok, Py_pure, List.map_cons]

theorem WaveletPacket_eq {w : Wavelet R} {mode : Mode} {maxlevel : Option ℤ} {axis : ℤ} {x : Arr M}
    {k : PKind Char (Arr M)} {t : PTree Char (Arr M)}
    (h : WaveletPacket w mode maxlevel axis x = .ok (k, t)) :
    ∃ ax m, AxisIs x.ndim axis ax ∧ k = packet1 w mode ax m (some x.shape) ∧ t = k.init (some x) := by
  unfold WaveletPacket at h
  simp only at h
  by_cases h0 : 0 ≤ (if axis < 0 then axis + (x.ndim : ℤ) else axis) ∧
      (if axis < 0 then axis + (x.ndim : ℤ) else axis) < x.ndim
  · rw [if_neg (not_not.2 h0)] at h
    refine ⟨(if axis < 0 then axis + (x.ndim : ℤ) else axis).toNat, ?_⟩
    have hA : AxisIs x.ndim axis (if axis < 0 then axis + (x.ndim : ℤ) else axis).toNat := by
      refine ⟨?_, ?_⟩ <;> omega
    cases maxlevel with
    | some m =>
      simp only [Py_pure] at h
      injection h with h
      injection h with h1 h2
      exact ⟨m, hA, h1.symm, by rw [← h2, ← h1]⟩
    | none =>
      simp only at h
      cases hm : dwtMaxLevel (x.shape.getD (if axis < 0 then axis + (x.ndim : ℤ) else axis).toNat 0)
          w.dec_len with
      | error e => rw [hm] at h; cases h
      | ok m =>
        rw [hm] at h
        simp only [Py_bind_ok, Py_pure] at h
        injection h with h
        injection h with h1 h2
        exact ⟨m, hA, h1.symm, by rw [← h2, ← h1]⟩
  · rw [if_pos h0] at h
    cases h

theorem WaveletPacket2D_eq {w : Wavelet R} {mode : Mode} {maxlevel : Option ℤ} {axes : List ℤ} {x : Arr M}
    {k : PKind Char (Arr M)} {t : PTree Char (Arr M)}
    (h : WaveletPacket2D w mode maxlevel axes x = .ok (k, t)) :
    ∃ m, k = packet2 w mode axes m (some x.shape) ∧ t = k.init (some x) := by
  unfold WaveletPacket2D at h
  by_cases h1 : numUnique axes ≠ 2
  · rw [if_pos h1] at h; cases h
  rw [if_neg h1] at h
  by_cases h2 : x.ndim < 2
  · simp only [if_pos h2] at h; cases h
  simp only [if_neg h2] at h
  cases h3 : transformSize x.shape axes with
  | error e => rw [h3] at h; cases h
  | ok sizes =>
    rw [h3] at h
    simp only [Py_bind_ok] at h
    cases h4 : packetLevel w sizes maxlevel with
    | error e => rw [h4] at h; cases h
    | ok m =>
      rw [h4] at h
      simp only [Py_bind_ok, Py_pure] at h
      injection h with h
      injection h with h1 h2
      exact ⟨m, h1.symm, by rw [← h2, ← h1]⟩

theorem WaveletPacketND_eq {w : Wavelet R} {mode : Mode} {maxlevel : Option ℤ} {axes : Option (List ℤ)}
    {x : Arr M} {k : PKind Key (Arr M)} {t : PTree Key (Arr M)}
    (h : WaveletPacketND w mode maxlevel axes x = .ok (k, t)) :
    ∃ m, k = packetN w mode (axes.getD (rangeAxes x.ndim)) m (some x.shape) ∧ t = k.init (some x) := by
  unfold WaveletPacketND at h
  simp only at h
  by_cases h1 : numUnique (axes.getD (rangeAxes x.ndim)) ≠ (axes.getD (rangeAxes x.ndim)).length
  · rw [if_pos h1] at h; cases h
  rw [if_neg h1] at h
  by_cases h2 : x.ndim = 0
  · simp only [if_pos h2] at h; cases h
  simp only [if_neg h2] at h
  by_cases h5 : x.ndim < (axes.getD (rangeAxes x.ndim)).length
  · simp only [if_pos h5] at h; cases h
  simp only [if_neg h5] at h
  cases h3 : transformSize x.shape (axes.getD (rangeAxes x.ndim)) with
  | error e => rw [h3] at h; cases h
  | ok sizes =>
    rw [h3] at h
    simp only [Py_bind_ok] at h
    cases h4 : packetLevel w sizes maxlevel with
    | error e => rw [h4] at h; cases h
    | ok m =>
      rw [h4] at h
      simp only [Py_bind_ok, Py_pure] at h
      injection h with h
      injection h with h1 h2
      exact ⟨m, h1.symm, by rw [← h2, ← h1]⟩

/-- `wp[path].data` on an unmodified tree. -/
theorem PKind.Inv.fetch {P D : Type} [DecidableEq P] {k : PKind P D} {x : D} {t : PTree P D}
    (h : k.Inv x t) {path : List P} (hq : ∀ q ∈ path, q ∈ k.parts) (hl : (path.length : ℤ) ≤ k.maxlevel) :
    (k.fetch t path).1 = (k.along x path).map some := by
  have h1 := h.getItem_result path [] x h.root rfl hq (by simpa using hl)
  obtain ⟨g1, g2, g3⟩ := h.getItem path [] h.root
  unfold PKind.fetch
  rcases hg : k.getItem t [] path with ⟨r, t'⟩
  rw [hg] at h1 g1 g2 g3
  simp only at h1
  cases ha : k.along x path with
  | error e => rw [ha] at h1; simp only at h1; subst h1; rfl
  | ok d =>
    rw [ha] at h1
    simp only at h1
    subst h1
    obtain ⟨-, e2⟩ := g3 _ rfl
    obtain ⟨d', a1, a2⟩ := g1.dataAt e2
    simp only [List.nil_append] at a1 a2
    rw [ha] at a1
    injection a1 with a1
    subst a1
    simp only [List.nil_append, a2]
    rfl

end Pywt
