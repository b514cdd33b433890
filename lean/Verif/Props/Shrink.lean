import Verif.Proof.Shrink
import Verif.Props.Edit

/-!
# Property C72: thresholding orthogonal coefficients solves the penalised least-squares problem
-/

set_option autoImplicit false

namespace Pywt

open Finset Spec

section
variable {K : Type} [Field K] [LinearOrder K] [IsStrictOrderedRing K]

theorem wavedec_lens_eq {w : Wavelet K} (hw : w.Ok) {l : ℕ} {x z : List K} {cs zs : List (List K)} (hl : z.length = x.length)
    (hr : wavedec w .periodization (some (l : ℤ)) x = .ok cs) (hz : wavedec w .periodization (some (l : ℤ)) z = .ok zs) :
    zs.map List.length = cs.map List.length := by
  obtain ⟨-, rfl⟩ := wavedec_cascade hw hr
  obtain ⟨-, rfl⟩ := wavedec_cascade hw hz
  have h3 : w.dec_hi.length = w.dec_lo.length := hw.2.2.1
  simp only [cascade, List.map_cons, List.map_reverse, List.map_map, approx_length, hl, List.cons.injEq, true_and]
  congr 1
  refine List.map_congr_left fun j _ => ?_
  simp only [Function.comp_apply]
  rw [detail_length _ _ _ h3, detail_length _ _ _ h3, approx_length, approx_length, hl]

/-- **C72 (soft).** Threshold the coefficients of a signal `x` softly (orthogonal wavelet, periodization, any positive
threshold per array or none) and reconstruct.  The result `y` is the one and only minimiser of
`‖z - x‖² + 2 ∑ t |coefficients of z|` over all signals `z`: any other `z` is worse by at least `‖z - y‖²`. -/
theorem C72_soft_minimises {w : Wavelet K} (h : OrthogonalBank w) {l : ℕ} {x : List K} {cs cs' : List (List K)} (hx0 : x ≠ [])
    (hx : 2 ^ l ∣ x.length) (hr : wavedec w .periodization (some (l : ℤ)) x = .ok cs) {ts : List (Option K)}
    (ht : ThresholdedAll "soft" ts cs cs') :
    ∃ y, waverec w .periodization (cs'.map some) = .ok (some y) ∧ y.length = x.length ∧
      wavedec w .periodization (some (l : ℤ)) y = .ok cs' ∧
      ∀ z zs, z.length = x.length → wavedec w .periodization (some (l : ℤ)) z = .ok zs →
        dist2 y x + 2 * penalty1 ts cs' + dist2 z y ≤ dist2 z x + 2 * penalty1 ts zs := by
  obtain ⟨t1, -, -⟩ := thresholdedAll_lens (by simp) ht
  obtain ⟨y, y1, y2, y3⟩ := waverec_edited h hx0 hx hr t1
  refine ⟨y, y1, y2, y3, fun z zs hz hzs => ?_⟩
  rw [← wavedec_dist h y2 hx hr y3, ← wavedec_dist h hz hx hr hzs, ← wavedec_dist h (hz.trans y2.symm) (y2 ▸ hx) y3 hzs]
  exact softAll_prox ht (wavedec_lens_eq h.1 hz hr hzs)

example : OrthogonalBank rotQ ∧ [(1 : ℚ), 2, 5, 0] ≠ [] ∧ 2 ^ 1 ∣ [(1 : ℚ), 2, 5, 0].length ∧
    wavedec rotQ .periodization (some ((1 : ℕ) : ℤ)) [(1 : ℚ), 2, 5, 0] = .ok [[2, 4], [-1, 3]] ∧
    ThresholdedAll "soft" [none, some (2 : ℚ)] [[2, 4], [-1, 3]] [[2, 4], [0, 1]] ∧
    penalty1 [none, some (2 : ℚ)] [[2, 4], [0, 1]] = 2 := by
  refine ⟨rotQ_orthogonal, by decide, by decide, by decide +kernel, ⟨rfl, by norm_num, ?_, trivial⟩, by decide +kernel⟩
  unfold Thresholded
  decide +kernel

/-- **C72 (hard).** With mode `hard` the result minimises `‖z - x‖² + ∑ t² [coefficient of z ≠ 0]` over all signals `z`. -/
theorem C72_hard_minimises {w : Wavelet K} (h : OrthogonalBank w) {l : ℕ} {x : List K} {cs cs' : List (List K)} (hx0 : x ≠ [])
    (hx : 2 ^ l ∣ x.length) (hr : wavedec w .periodization (some (l : ℤ)) x = .ok cs) {ts : List (Option K)}
    (ht : ThresholdedAll "hard" ts cs cs') :
    ∃ y, waverec w .periodization (cs'.map some) = .ok (some y) ∧ y.length = x.length ∧
      wavedec w .periodization (some (l : ℤ)) y = .ok cs' ∧
      ∀ z zs, z.length = x.length → wavedec w .periodization (some (l : ℤ)) z = .ok zs →
        dist2 y x + penalty0 ts cs' ≤ dist2 z x + penalty0 ts zs := by
  obtain ⟨t1, -, -⟩ := thresholdedAll_lens (by simp) ht
  obtain ⟨y, y1, y2, y3⟩ := waverec_edited h hx0 hx hr t1
  refine ⟨y, y1, y2, y3, fun z zs hz hzs => ?_⟩
  rw [← wavedec_dist h y2 hx hr y3, ← wavedec_dist h hz hx hr hzs]
  exact hardAll_prox ht (wavedec_lens_eq h.1 hz hr hzs)

example : ThresholdedAll "hard" [none, some (2 : ℚ)] [[2, 4], [-1, 3]] [[2, 4], [0, 3]] ∧
    penalty0 [none, some (2 : ℚ)] [[2, 4], [0, 3]] = 4 := by
  refine ⟨⟨rfl, by norm_num, ?_, trivial⟩, by decide +kernel⟩
  unfold Thresholded
  decide +kernel

/-- **C72 (dropping arrays).** Fill some of the coefficient arrays with zeros and reconstruct.  The result is the orthogonal
projection of the signal: among all signals whose coefficients in these arrays vanish it is the closest one, with the
theorem of Pythagoras. -/
theorem C72_zeroing_projects {w : Wavelet K} (h : OrthogonalBank w) {l : ℕ} {x : List K} {cs : List (List K)} (hx0 : x ≠ [])
    (hx : 2 ^ l ∣ x.length) (hr : wavedec w .periodization (some (l : ℤ)) x = .ok cs) {keep : List Bool}
    (hk : keep.length = cs.length) :
    ∃ y, waverec w .periodization ((keepOnly keep cs).map some) = .ok (some y) ∧ y.length = x.length ∧
      wavedec w .periodization (some (l : ℤ)) y = .ok (keepOnly keep cs) ∧
      ∀ z zs, z.length = x.length → wavedec w .periodization (some (l : ℤ)) z = .ok zs → keepOnly keep zs = zs →
        dist2 z x = dist2 y x + dist2 z y := by
  obtain ⟨y, y1, y2, y3⟩ := waverec_edited h hx0 hx hr (keepOnly_lens hk)
  refine ⟨y, y1, y2, y3, fun z zs hz hzs hkz => ?_⟩
  rw [← wavedec_dist h y2 hx hr y3, ← wavedec_dist h hz hx hr hzs, ← wavedec_dist h (hz.trans y2.symm) (y2 ▸ hx) y3 hzs]
  exact keepOnly_dist hk (wavedec_lens_eq h.1 hz hr hzs) hkz

example : keepOnly [true, false] [[(2 : ℚ), 4], [-1, 3]] = [[2, 4], [0, 0]] ∧
    wavedec rotQ .periodization (some ((1 : ℕ) : ℤ)) [(8 : ℚ) / 5, 6 / 5, 4, 3] = .ok [[2, 5], [0, 0]] := by
  decide +kernel

/-- **C72 (n-D).** The same for `wavedecn` and `waverecn`, on any axes, with a wavelet for each axis: the reconstruction of the
softly thresholded coefficients is the one and only minimiser of the penalised distance, that of the hard thresholded ones a
minimiser. -/
theorem C72_shrink_nd {st : List (Stage K)} (hne : st ≠ []) {x : Arr K} {wavelet : PerAxis (Wavelet K)}
    {mode : PerAxis Mode} {axes : Option (List ℤ)} {l : ℕ} (hr : Resolves x.ndim wavelet mode axes st)
    (hst : OrthogonalStages st x.shape (2 ^ l)) {A A' : Arr K} {ds ds' : List (List (Key × Arr K))}
    (hx : wavedecn x wavelet mode (some (l : ℤ)) axes = .ok (.arr A :: ds.map Item.ofDict))
    (hds : layout ds' = layout ds) {ts : List (Option K)} {thr : String} (hm : thr ∈ ["soft", "hard"])
    (ht : ThresholdedArrs thr ts (coefArrs A ds) (coefArrs A' ds')) :
    ∃ y, waverecn (.arr A' :: ds'.map Item.ofDict) wavelet mode axes = .ok (.arr y) ∧ y.shape = x.shape ∧
      wavedecn y wavelet mode (some (l : ℤ)) axes = .ok (.arr A' :: ds'.map Item.ofDict) ∧
      ∀ (z B : Arr K) es, z.shape = x.shape →
        wavedecn z wavelet mode (some (l : ℤ)) axes = .ok (.arr B :: es.map Item.ofDict) →
        (thr = "soft" → Spec.Arr.dist2 y x + 2 * penalty1 ts ((coefArrs A' ds').map Arr.data) + Spec.Arr.dist2 z y ≤
          Spec.Arr.dist2 z x + 2 * penalty1 ts ((coefArrs B es).map Arr.data)) ∧
        (thr = "hard" → Spec.Arr.dist2 y x + penalty0 ts ((coefArrs A' ds').map Arr.data) ≤
          Spec.Arr.dist2 z x + penalty0 ts ((coefArrs B es).map Arr.data)) := by
  obtain ⟨t1, t2⟩ := thresholdedArrs_data hm ht
  have hA : A'.shape = A.shape := (List.cons.inj t2).1
  obtain ⟨y, y1, y2, y3⟩ := waverecn_edited hne hr hst hx hA hds
  have hyd : y.ndim = x.ndim := by unfold Arr.ndim; rw [y2]
  refine ⟨y, y1, y2, y3, fun z B es hz hzs => ?_⟩
  obtain ⟨l1, l2⟩ := wavedecn_layouts hne hr hst hz hx hzs
  rw [← wavedecn_dist hne hr hst y2 hx y3, ← wavedecn_dist hne hr hst hz hx hzs,
    ← wavedecn_dist hne (hyd.symm ▸ hr) (y2.symm ▸ hst) (hz.trans y2.symm) y3 hzs, coefArrs_dist hds, coefArrs_dist l2,
    coefArrs_dist (l2.trans hds.symm)]
  refine ⟨?_, ?_⟩
  · rintro rfl
    exact softAll_prox t1 (coefArrs_lens l1 l2)
  · rintro rfl
    exact hardAll_prox t1 (coefArrs_lens l1 l2)

example : ThresholdedArrs "soft" [none, some (2 : ℚ), some 40, some 1]
    (coefArrs (⟨[1, 1], [49], rfl⟩ : Arr ℚ) [[(['a', 'd'], (⟨[1, 1], [18], rfl⟩ : Arr ℚ)), (['d', 'a'], ⟨[1, 1], [-32], rfl⟩),
      (['d', 'd'], ⟨[1, 1], [1], rfl⟩)]])
    (coefArrs (⟨[1, 1], [49], rfl⟩ : Arr ℚ) [[(['a', 'd'], (⟨[1, 1], [16], rfl⟩ : Arr ℚ)), (['d', 'a'], ⟨[1, 1], [0], rfl⟩),
      (['d', 'd'], ⟨[1, 1], [0], rfl⟩)]]) := by
  refine ⟨rfl, by norm_num, by decide +kernel, by norm_num, by decide +kernel, by norm_num, by decide +kernel, trivial⟩

end

end Pywt
