import Verif.Proof.EditN
import Verif.Proof.Stable

/-!
# Property C63: what edits of the coefficients do to the reconstructed signal
-/

set_option autoImplicit false

namespace Pywt

open Finset Spec

section

variable {R : Type} [CommRing R]

/-- **C63 (isometry).** For an orthogonal wavelet in periodization mode and lengths divisible by `2^level`, two signals are as far from each
other as their coefficients. -/
theorem C63_wavedec_isometry {w : Wavelet R} (h : OrthogonalBank w) {l : ℕ} {x y : List R} {cs es : List (List R)}
    (hl : y.length = x.length) (hx : 2 ^ l ∣ x.length) (hr : wavedec w .periodization (some (l : ℤ)) x = .ok cs)
    (hy : wavedec w .periodization (some (l : ℤ)) y = .ok es) : dist2s es cs = dist2 y x :=
  wavedec_dist h hl hx hr hy

/-- **C63 (edits).** Replace the coefficients of a signal by any others of the same lengths: the reconstruction succeeds, has
the length of the signal, and is exactly as far from the signal as the new coefficients are from the old ones. -/
theorem C63_edit_error {w : Wavelet R} (h : OrthogonalBank w) {l : ℕ} {x : List R} {cs cs' : List (List R)} (hx0 : x ≠ [])
    (hx : 2 ^ l ∣ x.length) (hr : wavedec w .periodization (some (l : ℤ)) x = .ok cs)
    (hl : cs'.map List.length = cs.map List.length) :
    ∃ y, waverec w .periodization (cs'.map some) = .ok (some y) ∧ y.length = x.length ∧ dist2 y x = dist2s cs' cs := by
  obtain ⟨y, y1, y2, y3⟩ := waverec_edited h hx0 hx hr hl
  exact ⟨y, y1, y2, (wavedec_dist h y2 hx hr y3).symm⟩

example : OrthogonalBank rotQ ∧ [(1 : ℚ), 2, 5, 0] ≠ [] ∧ 2 ^ 1 ∣ [(1 : ℚ), 2, 5, 0].length ∧
    wavedec rotQ .periodization (some ((1 : ℕ) : ℤ)) [(1 : ℚ), 2, 5, 0] = .ok [[2, 4], [-1, 3]] ∧
    [[(2 : ℚ), 0], [7, 3]].map List.length = [[(2 : ℚ), 4], [-1, 3]].map List.length ∧
    dist2s [[(2 : ℚ), 0], [7, 3]] [[2, 4], [-1, 3]] = 80 :=
  ⟨rotQ_orthogonal, by decide, by decide, by decide +kernel, rfl, by decide +kernel⟩

/-- **C63 (edits, n-D).** The same for `wavedecn` and `waverecn`, with a wavelet for each axis, on any axes: the new coefficients
have the keys and shapes of the old ones. -/
theorem C63_edit_error_nd {st : List (Stage R)} (hne : st ≠ []) {x : Arr R} {wavelet : PerAxis (Wavelet R)}
    {mode : PerAxis Mode} {axes : Option (List ℤ)} {l : ℕ} (hr : Resolves x.ndim wavelet mode axes st)
    (hst : OrthogonalStages st x.shape (2 ^ l)) {A A' : Arr R} {ds ds' : List (List (Key × Arr R))}
    (hx : wavedecn x wavelet mode (some (l : ℤ)) axes = .ok (.arr A :: ds.map Item.ofDict))
    (hA : A'.shape = A.shape) (hds : layout ds' = layout ds) :
    ∃ y, waverecn (.arr A' :: ds'.map Item.ofDict) wavelet mode axes = .ok (.arr y) ∧ y.shape = x.shape ∧
      Spec.Arr.dist2 y x = Spec.Arr.dist2 A' A + dist2D ds' ds := by
  obtain ⟨y, y1, y2, y3⟩ := waverecn_edited hne hr hst hx hA hds
  exact ⟨y, y1, y2, (wavedecn_dist hne hr hst y2 hx y3).symm⟩

/-- **C63 (isometry, n-D).** Two arrays are as far from each other as their coefficients. -/
theorem C63_wavedecn_isometry {st : List (Stage R)} (hne : st ≠ []) {x y : Arr R} {wavelet : PerAxis (Wavelet R)}
    {mode : PerAxis Mode} {axes : Option (List ℤ)} {l : ℕ} (hr : Resolves x.ndim wavelet mode axes st)
    (hst : OrthogonalStages st x.shape (2 ^ l)) (hs : y.shape = x.shape) {A B : Arr R}
    {ds es : List (List (Key × Arr R))}
    (hx : wavedecn x wavelet mode (some (l : ℤ)) axes = .ok (.arr A :: ds.map Item.ofDict))
    (hy : wavedecn y wavelet mode (some (l : ℤ)) axes = .ok (.arr B :: es.map Item.ofDict)) :
    Spec.Arr.dist2 B A + dist2D es ds = Spec.Arr.dist2 y x :=
  wavedecn_dist hne hr hst hs hx hy

example : Resolves (R := ℚ) 2 (.one rotQ) (.one .periodization) none
      [(0, rotQ, .periodization), (1, rotQ, .periodization)] ∧
    OrthogonalStages [(0, rotQ, .periodization), (1, rotQ, .periodization)] [2, 2] (2 ^ 1) ∧
    wavedecn (⟨[2, 2], [25, 0, 50, 25], rfl⟩ : Arr ℚ) (.one rotQ) (.one .periodization) (some ((1 : ℕ) : ℤ)) none =
      .ok (.arr ⟨[1, 1], [49], rfl⟩ :: ([[(['a', 'd'], (⟨[1, 1], [18], rfl⟩ : Arr ℚ)), (['d', 'a'], ⟨[1, 1], [-32], rfl⟩),
        (['d', 'd'], ⟨[1, 1], [1], rfl⟩)]].map Item.ofDict)) := by
  refine ⟨⟨rfl, rfl, rfl⟩, ⟨by simp, ?_⟩, by decide +kernel⟩
  intro s hs
  simp only [List.mem_cons, List.not_mem_nil, or_false] at hs
  rcases hs with rfl | rfl <;> exact ⟨rfl, rotQ_orthogonal, by decide, by decide, by decide⟩

end

section

variable {K : Type} [Field K] [LinearOrder K] [IsStrictOrderedRing K]

/-- **C63 (denoising).** Threshold the coefficient arrays (mode soft, hard or garrote, a positive threshold for each array or none): the
reconstruction has at most the energy of the signal, and its squared distance from the signal is at most the sum of the
squared thresholds, one for each entry. -/
theorem C63_denoise {w : Wavelet K} (h : OrthogonalBank w) {l : ℕ} {x : List K} {cs cs' : List (List K)} (hx0 : x ≠ [])
    (hx : 2 ^ l ∣ x.length) (hr : wavedec w .periodization (some (l : ℤ)) x = .ok cs) {mode : String}
    (hm : mode ∈ ["soft", "hard", "garrote", "garotte"]) {ts : List (Option K)} (ht : ThresholdedAll mode ts cs cs') :
    ∃ y, waverec w .periodization (cs'.map some) = .ok (some y) ∧ y.length = x.length ∧
      dist2 y x ≤ thresholdError ts cs ∧ energy y ≤ energy x := by
  obtain ⟨t1, t2, t3⟩ := thresholdedAll_lens hm ht
  obtain ⟨y, y1, y2, y3⟩ := waverec_edited h hx0 hx hr t1
  refine ⟨y, y1, y2, (wavedec_dist h y2 hx hr y3).symm ▸ t2, ?_⟩
  rw [← C17_wavedec_energy h hx hr, ← C17_wavedec_energy h (y2 ▸ hx) y3]
  exact t3

example : ThresholdedAll "soft" [none, some (2 : ℚ)] [[2, 4], [-1, 3]] [[2, 4], [0, 1]] ∧
    ThresholdedAll "garrote" [some (1 : ℚ), some 3] [[2, 4], [-1, 3]] [[3 / 2, 15 / 4], [0, 0]] ∧
    thresholdError [none, some (2 : ℚ)] [[2, 4], [-1, 3]] = 8 := by
  refine ⟨⟨rfl, by norm_num, ?_, trivial⟩, ⟨by norm_num, ?_, by norm_num, ?_, trivial⟩, by decide +kernel⟩ <;>
    (unfold Thresholded; decide +kernel)

/-- **C63 (soft denoising contracts).** Denoise two signals with the same positive soft thresholds: the results are not farther from
each other than the signals. -/
theorem C63_soft_denoise_contracts {w : Wavelet K} (h : OrthogonalBank w) {l : ℕ} {x y : List K}
    {cs cs' es es' : List (List K)} (hx0 : x ≠ []) (hl : y.length = x.length) (hx : 2 ^ l ∣ x.length)
    (hr : wavedec w .periodization (some (l : ℤ)) x = .ok cs)
    (hs : wavedec w .periodization (some (l : ℤ)) y = .ok es) {ts : List (Option K)}
    (hc : ThresholdedAll "soft" ts cs cs') (he : ThresholdedAll "soft" ts es es') :
    ∃ x' y', waverec w .periodization (cs'.map some) = .ok (some x') ∧
      waverec w .periodization (es'.map some) = .ok (some y') ∧ dist2 y' x' ≤ dist2 y x := by
  obtain ⟨t1, -, -⟩ := thresholdedAll_lens (by simp) hc
  obtain ⟨u1, -, -⟩ := thresholdedAll_lens (by simp) he
  obtain ⟨x', x1, x2, x3⟩ := waverec_edited h hx0 hx hr t1
  obtain ⟨y', y1, y2, y3⟩ := waverec_edited h (by
    intro h0
    rw [h0] at hl
    exact hx0 (List.length_eq_zero_iff.mp hl.symm)) (hl ▸ hx) hs u1
  refine ⟨x', y', x1, y1, ?_⟩
  rw [← wavedec_dist h (y2.trans (hl.trans x2.symm)) (x2 ▸ hx) x3 y3, ← wavedec_dist h hl hx hr hs]
  exact softAll_contracts he hc

/-- **C63 (best approximation).** Keep the coefficients with `|v| ≥ t` (mode `hard`) and drop the others: no reconstruction
from coefficients of which at most as many are not zero is closer to the signal. -/
theorem C63_best_terms {w : Wavelet K} (h : OrthogonalBank w) {l : ℕ} {x : List K} {cs cs' cs'' : List (List K)} (hx0 : x ≠ [])
    (hx : 2 ^ l ∣ x.length) (hr : wavedec w .periodization (some (l : ℤ)) x = .ok cs) {t : K} (ht : 0 ≤ t)
    (hc : List.Forall₂ (Thresholded t "hard") cs cs') (hl : cs''.map List.length = cs.map List.length)
    (hn : nonzeros cs'' ≤ nonzeros cs') :
    ∃ y y'', waverec w .periodization (cs'.map some) = .ok (some y) ∧
      waverec w .periodization (cs''.map some) = .ok (some y'') ∧ dist2 y x ≤ dist2 y'' x := by
  obtain ⟨y, y1, -, y3⟩ := C63_edit_error h hx0 hx hr (hardAll_lens hc)
  obtain ⟨z, z1, -, z3⟩ := C63_edit_error h hx0 hx hr hl
  refine ⟨y, z, y1, z1, ?_⟩
  have hb := hardAll_best ht hc hl
  have h0 : 0 ≤ t ^ 2 * ((nonzeros cs' : ℕ) - (nonzeros cs'' : ℕ) : K) :=
    mul_nonneg (sq_nonneg _) (sub_nonneg.mpr (by exact_mod_cast hn))
  rw [y3, z3]
  linarith

example : List.Forall₂ (Thresholded (3 : ℚ) "hard") [[2, 4], [-1, 3]] [[0, 4], [0, 3]] ∧
    nonzeros [[(2 : ℚ), 5], [0, 0]] ≤ nonzeros [[(0 : ℚ), 4], [0, 3]] := by
  refine ⟨.cons ?_ (.cons ?_ .nil), by decide +kernel⟩ <;> (unfold Thresholded; decide +kernel)

end

/-- **C63 (stability of `wavedec`).** For every wavelet, mode and level: a change of the samples by at most `e` changes no outcome and
no length, and changes every coefficient by at most `e` times the `levels`-th power of a number that depends on the
filters only. -/
theorem C63_wavedec_stable {w : Wavelet ℝ} (hw : w.Ok) {mode : Mode} {level : Option ℤ} {x x' : List ℝ}
    {cs : List (List ℝ)} {e : ℝ} (he : 0 ≤ e) (hx : Within e x' x) (h : wavedec w mode level x = .ok cs) :
    ∃ cs', wavedec w mode level x' = .ok cs' ∧
      List.Forall₂ (Within (decGain mode w ^ (cs.length - 1) * e)) cs' cs :=
  wavedec_stable hw he hx h

example : halfBank.Ok ∧ Within (1 / 4) [5 / 4, -1, 0] [1, -1, 0] ∧
    ∃ cs, wavedec halfBank .reflect (some ((1 : ℕ) : ℤ)) [(1 : ℝ), -1, 0] = .ok cs := by
  have hw : halfBank.Ok := by simp [halfBank, Wavelet.Ok]
  refine ⟨hw, ?_, cascade .reflect halfBank.dec_lo halfBank.dec_hi 1 [1, -1, 0], ?_⟩
  · refine .cons ?_ (.cons ?_ (.cons ?_ .nil)) <;> norm_num [abs_le]
  · rw [C09_wavedec_explicit_level hw, if_neg (by omega), Int.toNat_natCast, if_pos]
    intro j hj
    obtain rfl : j = 0 := by omega
    exact ⟨by simp [approxLen], by simp [approxLen]⟩

/-- **C63 (stability of `waverec`).** For every wavelet and mode: a change of the coefficients by at most `e` (quantisation, lossy
compression) changes every reconstructed sample by at most `e * max(1, ∑|rec_lo| + ∑|rec_hi|)^levels`. -/
theorem C63_waverec_stable {w : Wavelet ℝ} {mode : Mode} {cs cs' : List (Option (List ℝ))} {e : ℝ} (he : 0 ≤ e)
    (hcs : List.Forall₂ (Option.Rel (Within e)) cs' cs) {y : Option (List ℝ)} (h : waverec w mode cs = .ok y) :
    ∃ y', waverec w mode cs' = .ok y' ∧ Option.Rel (Within (recGain w ^ (cs.length - 1) * e)) y' y :=
  waverec_stable he hcs h

example : List.Forall₂ (Option.Rel (Within (1 / 4))) [some [5 / 4], none, some [2, 3]] [some [1], none, some [2, 3]] ∧
    ∃ y, waverec halfBank .periodization [some [(1 : ℝ)], some [2], some [2, 3]] = .ok y := by
  refine ⟨.cons (.some (.cons ?_ .nil)) (.cons .none (.cons (.some (.cons ?_ (.cons ?_ .nil))) .nil)), ?_⟩
  · norm_num [abs_le]
  · norm_num
  · norm_num
  · have hpr : PR halfBank.dec_lo halfBank.dec_hi halfBank.rec_lo halfBank.rec_hi := by
      refine PR_of_bounded rfl rfl rfl (by simp [halfBank]) ?_
      intro p hp s hs
      simp only [halfBank, List.length_cons, List.length_nil, Nat.reduceAdd, Nat.reduceMul] at hs
      rcases (show p = 0 ∨ p = 1 by omega) with rfl | rfl <;>
      rcases (show s = 0 ∨ s = 1 ∨ s = 2 ∨ s = 3 by omega) with rfl | rfl | rfl | rfl <;>
      norm_num [halfBank, parityCoeff, sum_range_succ, List.getD]
    obtain ⟨y, h, -⟩ := C54_wavedec_waverec (w := halfBank) (a := [(1 : ℝ)]) (ds := [[2], [2, 3]])
      (by simp [halfBank, Wavelet.Ok]) hpr (by simp) ⟨rfl, rfl, trivial⟩
    exact ⟨_, h⟩

end Pywt
