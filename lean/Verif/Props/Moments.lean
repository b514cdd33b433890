import Verif.Proof.Moments2
import Verif.Proof.MomentsTable
import Verif.Proof.Local
import Verif.Proof.Examples
import Verif.Props.Multi
import Verif.Props.Swt

/-!
# C57, C58: vanishing moments, and the samples a coefficient depends on

Specification used: `Spec.IsPoly`, `Spec.moment`, `Spec.Vanishing`, `Spec.windowEnd`, `Spec.InWindow`,
`Spec.Interior`, `Spec.SwtInterior`, `Spec.Influences` (`Verif/Spec/Moments.lean`).
-/

set_option autoImplicit false

namespace Pywt
open Finset Spec

/-- The detail coefficients of level `j` in the list of a cascade. -/
theorem cascade_getD {R M : Type} [Semiring R] [AddCommGroup M] [Module R M] (mode : Mode) (lo hi : List R)
    (x : List M) {l j : ℕ} (h1 : 1 ≤ j) (h2 : j ≤ l) :
    (cascade mode lo hi l x).getD (l + 1 - j) [] = detail mode lo hi (j - 1) x := by
  obtain ⟨i, hi⟩ : ∃ i, l + 1 - j = i + 1 := ⟨l - j, by omega⟩
  rw [hi, cascade, List.getD_cons_succ, List.getD_eq_getElem (hn := by simp; omega)]
  simp only [List.getElem_reverse, List.getElem_map, List.getElem_range, List.length_map, List.length_range]
  congr 1
  omega

theorem wavedec_cascade {R M : Type} [Ring R] [AddCommGroup M] [Module R M] {w : Wavelet R} (hw : w.Ok)
    {mode : Mode} {l : ℕ} {x : List M} {cs : List (List M)}
    (h : wavedec w mode (some (l : ℤ)) x = .ok cs) :
    LevelsOk mode w.dec_len x.length l ∧ cs = cascade mode w.dec_lo w.dec_hi l x := by
  rw [C09_wavedec_explicit_level hw, if_neg (by omega)] at h
  split at h
  · rename_i hl
    simp only [Except.ok.injEq, Int.toNat_natCast] at h hl
    exact ⟨hl, h.symm⟩
  · simp at h

section
variable {R M : Type} [CommRing R] [AddCommGroup M] [Module R M]

/-! ### Polynomial signals -/

/-- **C57.** Whenever the high-pass filter has `p` vanishing moments, a detail coefficient of any level
is zero if the samples it looks at are those of a polynomial of degree below `p` — in every mode, whatever
the rest of the signal is. -/
theorem C57_wavedec_polynomial {w : Wavelet R} (hw : w.Ok) {mode : Mode} {l p : ℕ} {x : List M}
    {cs : List (List M)} (h : wavedec w mode (some (l : ℤ)) x = .ok cs) (hv : Vanishing p w.dec_hi)
    {j k : ℕ} (hj : 1 ≤ j) (hjl : j ≤ l) (hk : Interior mode w.dec_len x.length j k)
    {e : ℤ → M} (he : IsPoly R p e) (hx : ∀ n, InWindow mode w.dec_len j k n → x.getD n 0 = e n) :
    ∃ hk : k < (cs.getD (l + 1 - j) []).length, (cs.getD (l + 1 - j) [])[k] = 0 := by
  obtain ⟨-, rfl⟩ := wavedec_cascade hw h
  rw [cascade_getD _ _ _ _ hj hjl]
  obtain ⟨i, rfl⟩ : ∃ i, j = i + 1 := ⟨j - 1, by omega⟩
  have h3 : w.dec_hi.length = w.dec_lo.length := hw.2.2.1
  obtain ⟨g1, g2⟩ := detail_interior (hi := w.dec_hi) (show 2 ≤ w.dec_lo.length from hw.1) h3 hk hx
  refine ⟨g1, ?_⟩
  rw [conv_vanish (he.apxZ mode w.dec_lo i) hv, List.getD_eq_getElem (hn := g1)] at g2
  exact g2

example : Vanishing 2 legallQ.dec_hi ∧ Interior .symmetric 6 32 2 5 ∧
    wavedec legallQ .symmetric (some 2) ((List.range 32).map fun n : ℕ => (n : ℚ)) ≠ .error .value := by
  refine ⟨?_, by decide, ?_⟩
  · intro i hi
    rcases i with _ | _ | i
    · decide +kernel
    · decide +kernel
    · omega
  · rw [C09_wavedec_explicit_level legallQ_ok, if_neg (by decide), if_pos (by decide)]
    simp

/-- **C57.** The interior approximation coefficients of a polynomial signal are again samples of a
polynomial of the same degree. -/
theorem C57_wavedec_approx_polynomial {w : Wavelet R} (hw : w.Ok) {mode : Mode} {l p : ℕ} {x : List M}
    {cs : List (List M)} (h : wavedec w mode (some (l : ℤ)) x = .ok cs)
    {e : ℤ → M} (he : IsPoly R p e) (hx : ∀ n < x.length, x.getD n 0 = e n) :
    ∃ e' : ℤ → M, IsPoly R p e' ∧ ∀ k : ℕ, Interior mode w.dec_len x.length l k →
      ∃ hk : k < (cs.headD []).length, (cs.headD [])[k] = e' k := by
  obtain ⟨-, rfl⟩ := wavedec_cascade hw h
  refine ⟨_, he.apxZ mode w.dec_lo l, fun k hk => ?_⟩
  obtain ⟨g1, g2⟩ := approx_interior (mode := mode) (show 2 ≤ w.dec_lo.length from hw.1) (e := e) l k hk
    fun n hn => hx n (lt_of_le_of_lt hn.2 hk.2)
  refine ⟨g1, ?_⟩
  rw [List.getD_eq_getElem (hn := g1)] at g2
  exact g2

example : (∀ n < 32, ((List.range 32).map fun n : ℕ => (n : ℚ) ^ 2).getD n 0 = (fun z : ℤ => (z : ℚ) ^ 2) n) ∧
    IsPoly ℚ 3 (fun z : ℤ => (z : ℚ) ^ 2) := by
  refine ⟨fun n hn => ?_, fun i => if i = 2 then 1 else 0, fun n => ?_⟩
  · rw [List.getD_eq_getElem (hn := by simpa using hn)]; simp
  · simp

/-- **C57.** What a single level makes of a polynomial: if the samples under the filter are the values of
`Σ_q c_q·t^q`, `t` counting backwards from the last of them, the coefficient is `Σ_q c_q·m_q` with the
moments `m_q` of the filter. -/
theorem C57_dwt_moments {w : Wavelet R} (hw : w.Ok) {mode : Mode} {x cA cD : List M}
    (h : dwt w mode x = .ok (cA, cD)) {k : ℕ} (hk : Interior mode w.dec_len x.length 1 k) {p : ℕ} {c : ℕ → M}
    (hx : ∀ i < w.dec_len, x.getD (windowEnd mode w.dec_len 1 k - i) 0 = ∑ q ∈ range p, (i : R) ^ q • c q) :
    ∃ hk : k < cD.length, cD[k] = ∑ q ∈ range p, moment w.dec_hi q • c q := by
  have hok : SignalOk mode x := by
    by_contra hn
    rw [dwt_err hw hn] at h
    simp at h
  rw [dwt_ok hw hok] at h
  simp only [Except.ok.injEq, Prod.mk.injEq] at h
  obtain ⟨-, rfl⟩ := h
  have h3 : w.dec_hi.length = w.dec_len := hw.2.2.1
  have h2 : 2 ≤ w.dec_len := hw.1
  have hw1 : windowEnd mode w.dec_len 1 k = lastIdx mode w.dec_hi.length k := by
    rw [h3]; unfold windowEnd lastIdx; split_ifs <;> simp <;> ring_nf <;> omega
  obtain ⟨k1, k2⟩ := hk
  rw [hw1] at k1 k2 hx
  simp only [pow_one, show 2 - 1 = 1 by omega, mul_one] at k1
  obtain ⟨g1, g2⟩ := analysis_inside (mode := mode) (f := w.dec_hi) (x := x) (k := k) (by omega) (by omega) k2
  refine ⟨g1, ?_⟩
  rw [List.getD_eq_getElem (hn := g1)] at g2
  rw [g2]
  have : ∀ i ∈ range w.dec_hi.length, w.dec_hi.getD i 0 • x.getD (lastIdx mode w.dec_hi.length k - i) 0 =
      ∑ q ∈ range p, (w.dec_hi.getD i 0 * (i : R) ^ q) • c q := by
    intro i hi
    rw [mem_range, h3] at hi
    rw [hx i hi, Finset.smul_sum]
    exact sum_congr rfl fun q _ => by rw [smul_smul]
  rw [sum_congr rfl this, sum_comm]
  exact sum_congr rfl fun q _ => by rw [← Finset.sum_smul]; rfl

example : Interior .zero haarQ.dec_len 4 1 1 ∧
    ∀ i < haarQ.dec_len, [(0 : ℚ), 1, 2, 3].getD (windowEnd .zero haarQ.dec_len 1 1 - i) 0 =
      ∑ q ∈ range 2, (i : ℚ) ^ q • (if q = 0 then 3 else -1) := by
  refine ⟨by decide, by decide +kernel⟩

/-- **C57.** The same for the stationary transform: away from the ends of the signal (where the circular
filters wrap around) the detail coefficients of every level of a polynomial signal vanish. -/
theorem C57_swt_polynomial {w : Wavelet R} (hw : w.Ok) {l m p : ℕ} {x : List M}
    {r : List (List M × List M)} (h : swt w (some (l : ℤ)) (m : ℤ) false none x = .ok (.pairs r))
    (hv : Vanishing p w.dec_hi) {e : ℤ → M} (he : IsPoly R p e) (hx : ∀ n < x.length, x.getD n 0 = e n)
    {j n : ℕ} (hj : 1 ≤ j) (hjl : j ≤ l) (hn : SwtInterior w.dec_len m x.length j n) :
    ∃ hn : n < (r.getD (l - j) ([], [])).2.length, (r.getD (l - j) ([], [])).2[n] = 0 := by
  rw [swt_eq hw] at h
  split at h
  swap
  · simp at h
  simp only [Except.ok.injEq, Wavelet.normed, swtResult] at h
  simp only [Bool.false_eq_true, if_false, SwtCoeffs.pairs.injEq] at h
  subst h
  obtain ⟨i, rfl⟩ : ∃ i, j = i + 1 := ⟨j - 1, by omega⟩
  have e1 : (((List.range l).map fun j =>
      (swtApprox w.dec_lo m x (j + 1), swtDetail w.dec_lo w.dec_hi m x j)).reverse.getD
        (l - (i + 1)) ([], [])).2 = swtDetail w.dec_lo w.dec_hi m x i := by
    rw [List.getD_eq_getElem (hn := by simp only [List.length_reverse, List.length_map, List.length_range]; omega)]
    simp only [List.getElem_reverse, List.getElem_map, List.getElem_range, List.length_map, List.length_range]
    rw [show l - 1 - (l - (i + 1)) = i by omega]
  have hl : n < (swtDetail w.dec_lo w.dec_hi m x i).length := by
    have := hn.2
    simp only [swtDetail, atrous, List.length_map, List.length_range, swtApprox_length]
    omega
  have := swtDetail_poly (lo := w.dec_lo) (show w.dec_hi.length = w.dec_lo.length from hw.2.2.1) he hv hx hn
  rw [List.getD_eq_getElem (hn := hl)] at this
  rw [← e1] at hl
  refine ⟨hl, ?_⟩
  simp only [e1]
  exact this

example : SwtInterior legallQ.dec_len 0 32 2 10 ∧ ∃ r,
    swt legallQ (some 2) 0 false none ((List.range 32).map fun n : ℕ => (n : ℚ)) = .ok (.pairs r) := by
  refine ⟨by decide, ?_⟩
  have := swt_eq legallQ_ok 2 0 false none ((List.range 32).map fun n : ℕ => (n : ℚ))
  rw [if_pos (by simp)] at this
  exact ⟨_, this⟩

/-! ### Constants and straight lines: the whole signal -/

/-- **C57.** A constant signal, in every mode that extends it by the same constant (all but zero and
antisymmetric): all coefficients of a level are equal, also at the ends; the details are the sum of the
high-pass taps — zero for every wavelet with a vanishing moment — times the constant. -/
theorem C57_wavedec_constant {w : Wavelet R} (hw : w.Ok) {mode : Mode} (h1 : mode ≠ .zero)
    (h2 : mode ≠ .antisymmetric) {l N : ℕ} {c : M} {cs : List (List M)}
    (h : wavedec w mode (some (l : ℤ)) (List.replicate N c) = .ok cs) :
    (∀ v ∈ cs.headD [], v = w.dec_lo.sum ^ l • c) ∧
    ∀ j, 1 ≤ j → j ≤ l → ∀ v ∈ cs.getD (l + 1 - j) [], v = (w.dec_hi.sum * w.dec_lo.sum ^ (j - 1)) • c := by
  obtain ⟨hl, rfl⟩ := wavedec_cascade hw h
  rw [List.length_replicate] at hl
  constructor
  · intro v hv
    have : (cascade mode w.dec_lo w.dec_hi l (List.replicate N c)).headD [] =
        approx mode w.dec_lo l (List.replicate N c) := rfl
    rw [this, approx_replicate h1 h2 w.dec_lo c l hl] at hv
    exact List.eq_of_mem_replicate hv
  · intro j hj hjl v hv
    rw [cascade_getD _ _ _ _ hj hjl, detail,
      approx_replicate h1 h2 w.dec_lo c (j - 1) (fun i hi => hl i (by omega)),
      analysis_replicate h1 h2 (show LenOk mode (approxLen mode w.dec_lo.length N (j - 1)) from hl (j - 1) (by omega)),
      smul_smul] at hv
    exact List.eq_of_mem_replicate hv

example : wavedec legallQ .symmetric (some 2) (List.replicate 7 (3 : ℚ)) =
    .ok [List.replicate 5 3, List.replicate 5 0, List.replicate 6 0] := by decide +kernel

/-- **C57.** In the modes `smooth` and `antireflect` a straight line has no detail coefficients at all,
at any level, not even at the ends, when the wavelet has two vanishing moments. -/
theorem C57_wavedec_line {w : Wavelet R} (hw : w.Ok) {mode : Mode} (hm : mode = .smooth ∨ mode = .antireflect)
    (hv : Vanishing 2 w.dec_hi) {l N : ℕ} {c0 c1 : M} {cs : List (List M)}
    (h : wavedec w mode (some (l : ℤ)) ((List.range N).map fun n : ℕ => c0 + n • c1) = .ok cs) :
    (∃ d0 d1 : M, ∀ (k : ℕ) (hk : k < (cs.headD []).length), (cs.headD [])[k] = d0 + k • d1) ∧
    ∀ j, 1 ≤ j → j ≤ l → ∀ v ∈ cs.getD (l + 1 - j) [], v = 0 := by
  obtain ⟨hl, rfl⟩ := wavedec_cascade hw h
  have hlen : ((List.range N).map fun n : ℕ => c0 + n • c1).length = N := by simp
  rw [hlen] at hl
  constructor
  · obtain ⟨d0, d1, hd⟩ := approx_line hm w.dec_lo c0 c1 l hl
    refine ⟨d0, d1, fun k hk => ?_⟩
    have : (cascade mode w.dec_lo w.dec_hi l (line N c0 c1)).headD [] =
        approx mode w.dec_lo l (line N c0 c1) := rfl
    have e2 : (cascade mode w.dec_lo w.dec_hi l ((List.range N).map fun n : ℕ => c0 + n • c1)).headD [] =
        line (approxLen mode w.dec_lo.length N l) d0 d1 := by rw [← hd]; rfl
    simp only [e2, line, List.getElem_map, List.getElem_range]
  · intro j hj hjl v hv'
    rw [cascade_getD _ _ _ _ hj hjl, detail] at hv'
    obtain ⟨d0, d1, hd⟩ := approx_line hm w.dec_lo c0 c1 (j - 1) (fun i hi => hl i (by omega))
    rw [show ((List.range N).map fun n : ℕ => c0 + n • c1) = line N c0 c1 from rfl, hd,
      (analysis_line hm (show LenOk mode (approxLen mode w.dec_lo.length N (j - 1)) from hl (j - 1) (by omega))
        w.dec_hi d0 d1).2 hv] at hv'
    exact List.eq_of_mem_replicate hv'

example : wavedec legallQ .smooth (some 2) ((List.range 7).map fun n : ℕ => (1 : ℚ) + n • 2) =
    .ok [[-11, -3, 5, 13, 21], List.replicate 5 0, List.replicate 6 0] := by decide +kernel

end

/-! ### The built-in wavelets -/

/-- **C57.** Every built-in discrete wavelet except `rbio3.1` and `rbio5.5` has the number of vanishing
moments its attribute `vanishing_moments_psi` declares: the moments of the high-pass analysis filter vanish up
to `2^-momentBits` (`2^-51` in double and `2^-23` in single precision; `2^-35` for symlets and `2^-38` for the
(reverse) biorthogonal families in double precision) of the sum of the sizes of their terms.  All the reverse
biorthogonal wavelets have as many in the high-pass *synthesis* filter.  (The Meyer wavelet declares −1,
unknown.)  Missing: the two exceptions, for which the claim is false (`C57_rbio_misdeclared`). -/
theorem C57_builtin_moments_partial {single : Bool} {name : String} {fam : Family} {order : ℕ}
    (h : (name, fam, order) ∈ wnameToCode) (hd : fam.isDiscrete = true) :
    ∃ o, waveletNamed single name = .ok o ∧
      (name ≠ "rbio3.1" → name ≠ "rbio5.5" → ∀ i < o.vmPsi.toNat,
        |moment (realBank o.w).dec_hi i| ≤
          1 / 2 ^ momentBits single fam * moment ((realBank o.w).dec_hi.map fun v => |v|) i) ∧
      (fam = .rbio → ∀ i < o.vmPsi.toNat,
        |moment (realBank o.w).rec_hi i| ≤
          1 / 2 ^ momentBits single fam * moment ((realBank o.w).rec_hi.map fun v => |v|) i) := by
  obtain ⟨o, h1, h2, h3⟩ := builtin_ok (single := single) h hd
  obtain ⟨m1, m2, -, -⟩ := builtin_moments h hd h2
  have hp : o.vmPsi = (discreteInfo fam order).2.2.2.2.2.1 := by
    obtain ⟨h0, hlow, hl⟩ := table_lookup _ h
    simp only at h0 hlow hl
    have := waveletNamed_ok h0 (by rw [hlow]; exact hl) hd h2
    rw [h1] at this
    simp only [Except.ok.injEq] at this
    rw [this]
  refine ⟨o, h1, fun n1 n2 => ?_, fun g => ?_⟩ <;> rw [hp]
  · have := momOk_real (m1 n1 n2)
    simpa [realBank, Function.comp_def] using this
  · have := momOk_real (m2 g)
    simpa [realBank, Function.comp_def] using this

example : ("db7", .db, 7) ∈ wnameToCode ∧ Family.isDiscrete .db = true ∧ "db7" ≠ "rbio3.1" := by decide

/-- **C57.** The low-pass filters of every built-in discrete wavelet: the sum of the taps is `√2` (its square
is two up to `2^-49`, in single precision `2^-21`). -/
theorem C57_builtin_sums {single : Bool} {name : String} {fam : Family} {order : ℕ}
    (h : (name, fam, order) ∈ wnameToCode) (hd : fam.isDiscrete = true) :
    ∃ o, waveletNamed single name = .ok o ∧
      |(realBank o.w).dec_lo.sum ^ 2 - 2| ≤ 1 / 2 ^ (if single then 21 else 49) ∧
      |(realBank o.w).rec_lo.sum ^ 2 - 2| ≤ 1 / 2 ^ (if single then 21 else 49) := by
  obtain ⟨o, h1, h2, h3⟩ := builtin_ok (single := single) h hd
  obtain ⟨-, -, m3, m4⟩ := builtin_moments h hd h2
  exact ⟨o, h1, sumOk_real m3, sumOk_real m4⟩

example : ("coif17", .coif, 17) ∈ wnameToCode ∧ Family.isDiscrete .coif = true := by decide

/-- **C57.** Consequently `dwt` with a built-in wavelet suppresses polynomials: where the samples under the
filter are those of a polynomial of degree below the declared number of vanishing moments, the detail
coefficient is at most `2^-momentBits` times the size of the terms it is summed from.  Missing: the two
wavelets for which the claim is false (`C57_rbio_misdeclared`). -/
theorem C57_builtin_polynomial_partial {single : Bool} {name : String} {fam : Family} {order : ℕ}
    (h : (name, fam, order) ∈ wnameToCode) (hd : fam.isDiscrete = true) (n1 : name ≠ "rbio3.1")
    (n2 : name ≠ "rbio5.5") :
    ∃ o, waveletNamed single name = .ok o ∧ ∀ (mode : Mode) (x cA cD : List ℝ),
      dwt (realBank o.w) mode x = .ok (cA, cD) → ∀ k, Interior mode o.w.dec_len x.length 1 k →
      ∀ c : ℕ → ℝ, (∀ i < o.w.dec_len, x.getD (windowEnd mode o.w.dec_len 1 k - i) 0 =
        ∑ q ∈ range o.vmPsi.toNat, (i : ℝ) ^ q * c q) →
      ∃ hk : k < cD.length, |cD[k]| ≤ 1 / 2 ^ momentBits single fam *
        ∑ q ∈ range o.vmPsi.toNat, moment ((realBank o.w).dec_hi.map fun v => |v|) q * |c q| := by
  obtain ⟨o, h1, h2, -⟩ := C57_builtin_moments_partial (single := single) h hd
  obtain ⟨o', h1', -, hok, -⟩ := builtin_ok (single := single) h hd
  have : o' = o := by rw [h1] at h1'; simpa using h1'.symm
  subst this
  have hw : (realBank o'.w).Ok := by
    obtain ⟨a1, a2, a3, a4, a5⟩ := hok
    refine ⟨?_, ?_, ?_, ?_, ?_⟩ <;>
      simp only [realBank, Wavelet.dec_len, Wavelet.rec_len, List.length_map] at * <;> assumption
  have hlen : (realBank o'.w).dec_len = o'.w.dec_len := by simp [realBank, Wavelet.dec_len]
  refine ⟨o', h1, fun mode x cA cD hdw k hk c hx => ?_⟩
  rw [← hlen] at hk hx
  obtain ⟨hk', e⟩ := C57_dwt_moments hw hdw hk (c := c) hx
  refine ⟨hk', ?_⟩
  rw [e, mul_sum]
  refine (abs_sum_le_sum_abs _ _).trans (sum_le_sum fun q hq => ?_)
  rw [smul_eq_mul, abs_mul, ← mul_assoc]
  exact mul_le_mul_of_nonneg_right (h2 n1 n2 q (mem_range.mp hq)) (abs_nonneg _)

example : ("sym4", .sym, 4) ∈ wnameToCode ∧ Family.isDiscrete .sym = true ∧ "sym4" ≠ "rbio3.1" ∧
    "sym4" ≠ "rbio5.5" ∧ Interior .zero 8 16 1 4 := by decide

/-- **C57 fails for `rbio3.1` and `rbio5.5`.**  `rbio3.1` declares three vanishing moments, but a detail
coefficient of the straight line `0, 1, …, 7` whose filter lies inside the signal is above 2 (the filter has
one vanishing moment); `rbio5.5` declares five, but such a coefficient of `n⁴` is above 16.  (The filters are
integers in units of `2⁻¹⁶⁰`.) -/
theorem C57_rbio_misdeclared :
    (∃ o cA cD, waveletNamed false "rbio3.1" = .ok o ∧ o.vmPsi = 3 ∧
      dwt o.w .symmetric ((List.range 8).map fun n : ℕ => (n : ℤ)) = .ok (cA, cD) ∧
      Interior .symmetric o.w.dec_len 8 1 2 ∧ 2 * 2 ^ 160 ≤ cD.getD 2 0) ∧
    (∃ o cA cD, waveletNamed false "rbio5.5" = .ok o ∧ o.vmPsi = 5 ∧
      dwt o.w .symmetric ((List.range 16).map fun n : ℕ => (n : ℤ) ^ 4) = .ok (cA, cD) ∧
      Interior .symmetric o.w.dec_len 16 1 6 ∧ 16 * 2 ^ 160 ≤ cD.getD 6 0) := by
  have key : ∀ (name : String) (v : ℤ) (x : List ℤ) (k : ℕ) (b : ℤ),
      (match waveletNamed false name with
        | .ok o => decide (o.vmPsi = v) && decide (Interior .symmetric o.w.dec_len x.length 1 k) &&
            (match dwt o.w .symmetric x with
              | .ok r => decide (b ≤ r.2.getD k 0)
              | .error _ => false)
        | .error _ => false) = true →
      ∃ o cA cD, waveletNamed false name = .ok o ∧ o.vmPsi = v ∧ dwt o.w .symmetric x = .ok (cA, cD) ∧
        Interior .symmetric o.w.dec_len x.length 1 k ∧ b ≤ cD.getD k 0 := by
    intro name v x k b hh
    cases ho : waveletNamed false name with
    | error e => rw [ho] at hh; simp at hh
    | ok o =>
      rw [ho] at hh
      simp only [Bool.and_eq_true, decide_eq_true_eq] at hh
      obtain ⟨⟨h1, h2⟩, h3⟩ := hh
      cases hr : dwt o.w .symmetric x with
      | error e => rw [hr] at h3; simp at h3
      | ok r =>
        rw [hr] at h3
        simp only [decide_eq_true_eq] at h3
        exact ⟨o, r.1, r.2, rfl, h1, hr, h2, h3⟩
  constructor
  · exact key "rbio3.1" 3 ((List.range 8).map fun n : ℕ => (n : ℤ)) 2 (2 * 2 ^ 160) (by decide +kernel)
  · exact key "rbio5.5" 5 ((List.range 16).map fun n : ℕ => (n : ℤ) ^ 4) 6 (16 * 2 ^ 160) (by decide +kernel)

/-! ### C58: locality -/

section
variable {R M : Type} [Ring R] [AddCommGroup M] [Module R M]

/-- **C58.** A coefficient of any level depends only on the samples it looks at, and the same samples in
another place give the same coefficient: if two signals — of any lengths, in any modes — agree on the samples
under coefficient `k` of level `j`, those of the second being shifted by `s·2^j`, then coefficient `k + s` of
the second signal equals coefficient `k` of the first.  (Periodization places its filters differently and is
compared only with itself.) -/
theorem C58_wavedec_local {w : Wavelet R} (hw : w.Ok) {m1 m2 : Mode}
    (hm : m1 = .periodization ↔ m2 = .periodization) {l1 l2 : ℕ} {x y : List M} {cs ds : List (List M)}
    (hx : wavedec w m1 (some (l1 : ℤ)) x = .ok cs) (hy : wavedec w m2 (some (l2 : ℤ)) y = .ok ds)
    {j k s : ℕ} (hj : 1 ≤ j) (hj1 : j ≤ l1) (hj2 : j ≤ l2) (hk : Interior m1 w.dec_len x.length j k)
    (hk2 : Interior m2 w.dec_len y.length j (k + s))
    (hxy : ∀ n, InWindow m1 w.dec_len j k n → y.getD (n + 2 ^ j * s) 0 = x.getD n 0) :
    ∃ (h1 : k < (cs.getD (l1 + 1 - j) []).length) (h2 : k + s < (ds.getD (l2 + 1 - j) []).length),
      (cs.getD (l1 + 1 - j) [])[k] = (ds.getD (l2 + 1 - j) [])[k + s] := by
  obtain ⟨-, rfl⟩ := wavedec_cascade hw hx
  obtain ⟨-, rfl⟩ := wavedec_cascade hw hy
  rw [cascade_getD _ _ _ _ hj hj1, cascade_getD _ _ _ _ hj hj2]
  obtain ⟨i, rfl⟩ : ∃ i, j = i + 1 := ⟨j - 1, by omega⟩
  have h3 : w.dec_hi.length = w.dec_lo.length := hw.2.2.1
  have hF : 2 ≤ w.dec_lo.length := hw.1
  have hend : ∀ F, windowEnd m2 F (i + 1) (k + s) = windowEnd m1 F (i + 1) k + 2 ^ (i + 1) * s := by
    intro F
    have := windowEnd_sub m2 F (i + 1) (k := k + s) (i := s) (by omega)
    rw [Nat.add_sub_cancel] at this
    rw [← this]
    unfold windowEnd
    simp only [hm]
  have g1 := (detail_interior (hi := w.dec_hi) (e := fun n : ℤ => x.getD n.toNat 0) hF h3 hk
    (fun n _ => by simp))
  have g2 := (detail_interior (hi := w.dec_hi) (e := fun n : ℤ => (fun n : ℤ => x.getD n.toNat 0) (n - 2 ^ (i + 1) * s))
    hF h3 hk2 (fun n hn => by
      obtain ⟨n1, n2⟩ := hn
      have hk1 := hk.1
      simp only [Wavelet.dec_len] at hk1
      rw [hend] at n1 n2
      obtain ⟨n', rfl⟩ : ∃ n', n = n' + 2 ^ (i + 1) * s := ⟨n - 2 ^ (i + 1) * s, by omega⟩
      rw [hxy n' ⟨by simp only [Wavelet.dec_len]; omega, by simp only [Wavelet.dec_len]; omega⟩]
      congr 1
      push_cast
      rw [add_sub_cancel_right]
      simp))
  refine ⟨g1.1, g2.1, ?_⟩
  have g1' := g1.2
  have g2' := g2.2
  rw [List.getD_eq_getElem (hn := g1.1)] at g1'
  rw [List.getD_eq_getElem (hn := g2.1)] at g2'
  simp only [show i + 1 - 1 = i by omega]
  rw [g1', g2', apxZ_modes hm w.dec_lo _ i]
  unfold conv
  refine sum_congr rfl fun t _ => ?_
  congr 1
  have := apxZ_shift m2 w.dec_lo (fun n : ℤ => x.getD n.toNat 0) (2 * s : ℤ) i
    ((lastIdx m1 w.dec_lo.length k : ℕ) - t)
  rw [← this]
  have e1 : ((lastIdx m1 w.dec_lo.length k : ℕ) : ℤ) - t + 2 * s = (lastIdx m2 w.dec_lo.length (k + s) : ℕ) - t := by
    unfold lastIdx
    simp only [hm]
    split_ifs <;> push_cast <;> ring
  rw [e1]
  congr 1
  funext n
  rw [pow_succ, mul_assoc]

example : Interior .symmetric legallQ.dec_len 32 2 5 ∧ Interior .zero legallQ.dec_len 64 2 (5 + 7) := by decide

/-- **C58.** Conversely a coefficient influences only the samples of the reconstruction around its place:
outside periodization, if two coefficient lists of the same shape agree at all the coefficients that influence
sample `n`, the two reconstructions have the same sample `n`.  The list starts with the approximation and the
details of the coarsest level `ds.length`; detail array number `i` has level `ds.length - i`. -/
theorem C58_waverec_local {w : Wavelet R} (hw : w.Ok) {mode : Mode} (hm : mode ≠ .periodization)
    {a b r s : List M} {ds es : List (List M)}
    (hr : waverec w mode ((a :: ds).map some) = .ok (some r))
    (hs : waverec w mode ((b :: es).map some) = .ok (some s))
    (hab : a.length = b.length) (hde : es.map List.length = ds.map List.length) {n : ℕ}
    (ha : ∀ k, Influences w.rec_len ds.length k n → a.getD k 0 = b.getD k 0)
    (hd : ∀ i < ds.length, ∀ k, Influences w.rec_len (ds.length - i) k n →
      (ds.getD i []).getD k 0 = (es.getD i []).getD k 0) :
    r.length = s.length ∧ r.getD n 0 = s.getD n 0 := by
  have hloop : ∀ (a r : List M) (ds : List (List M)), waverec w mode ((a :: ds).map some) = .ok (some r) →
      waverecLoop w mode (some a) (ds.map some) = .ok (some r) := by
    intro a r ds h
    cases ds with
    | nil => simpa [waverec, waverecLoop] using h
    | cons d ds => simpa [waverec] using h
  exact waverecLoop_local hw hm ds es a b r s (hloop a r ds hr) (hloop b s es hs) hab hde ha hd

example : waverec legallQ .symmetric ([[1, 2, 3, 4, 5], [0, 1, 0, 0, 0], [0, 0, 0, 0, 0, (7 : ℚ)]].map some) =
      .ok (some [7 / 4, 5 / 2, 13 / 4, 55 / 16, 29 / 8, 61 / 16, 4, 41 / 8]) ∧
    waverec legallQ .symmetric ([[1, 2, 3, 4, 5], [0, 1, 0, 0, 0], [0, 0, 0, 0, 0, (0 : ℚ)]].map some) =
      .ok (some [7 / 4, 5 / 2, 13 / 4, 55 / 16, 29 / 8, 61 / 16, 4, 17 / 4]) := by
  refine ⟨?_, ?_⟩ <;> decide +kernel

example : ¬ Influences legallQ.rec_len 1 5 5 ∧ Influences legallQ.rec_len 1 5 7 := by decide

end

end Pywt
