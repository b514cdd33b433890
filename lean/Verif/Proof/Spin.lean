import Verif.Props.Swt
import Verif.Props.Multi
import Verif.Spec.Spin
import Verif.Proof.Edit

/-!
# Proofs for C64
-/

namespace Pywt

open Finset Spec

set_option autoImplicit false
set_option linter.unusedSectionVars false

section add

variable {M : Type} [AddCommGroup M]

/-- The periodic continuation of a finite signal. -/
def per (u : List M) (q : ℤ) : M := at' u (q % u.length)

theorem per_congr {u : List M} {a b : ℤ} (h : (u.length : ℤ) ∣ a - b) : per u a = per u b := by
  unfold per
  rw [Int.emod_eq_emod_iff_emod_sub_eq_zero.mpr (Int.emod_eq_zero_of_dvd h)]

theorem per_nat {u : List M} {k : ℕ} (h : k < u.length) : per u k = u.getD k 0 := by
  unfold per
  rw [Int.emod_eq_of_lt (by omega) (by omega), at'_nat]

theorem per_ofRange {n : ℕ} (hn : 1 ≤ n) (g : ℤ → M) (hg : ∀ q, g (q % n) = g q) (q : ℤ) :
    per ((List.range n).map fun k : ℕ => g k) q = g q := by
  have h0 := Int.emod_nonneg q (show (n : ℤ) ≠ 0 by omega)
  have h1 := Int.emod_lt_of_pos q (show (0 : ℤ) < n by omega)
  rw [← hg q]
  unfold per
  simp only [List.length_map, List.length_range]
  obtain ⟨k, hk⟩ := Int.eq_ofNat_of_zero_le h0
  rw [hk] at h1 ⊢
  have hk1 : k < n := by exact_mod_cast h1
  rw [at'_nat, List.getD_eq_getElem (hn := by simpa using hk1)]
  simp

theorem eq_of_per {u v : List M} (h : u.length = v.length) (hp : ∀ k : ℤ, per u k = per v k) : u = v := by
  apply List.ext_getElem h
  intro i h1 h2
  have := hp i
  rw [per_nat h1, per_nat h2, List.getD_eq_getElem _ _ h1, List.getD_eq_getElem _ _ h2] at this
  exact this

theorem dvd_shifted (n : ℤ) (q c : ℤ) : n ∣ (q % n + c) - (q + c) := by
  rw [show q % n + c - (q + c) = -(n * (q / n)) by rw [Int.emod_def]; ring]
  exact (Dvd.intro _ rfl).neg_right

theorem per_shift {x : List M} (hx : 1 ≤ x.length) (c q : ℤ) : per (shift c x) q = per x (q - c) := by
  have := at'_shift (c := c) hx q
  unfold per
  rw [shift_length, this]

theorem per_decimate {u : List M} {j : ℕ} (hu : 1 ≤ u.length) (hd : 2 ^ j ∣ u.length) (r q : ℤ) :
    per (decimate j r u) q = per u (r + 2 ^ j * q) := by
  obtain ⟨m, hm⟩ := hd
  have hm1 : 1 ≤ m := by
    rcases Nat.eq_zero_or_pos m with h | h
    · rw [h, mul_zero] at hm; omega
    · exact h
  have hq : u.length / 2 ^ j = m := by rw [hm, Nat.mul_div_cancel_left _ (by positivity)]
  unfold decimate
  rw [hq]
  exact per_ofRange hm1 (fun q => per u (r + 2 ^ j * q)) (fun q => per_congr ⟨-(q / m), by
    rw [hm, Int.emod_def]; push_cast; ring⟩) q

theorem decimate_length (j : ℕ) (r : ℤ) (u : List M) : (decimate j r u).length = u.length / 2 ^ j := by
  simp [decimate]

theorem decimateDetails_length (r : ℤ) (ds : List (List M)) : (decimateDetails r ds).length = ds.length := by
  induction ds with
  | nil => rfl
  | cons d ds ih => simp [decimateDetails, ih]

end add

section mod

variable {R M : Type} [CommRing R] [AddCommGroup M] [Module R M]

theorem per_atrous {x : List M} (hx : 1 ≤ x.length) (f : List R) (s : ℕ) (q : ℤ) :
    per (atrous f s x) q = ∑ l ∈ range f.length, f.getD l 0 • per x (q + s * ((f.length / 2 : ℕ) - l)) :=
  per_ofRange hx (fun q => ∑ l ∈ range f.length, f.getD l 0 • per x (q + s * ((f.length / 2 : ℕ) - l)))
    (fun q => sum_congr rfl fun l _ => by rw [per_congr (dvd_shifted _ _ _)]) q

theorem per_atrousInv {x : List M} (hx : 1 ≤ x.length) (f : List R) (s : ℕ) (q : ℤ) :
    per (atrousInv f s x) q =
      ∑ l ∈ range f.length, f.getD l 0 • per x (q + s * (((f.length / 2 : ℕ) : ℤ) - 1 - l)) :=
  per_ofRange hx
    (fun q => ∑ l ∈ range f.length, f.getD l 0 • per x (q + s * (((f.length / 2 : ℕ) : ℤ) - 1 - l)))
    (fun q => sum_congr rfl fun l _ => by rw [per_congr (dvd_shifted _ _ _)]) q

theorem per_analysis {u : List M} {m : ℕ} (hm : 1 ≤ m) (hu : u.length = 2 * m) (f : List R) (q : ℤ) :
    per (analysis .periodization f u) q =
      ∑ l ∈ range f.length, f.getD l 0 • per u (((f.length / 2 : ℕ) : ℤ) + 2 * q - l) := by
  rw [analysis_per_even (by omega), show u.length / 2 = m by omega]
  refine per_ofRange hm
    (fun q => ∑ l ∈ range f.length, f.getD l 0 • per u (((f.length / 2 : ℕ) : ℤ) + 2 * q - l))
    (fun q => sum_congr rfl fun l _ => ?_) q
  rw [per_congr (b := ((f.length / 2 : ℕ) : ℤ) + 2 * q - l) ⟨-(q / m), by rw [hu, Int.emod_def]; push_cast; ring⟩]

theorem upsample_per {u : List M} {m : ℕ} (hu : u.length = m) (p t : ℤ) :
    upsample (per u) (p - 2 * m * t) = upsample (per u) p := by
  unfold upsample
  have h1 : (p - 2 * m * t) % 2 = p % 2 := by
    rw [show p - 2 * m * t = p + 2 * (-(m * t)) by ring, Int.add_mul_emod_self_left]
  have h2 : (p - 2 * m * t) / 2 = p / 2 - m * t := by
    rw [show p - 2 * m * t = p + 2 * (-(m * t)) by ring, Int.add_mul_ediv_left _ _ (by decide)]
    ring
  rw [h1, h2, per_congr (u := u) (a := p / 2 - m * t) (b := p / 2) ⟨-t, by rw [hu]; ring⟩]

theorem ext_per (u : List M) : Spec.ext .periodic u = per u := rfl

theorem per_synthesis {a d : List M} (ha : 1 ≤ a.length) (hd : d.length = a.length) (lo hi : List R) (q : ℤ) :
    per (synthesis .periodization lo hi a d) q =
      conv lo (upsample (per a)) (q + ((lo.length / 2 : ℕ) - 1)) +
        conv hi (upsample (per d)) (q + ((lo.length / 2 : ℕ) - 1)) := by
  unfold synthesis
  simp only [ext_per]
  refine per_ofRange (by omega) (fun q => conv lo (upsample (per a)) (q + ((lo.length / 2 : ℕ) - 1)) +
        conv hi (upsample (per d)) (q + ((lo.length / 2 : ℕ) - 1))) (fun q => ?_) q
  have key : ∀ (f : List R) (u : List M), u.length = a.length →
      conv f (upsample (per u)) (q % (2 * a.length : ℕ) + ((lo.length / 2 : ℕ) - 1)) =
        conv f (upsample (per u)) (q + ((lo.length / 2 : ℕ) - 1)) := by
    intro f u hu
    unfold conv
    refine sum_congr rfl fun j _ => ?_
    rw [← upsample_per hu (q + ((lo.length / 2 : ℕ) - 1) - j) (q / (2 * a.length : ℕ)), Int.emod_def]
    congr 2
    push_cast
    ring
  rw [key lo a rfl, key hi d hd]

/-! ## Decimating the stationary transform -/

theorem swt_decimated_approx {lo : List R} {x : List M} (hx : 1 ≤ x.length) (r : ℤ) : ∀ {j : ℕ}, 2 ^ j ∣ x.length →
    (approx .periodization lo j (shift (-r) x)).length = x.length / 2 ^ j ∧
      ∀ q, per (approx .periodization lo j (shift (-r) x)) q = per (swtApprox lo 0 x j) (r + 2 ^ j * q)
  | 0, _ => by
      refine ⟨by simp [approx, shift_length], fun q => ?_⟩
      rw [approx, Function.iterate_zero, id, per_shift hx, swtApprox]
      congr 1
      ring
  | j + 1, h => by
      have hj : 2 ^ j ∣ x.length := dvd_trans (pow_dvd_pow 2 (by omega)) h
      obtain ⟨h1, h2⟩ := swt_decimated_approx (lo := lo) hx r hj
      obtain ⟨m, hm⟩ := h
      have hm1 : 1 ≤ m := by
        rcases Nat.eq_zero_or_pos m with h | h
        · rw [h, mul_zero] at hm; omega
        · exact h
      have hl : x.length / 2 ^ j = 2 * m := by
        rw [hm, pow_succ, mul_assoc, Nat.mul_div_cancel_left _ (by positivity)]
      have hl' : x.length / 2 ^ (j + 1) = m := by rw [hm, Nat.mul_div_cancel_left _ (by positivity)]
      rw [hl] at h1
      have he : approx .periodization lo (j + 1) (shift (-r) x) =
          analysis .periodization lo (approx .periodization lo j (shift (-r) x)) := by
        simp only [approx, Function.iterate_succ_apply']
      rw [he]
      refine ⟨?_, fun q => ?_⟩
      · rw [analysis_per_even (by omega), hl', List.length_map, List.length_range, h1]; omega
      · rw [per_analysis hm1 h1, swtApprox, per_atrous (by simpa using hx)]
        refine sum_congr rfl fun l _ => ?_
        rw [h2]
        congr 2
        push_cast
        ring

theorem swt_decimated_detail {lo hi : List R} {x : List M} (hx : 1 ≤ x.length) (r : ℤ) {j : ℕ}
    (h : 2 ^ (j + 1) ∣ x.length) :
    detail .periodization lo hi j (shift (-r) x) = decimate (j + 1) r (swtDetail lo hi 0 x j) := by
  have hj : 2 ^ j ∣ x.length := dvd_trans (pow_dvd_pow 2 (by omega)) h
  obtain ⟨h1, h2⟩ := swt_decimated_approx (lo := lo) hx r hj
  have h0 := h
  obtain ⟨m, hm⟩ := h
  have hm1 : 1 ≤ m := by
    rcases Nat.eq_zero_or_pos m with h | h
    · rw [h, mul_zero] at hm; omega
    · exact h
  have hl : x.length / 2 ^ j = 2 * m := by
    rw [hm, pow_succ, mul_assoc, Nat.mul_div_cancel_left _ (by positivity)]
  have hl' : x.length / 2 ^ (j + 1) = m := by rw [hm, Nat.mul_div_cancel_left _ (by positivity)]
  rw [hl] at h1
  have hdl : (swtDetail lo hi 0 x j).length = x.length := by simp [swtDetail]
  unfold detail
  apply eq_of_per
  · rw [analysis_per_even (by omega), List.length_map, List.length_range, h1, decimate_length, hdl, hl']; omega
  · intro q
    rw [per_analysis hm1 h1, per_decimate (by omega) (by rw [hdl]; exact h0), swtDetail,
      per_atrous (by simpa using hx)]
    refine sum_congr rfl fun l _ => ?_
    rw [h2]
    congr 2
    push_cast
    ring

theorem swt_decimated_approx_eq {lo : List R} {x : List M} (hx : 1 ≤ x.length) (r : ℤ) {j : ℕ}
    (h : 2 ^ j ∣ x.length) :
    approx .periodization lo j (shift (-r) x) = decimate j r (swtApprox lo 0 x j) := by
  obtain ⟨h1, h2⟩ := swt_decimated_approx (lo := lo) hx r h
  apply eq_of_per
  · rw [h1, decimate_length, swtApprox_length]
  · intro q
    rw [h2, per_decimate (by simpa using hx) (by simpa using h)]

theorem decimateDetails_reverse (r : ℤ) (D : ℕ → List M) : ∀ l : ℕ,
    decimateDetails r ((List.range l).map D).reverse =
      ((List.range l).map fun j => decimate (j + 1) r (D j)).reverse
  | 0 => rfl
  | l + 1 => by
      rw [List.range_succ, List.map_append, List.map_append, List.reverse_append, List.reverse_append]
      simp [decimateDetails, ← decimateDetails_reverse r D l]

theorem cascade_shift {lo hi : List R} {x : List M} (hx : 1 ≤ x.length) (r : ℤ) {l : ℕ} (h : 2 ^ l ∣ x.length) :
    cascade .periodization lo hi l (shift (-r) x) =
      decimateAll r (swtApprox lo 0 x l :: ((List.range l).map fun j => swtDetail lo hi 0 x j).reverse) := by
  unfold cascade
  simp only [decimateAll]
  rw [swt_decimated_approx_eq hx r h, decimateDetails_reverse]
  simp only [List.length_reverse, List.length_map, List.length_range]
  congr 2
  apply List.map_congr_left
  intro j hj
  exact swt_decimated_detail hx r (dvd_trans (pow_dvd_pow 2 (by have := List.mem_range.1 hj; omega)) h)

theorem levelsOk_per_div {F N l : ℕ} (hN : 1 ≤ N) (h : 2 ^ l ∣ N) : LevelsOk .periodization F N l := by
  intro j hj
  have hj' : 2 ^ j ∣ N := dvd_trans (pow_dvd_pow 2 (by omega)) h
  rw [approxLen_per_div hj']
  have : 1 ≤ N / 2 ^ j := Nat.div_pos (Nat.le_of_dvd (by omega) hj') (by positivity)
  unfold LenOk
  simp
  omega

/-! ## Averaging over shifts -/

/-- The signal `g` placed at the positions `r + 2^j k`, zero elsewhere. -/
def embed (j : ℕ) (r : ℤ) (g : ℤ → M) (q : ℤ) : M := if (2 ^ j : ℤ) ∣ q - r then g ((q - r) / 2 ^ j) else 0

theorem embed_upsample (j : ℕ) (r : ℤ) (g : ℤ → M) (n : ℤ) {q t : ℤ} (hq : q - r = 2 ^ j * n) :
    embed (j + 1) r g (q + 2 ^ j * t) = upsample g (n + t) := by
  unfold embed upsample
  have h2 : (0 : ℤ) < 2 ^ j := by positivity
  rw [show q + 2 ^ j * t - r = 2 ^ j * (n + t) by linear_combination hq, pow_succ]
  have h1 : ((2 : ℤ) ^ j * 2 ∣ 2 ^ j * (n + t)) ↔ (n + t) % 2 = 0 := by
    rw [mul_dvd_mul_iff_left h2.ne', Int.dvd_iff_emod_eq_zero]
  simp only [h1]
  rw [Int.mul_ediv_mul_of_pos _ _ h2]

theorem embed_off (j : ℕ) (r : ℤ) (g : ℤ → M) {q t : ℤ} (hq : ¬ (2 ^ j : ℤ) ∣ q - r) :
    embed (j + 1) r g (q + 2 ^ j * t) = 0 := by
  unfold embed
  rw [if_neg]
  intro h
  apply hq
  have h1 : (2 ^ j : ℤ) ∣ q + 2 ^ j * t - r := dvd_trans (pow_dvd_pow 2 (by omega)) h
  have h2 := dvd_sub h1 (Dvd.intro t rfl : (2 ^ j : ℤ) ∣ 2 ^ j * t)
  rwa [show q + 2 ^ j * t - r - 2 ^ j * t = q - r by ring] at h2

theorem embed_synthesis {lo hi : List R} (hlh : hi.length = lo.length) {a d : List M} (ha : 1 ≤ a.length)
    (hd : d.length = a.length) (j : ℕ) (r q : ℤ) :
    embed j r (per (synthesis .periodization lo hi a d)) q =
      ∑ i ∈ range lo.length, lo.getD i 0 • embed (j + 1) r (per a) (q + 2 ^ j * (((lo.length / 2 : ℕ) : ℤ) - 1 - i)) +
      ∑ i ∈ range hi.length, hi.getD i 0 • embed (j + 1) r (per d) (q + 2 ^ j * (((hi.length / 2 : ℕ) : ℤ) - 1 - i)) := by
  by_cases h : (2 ^ j : ℤ) ∣ q - r
  · obtain ⟨n, hn⟩ := h
    have h2 : (0 : ℤ) < 2 ^ j := by positivity
    have e1 : embed j r (per (synthesis .periodization lo hi a d)) q =
        per (synthesis .periodization lo hi a d) n := by
      unfold embed
      rw [hn, if_pos (Dvd.intro _ rfl), Int.mul_ediv_cancel_left _ h2.ne']
    rw [e1, per_synthesis ha hd]
    unfold conv
    congr 1
    · refine sum_congr rfl fun i _ => ?_
      rw [embed_upsample j r _ n hn]
      congr 2
      ring
    · refine sum_congr rfl fun i _ => ?_
      rw [embed_upsample j r _ n hn, hlh]
      congr 2
      ring
  · rw [sum_eq_zero, sum_eq_zero, add_zero]
    · unfold embed; rw [if_neg h]
    · intro i _; rw [embed_off j r _ h, smul_zero]
    · intro i _; rw [embed_off j r _ h, smul_zero]

theorem count_residue (l : ℕ) (q : ℤ) (v : M) : ∀ K : ℕ,
    ∑ r ∈ range (2 ^ l * K), (if (2 ^ l : ℤ) ∣ q - (r : ℤ) then v else 0) = (K : R) • v
  | 0 => by simp
  | K + 1 => by
      have h2 : (0 : ℤ) < 2 ^ l := by positivity
      rw [mul_add, mul_one, sum_range_add, count_residue l q v K]
      push_cast
      rw [add_smul, one_smul]
      congr 1
      have h0 := Int.emod_nonneg q h2.ne'
      have h1 := Int.emod_lt_of_pos q h2
      obtain ⟨t, ht⟩ := Int.eq_ofNat_of_zero_le h0
      have htl : t < 2 ^ l := by rw [ht] at h1; exact_mod_cast h1
      rw [sum_eq_single t]
      · rw [if_pos]
        rw [Int.emod_def] at ht
        exact ⟨q / 2 ^ l - K, by linear_combination ht⟩
      · intro b hb hbt
        rw [if_neg]
        rintro ⟨c, hc⟩
        apply hbt
        have hb' : (b : ℤ) < 2 ^ l := by exact_mod_cast mem_range.1 hb
        have : q % 2 ^ l = b := emod_of (q := K + c) (by linear_combination hc) (by omega) hb'
        rw [this] at ht
        exact_mod_cast ht
      · intro h; exact absurd (mem_range.2 htl) h

theorem sum_embed_decimate {u : List M} (hu : 1 ≤ u.length) {l L : ℕ} (hl : l ≤ L) (hd : 2 ^ l ∣ u.length) (q : ℤ) :
    ∑ r ∈ range (2 ^ L), embed l (r : ℤ) (per (decimate l r u)) q = (2 ^ (L - l) : R) • per u q := by
  have e : ∀ r ∈ range (2 ^ L), embed l (r : ℤ) (per (decimate l r u)) q =
      if (2 ^ l : ℤ) ∣ q - (r : ℤ) then per u q else 0 := by
    intro r _
    unfold embed
    split_ifs with h
    · rw [per_decimate hu hd, Int.mul_ediv_cancel' h]
      congr 1
      ring
    · rfl
  rw [sum_congr rfl e, show 2 ^ L = 2 ^ l * 2 ^ (L - l) by rw [← pow_add]; congr 1; omega,
    count_residue (R := R)]
  push_cast
  rfl

/-- Synthesis in periodization mode from an approximation and details listed from the coarsest level on. -/
def recPer (lo hi : List R) : List (List M) → List M → List M
  | [], a => a
  | d :: ds, a => recPer lo hi ds (synthesis .periodization lo hi a d)

theorem waverecLoop_per {w : Wavelet R} (hw : w.Ok) : ∀ (ds : List (List M)) (a : List M), 1 ≤ a.length →
    DoublingLengths a.length ds →
    waverecLoop w .periodization (some a) (ds.map some) = .ok (some (recPer w.rec_lo w.rec_hi ds a)) ∧
      (recPer w.rec_lo w.rec_hi ds a).length = a.length * 2 ^ ds.length
  | [], a, _, _ => ⟨rfl, by simp [recPer]⟩
  | d :: ds, a, ha, h => by
      have hl : (synthesis .periodization w.rec_lo w.rec_hi a d).length = 2 * a.length := by simp [synthesis]
      obtain ⟨h1, h2⟩ := waverecLoop_per hw ds (synthesis .periodization w.rec_lo w.rec_hi a d) (by omega)
        (by rw [hl]; exact h.2)
      refine ⟨?_, ?_⟩
      · simp only [List.map_cons, waverecLoop, waverecTrim]
        rw [if_neg (by rw [h.1]; omega), if_neg (by rw [h.1]; simp)]
        simp only [Py_bind_ok]
        rw [idwt_ok hw h.1.symm (by simp [synthLen]; omega), Py_bind_ok, h1, recPer]
      · rw [recPer, h2, hl, List.length_cons, pow_succ]; ring

theorem waverec_per {w : Wavelet R} (hw : w.Ok) {a : List M} {ds : List (List M)} (ha : 1 ≤ a.length)
    (h : DoublingLengths a.length ds) :
    waverec w .periodization ((a :: ds).map some) = .ok (some (recPer w.rec_lo w.rec_hi ds a)) ∧
      (recPer w.rec_lo w.rec_hi ds a).length = a.length * 2 ^ ds.length := by
  have := waverecLoop_per hw ds a ha h
  refine ⟨?_, this.2⟩
  cases ds with
  | nil => rfl
  | cons d ds => exact this.1

theorem half_len {N j : ℕ} (h : 2 ^ (j + 1) ∣ N) : 2 * (N / 2 ^ (j + 1)) = N / 2 ^ j := by
  obtain ⟨m, rfl⟩ := h
  rw [Nat.mul_div_cancel_left _ (by positivity), pow_succ, mul_assoc, Nat.mul_div_cancel_left _ (by positivity)]

theorem doubling_decimate (r : ℤ) {N : ℕ} : ∀ {ds : List (List M)}, (∀ d ∈ ds, d.length = N) →
    2 ^ ds.length ∣ N → DoublingLengths (N / 2 ^ ds.length) (decimateDetails r ds)
  | [], _, _ => trivial
  | d :: ds, h, hd => by
      refine ⟨by rw [decimate_length, h d (by simp)]; rfl, ?_⟩
      rw [List.length_cons, half_len hd]
      exact doubling_decimate r (fun e he => h e (by simp [he])) (dvd_trans (pow_dvd_pow 2 (by simp)) hd)

variable [Invertible (2 : R)]

theorem per_iswtStep {lo hi : List R} {s : ℕ} {a d : List M} (ha : 1 ≤ a.length) (hd : d.length = a.length) (q : ℤ) :
    (2 : R) • per (iswtStep lo hi s a d) q = per (atrousInv lo s a) q + per (atrousInv hi s d) q := by
  have h1 : (atrousInv lo s a).length = a.length := by simp [atrousInv]
  have h2 : (atrousInv hi s d).length = a.length := by simp [atrousInv, hd]
  unfold per
  rw [iswtStep_length lo hi s hd, h1, h2]
  have h0 := Int.emod_nonneg q (show (a.length : ℤ) ≠ 0 by omega)
  have hlt := Int.emod_lt_of_pos q (show (0 : ℤ) < a.length by omega)
  obtain ⟨k, hk⟩ := Int.eq_ofNat_of_zero_le h0
  rw [hk] at hlt ⊢
  have hk1 : k < a.length := by exact_mod_cast hlt
  rw [at'_nat, at'_nat, at'_nat, List.getD_eq_getElem _ _ (by rw [iswtStep_length lo hi s hd]; exact hk1),
    List.getD_eq_getElem _ _ (by rw [h1]; exact hk1), List.getD_eq_getElem _ _ (by rw [h2]; exact hk1)]
  simp only [iswtStep, List.getElem_zipWith]
  rw [smul_smul, mul_invOf_self, one_smul]

theorem spin_loop {lo hi : List R} (hlh : hi.length = lo.length) {N L : ℕ} (hN : 1 ≤ N) :
    ∀ (ds : List (List M)) (v : List M) (A : ℕ → List M), ds.length ≤ L → 2 ^ ds.length ∣ N → v.length = N →
      (∀ d ∈ ds, d.length = N) → (∀ r, (A r).length = N / 2 ^ ds.length) →
      (∀ q, ∑ r ∈ range (2 ^ L), embed ds.length (r : ℤ) (per (A r)) q = (2 ^ (L - ds.length) : R) • per v q) →
      ∀ q, ∑ r ∈ range (2 ^ L), embed 0 (r : ℤ) (per (recPer lo hi (decimateDetails r ds) (A r))) q =
        (2 ^ L : R) • per (iswtCascade lo hi ds v) q
  | [], v, A, _, _, _, _, _, h => by simpa [recPer, decimateDetails, iswtCascade] using h
  | d :: ds, v, A, hL, hd, hv, hds, hA, h => by
      simp only [decimateDetails, recPer, iswtCascade]
      have hdl := hds d (by simp)
      simp only [List.length_cons] at hL hd hA h
      have hpos : 1 ≤ N / 2 ^ (ds.length + 1) := Nat.div_pos (Nat.le_of_dvd (by omega) hd) (by positivity)
      refine spin_loop hlh hN ds (iswtStep lo hi (2 ^ ds.length) v d)
        (fun r => synthesis .periodization lo hi (A r) (decimate (ds.length + 1) r d)) (by omega)
        (dvd_trans (pow_dvd_pow 2 (by omega)) hd) (by rw [iswtStep_length _ _ _ (hdl.trans hv.symm), hv])
        (fun e he => hds e (by simp [he])) (fun r => ?_) fun q => ?_
      · rw [← half_len hd, ← hA r]; simp [synthesis]
      · have e : ∀ r ∈ range (2 ^ L), embed ds.length (r : ℤ)
            (per (synthesis .periodization lo hi (A r) (decimate (ds.length + 1) r d))) q = _ := fun r _ =>
          embed_synthesis hlh (by rw [hA]; exact hpos) (by rw [decimate_length, hA, hdl]) ds.length r q
        rw [sum_congr rfl e, sum_add_distrib, sum_comm, sum_comm (s := range (2 ^ L)) (t := range hi.length)]
        simp only [← smul_sum]
        simp only [h, sum_embed_decimate (R := R) (u := d) (by omega) hL (by rw [hdl]; exact hd)]
        rw [show L - ds.length = (L - (ds.length + 1)) + 1 by omega, pow_succ, mul_smul,
          per_iswtStep (by omega) (hdl.trans hv.symm), per_atrousInv (by omega), per_atrousInv (by omega), smul_add,
          smul_sum, smul_sum]
        push_cast
        congr 1 <;> refine sum_congr rfl fun i _ => smul_comm _ _ _

theorem embed_zero (r : ℤ) (g : ℤ → M) (q : ℤ) : embed 0 r g q = g (q - r) := by simp [embed]

theorem iswt_average {w : Wavelet R} (hw : w.Ok) {a : List M} {ds : List (List M)} (ha : a ≠ [])
    (hl : ∀ d ∈ ds, d.length = a.length) (hd : 2 ^ ds.length ∣ a.length) :
    ∃ (y : List M) (Y : ℕ → List M), iswt w none (.trimmed (a :: ds)) = .ok y ∧ y.length = a.length ∧
      (∀ r : ℕ, waverec w .periodization ((decimateAll r (a :: ds)).map some) = .ok (some (Y r)) ∧
        (Y r).length = a.length) ∧
      ∀ n < a.length, (2 ^ ds.length : R) • y.getD n 0 =
        ∑ r ∈ range (2 ^ ds.length), (shift r (Y r)).getD n 0 := by
  have ha1 := List.length_pos_iff.mpr ha
  have hhl : w.rec_hi.length = w.rec_lo.length := by
    have h4 : w.rec_lo.length = w.dec_lo.length := hw.2.2.2.1
    have h5 : w.rec_hi.length = w.dec_lo.length := hw.2.2.2.2
    omega
  have hpos : 1 ≤ a.length / 2 ^ ds.length := Nat.div_pos (Nat.le_of_dvd (by omega) hd) (by positivity)
  have hY : ∀ r : ℕ, waverec w .periodization ((decimateAll r (a :: ds)).map some) =
      .ok (some (recPer w.rec_lo w.rec_hi (decimateDetails r ds) (decimate ds.length r a))) ∧
        (recPer w.rec_lo w.rec_hi (decimateDetails r ds) (decimate ds.length r a)).length = a.length := by
    intro r
    have := waverec_per (a := decimate ds.length r a) (ds := decimateDetails r ds) hw
      (by rw [decimate_length]; exact hpos) (by rw [decimate_length]; exact doubling_decimate r hl hd)
    refine ⟨this.1, ?_⟩
    rw [this.2, decimateDetails_length, decimate_length, Nat.div_mul_cancel hd]
  refine ⟨iswtCascade w.rec_lo w.rec_hi ds a, _, iswtLoop_gen hw ds a ha1 hd hl, iswtCascade_length _ _ ds a hl,
    hY, fun n hn => ?_⟩
  have key := spin_loop (lo := w.rec_lo) (hi := w.rec_hi) (L := ds.length) hhl (N := a.length) ha1 ds a
    (fun r => decimate ds.length r a) le_rfl hd rfl hl (fun r => decimate_length _ _ _)
    (fun q => sum_embed_decimate ha1 le_rfl hd q) n
  rw [per_nat (by rw [iswtCascade_length _ _ ds a hl]; exact hn)] at key
  rw [← key]
  refine sum_congr rfl fun r _ => ?_
  rw [embed_zero, ← per_shift (by rw [(hY r).2]; exact ha1), per_nat (by rw [shift_length, (hY r).2]; exact hn)]

end mod

section edit

variable {M : Type} [AddCommGroup M]

theorem decimate_map {u : List M} (hu : 1 ≤ u.length) (g : M → M) (j : ℕ) (r : ℤ) :
    decimate j r (u.map g) = (decimate j r u).map g := by
  unfold decimate
  rw [List.map_map, List.length_map]
  apply List.map_congr_left
  intro k _
  have h0 := Int.emod_nonneg (r + 2 ^ j * (k : ℤ)) (show (u.length : ℤ) ≠ 0 by omega)
  have hlt := Int.emod_lt_of_pos (r + 2 ^ j * (k : ℤ)) (show (0 : ℤ) < u.length by omega)
  obtain ⟨t, ht⟩ := Int.eq_ofNat_of_zero_le h0
  simp only [Function.comp]
  rw [ht] at hlt ⊢
  have ht1 : t < u.length := by exact_mod_cast hlt
  rw [at'_nat, at'_nat, List.getD_eq_getElem _ _ (by simpa using ht1), List.getD_eq_getElem _ _ ht1, List.getElem_map]

theorem decimateDetails_edit (r : ℤ) : ∀ (ds : List (List M)) (g : ℕ → M → M), (∀ d ∈ ds, 1 ≤ d.length) →
    decimateDetails r (editAll g ds) = editAll g (decimateDetails r ds)
  | [], _, _ => rfl
  | d :: ds, g, h => by
      have ih := decimateDetails_edit r ds (fun i => g (i + 1)) fun e he => h e (by simp [he])
      simp only [editAll] at ih
      simp only [editAll, List.mapIdx_cons, decimateDetails, List.length_mapIdx, decimate_map (h d (by simp)), ih]

theorem decimateAll_edit (r : ℤ) (cs : List (List M)) (g : ℕ → M → M) (h : ∀ d ∈ cs, 1 ≤ d.length) :
    decimateAll r (editAll g cs) = editAll g (decimateAll r cs) := by
  cases cs with
  | nil => rfl
  | cons a ds =>
    have ih := decimateDetails_edit r ds (fun i => g (i + 1)) fun e he => h e (by simp [he])
    simp only [editAll] at ih
    simp only [editAll, List.mapIdx_cons, decimateAll, List.length_mapIdx, decimate_map (h a (by simp)), ih]

end edit

end Pywt
