import Verif.Proof.NearOrth
import Verif.Props.Builtin

/-!
# C65: the built-in orthogonal wavelets keep Euclidean norms and distances up to their tolerance

C17 and C63 are about banks that are orthogonal exactly. The tables of PyWavelets are rounded decimals, so no
built-in wavelet is; here the same statements are proved for them with explicit error terms.
-/

namespace Pywt

open Finset Spec

set_option autoImplicit false

/-- **C65.** Every built-in wavelet that says it is orthogonal is orthogonal up to the tolerance of its family. -/
theorem C65_builtin_near_orthogonal {name : String} {fam : Family} {order : ℕ}
    (h : (name, fam, order) ∈ wnameToCode) (hd : fam.isDiscrete = true) (single : Bool) {o : WaveletObj ℤ}
    (ho : waveletNamed single name = .ok o) (horth : o.orthogonal = true) :
    NearOrthogonal (((tolerance single fam).1 : ℝ) / (tolerance single fam).2) (realBank o.w) := by
  obtain ⟨o', h1, -, h2, h3⟩ := C35_tables h hd single
  have : o' = o := by rw [h1] at ho; simpa using ho
  subst this
  obtain ⟨m1, m2⟩ := C35_orthogonal_mirror h hd single h1 horth
  refine ⟨realBank_ok h2, ?_, ?_, h3⟩
  · simp only [realBank, m1, List.map_reverse]
  · simp only [realBank, m2, List.map_reverse]

example : ("db7", Family.db, 7) ∈ wnameToCode ∧ Family.db.isDiscrete = true ∧
    (waveletNamed false "db7").map (fun o => o.orthogonal) = .ok true := by decide +kernel

/-- **C65.** One level: the energy of the coefficients differs from that of the signal by at most `ε` times the
energy of the signal. -/
theorem C65_dwt_energy {ε : ℝ} {w : Wavelet ℝ} (h : NearOrthogonal ε w) {x cA cD : List ℝ}
    (hev : x.length % 2 = 0) (hr : dwt w .periodization x = .ok (cA, cD)) :
    |energy cA + energy cD - energy x| ≤ ε * energy x := by
  have hx : SignalOk .periodization x := by
    by_contra hx
    rw [dwt_err h.1 hx] at hr
    simp at hr
  rw [dwt_ok h.1 hx] at hr
  simp only [Except.ok.injEq, Prod.mk.injEq] at hr
  obtain ⟨rfl, rfl⟩ := hr
  have := hx.1
  exact analysis_energy h (L := x.length / 2) (by omega) (by omega)

/-- **C65.** Any number of levels: the energy of all coefficients is between `(1-ε)^l` and `(1+ε)^l` times that of
the signal. -/
theorem C65_wavedec_energy {ε : ℝ} {w : Wavelet ℝ} (h : NearOrthogonal ε w) (hε : ε ≤ 1) {l : ℕ} {x : List ℝ}
    {cs : List (List ℝ)} (hx : 2 ^ l ∣ x.length) (hr : wavedec w .periodization (some (l : ℤ)) x = .ok cs) :
    (1 - ε) ^ l * energy x ≤ (cs.map energy).sum ∧ (cs.map energy).sum ≤ (1 + ε) ^ l * energy x := by
  obtain ⟨hok, rfl⟩ := wavedec_cascade h.1 hr
  rcases Nat.eq_zero_or_pos x.length with h0 | h0
  · cases l with
    | zero => simp [cascade, approx]
    | succ l =>
      have := hok 0 (by omega)
      unfold LenOk at this
      simp [approxLen, h0] at this
  · exact cascade_energy h hε l x h0 hx

/-- **C65.** Two signals are nearly as far apart as their coefficients. -/
theorem C65_wavedec_near_isometry {ε : ℝ} {w : Wavelet ℝ} (h : NearOrthogonal ε w) (hε : ε ≤ 1) {l : ℕ}
    {x y : List ℝ} {cs es : List (List ℝ)} (hl : y.length = x.length) (hx : 2 ^ l ∣ x.length)
    (hr : wavedec w .periodization (some (l : ℤ)) x = .ok cs)
    (hy : wavedec w .periodization (some (l : ℤ)) y = .ok es) :
    (1 - ε) ^ l * dist2 y x ≤ dist2s es cs ∧ dist2s es cs ≤ (1 + ε) ^ l * dist2 y x := by
  obtain ⟨hok, rfl⟩ := wavedec_cascade h.1 hr
  obtain ⟨-, rfl⟩ := wavedec_cascade h.1 hy
  set z := (y.zip x).map (LinearMap.fst ℝ ℝ ℝ - LinearMap.snd ℝ ℝ ℝ) with hz
  have hzl : z.length = x.length := by simp [z, hl]
  have hzr : wavedec w .periodization (some (l : ℤ)) z =
      .ok (cascade .periodization w.dec_lo w.dec_hi l z) := by
    rw [C09_wavedec_explicit_level h.1, if_neg (by omega), Int.toNat_natCast, if_pos (hzl ▸ hok)]
  have he := C65_wavedec_energy h hε (hzl ▸ hx) hzr
  rw [hz, cascade_map, List.map_map, ← dist2_pairs, zip_map_fst' hl, zip_map_snd' hl] at he
  have e : dist2s (cascade .periodization w.dec_lo w.dec_hi l y) (cascade .periodization w.dec_lo w.dec_hi l x) =
      ((cascade .periodization w.dec_lo w.dec_hi l (y.zip x)).map
        (energy ∘ fun c => c.map (LinearMap.fst ℝ ℝ ℝ - LinearMap.snd ℝ ℝ ℝ))).sum := by
    have e1 : cascade .periodization w.dec_lo w.dec_hi l y =
        (cascade .periodization w.dec_lo w.dec_hi l (y.zip x)).map fun c => c.map (LinearMap.fst ℝ ℝ ℝ) := by
      rw [← cascade_map, zip_map_fst' hl]
    have e2 : cascade .periodization w.dec_lo w.dec_hi l x =
        (cascade .periodization w.dec_lo w.dec_hi l (y.zip x)).map fun c => c.map (LinearMap.snd ℝ ℝ ℝ) := by
      rw [← cascade_map, zip_map_snd' hl]
    unfold dist2s
    rw [e1, e2, List.zipWith_map, List.zipWith_self]
    congr 1
    exact List.map_congr_left fun c _ => dist2_pairs c
  rw [e]
  exact he

/-- **C65.** Synthesis from arbitrary coefficients adds at most the factor `(1+ε)^l` to the energy. -/
theorem C65_waverec_energy {ε : ℝ} {w : Wavelet ℝ} (h : NearOrthogonal ε w) {a : List ℝ} {ds : List (List ℝ)}
    (h1 : 1 ≤ a.length) (hd : DoublingLengths a.length ds) :
    ∃ y, waverec w .periodization ((a :: ds).map some) = .ok (some y) ∧ y.length = a.length * 2 ^ ds.length ∧
      energy y ≤ (1 + ε) ^ ds.length * (energy a + (ds.map energy).sum) :=
  ⟨_, (waverec_per h.1 h1 hd).1, (waverec_per h.1 h1 hd).2, recPer_energy h ds a h1 hd⟩

/-- **C65.** For edited coefficients `cs'` in place of the coefficients `cs` of a signal: the reconstruction is
away from the signal by at most `√((1+ε)^l)` times the distance of the coefficients, plus `(1+ε)^l - 1` times the
norm of the signal. -/
theorem C65_edit_error {ε : ℝ} {w : Wavelet ℝ} (h : NearOrthogonal ε w) {l : ℕ} {x : List ℝ}
    {cs cs' : List (List ℝ)} (hx0 : x ≠ []) (hx : 2 ^ l ∣ x.length)
    (hr : wavedec w .periodization (some (l : ℤ)) x = .ok cs) (hl : cs'.map List.length = cs.map List.length) :
    ∃ y, waverec w .periodization (cs'.map some) = .ok (some y) ∧ y.length = x.length ∧
      distance y x ≤ √((1 + ε) ^ l) * √(dist2s cs' cs) + ((1 + ε) ^ l - 1) * norm2 x := by
  obtain ⟨hok, hcs⟩ := wavedec_cascade h.1 hr
  have hx1 : 1 ≤ x.length := List.length_pos_of_ne_nil hx0
  have hε0 := near_nonneg h
  cases cs' with
  | nil => rw [hcs] at hl; simp [cascade] at hl
  | cons a' ds' =>
    cases cs with
    | nil => simp at hl
    | cons a ds =>
      simp only [List.map_cons, List.cons.injEq] at hl
      have hdl : ds.length = l := by have := congrArg List.length hcs; simp [cascade] at this; omega
      have hdl' : ds'.length = l := by
        have := congrArg List.length hl.2
        simp at this
        omega
      have hal : a.length = x.length / 2 ^ l := by
        have e : a = approx .periodization w.dec_lo l x := by rw [cascade] at hcs; exact (List.cons.inj hcs).1
        rw [e, approx_length, approxLen_per_div hx]
      have hpos : 1 ≤ x.length / 2 ^ l := Nat.div_pos (Nat.le_of_dvd (by omega) hx) (by positivity)
      have hdb : DoublingLengths a.length ds := by
        have e : ds = ((List.range l).map fun j => detail .periodization w.dec_lo w.dec_hi j x).reverse := by
          rw [cascade] at hcs; exact (List.cons.inj hcs).2
        rw [hal, e]
        exact doubling_cascade h.1 hx
      have hdb' : DoublingLengths a'.length ds' := by rw [hl.1]; exact doubling_of_lens hl.2 hdb
      obtain ⟨e1, e2⟩ := waverec_per (w := w) (a := a') (ds := ds') h.1 (by omega) hdb'
      have hlen : (recPer w.rec_lo w.rec_hi ds' a').length = x.length := by
        rw [e2, hl.1, hal, hdl', Nat.div_mul_cancel hx]
      obtain ⟨-, e4⟩ := waverec_per (w := w) (a := a) (ds := ds) h.1 (by omega) hdb
      have hlen2 : (recPer w.rec_lo w.rec_hi ds a).length = x.length := by
        rw [e4, hal, hdl, Nat.div_mul_cancel hx]
      refine ⟨_, e1, hlen, ?_⟩
      unfold distance
      refine (dist2_triangle (y := recPer w.rec_lo w.rec_hi ds a) (by omega) (by omega)).trans (add_le_add ?_ ?_)
      · have := recPer_dist (ds := ds') (es := ds) (a := a') (b := a) h (by omega) hl.1 hl.2 hdb'
        rw [← Real.sqrt_mul (by positivity), ← hdl']
        exact Real.sqrt_le_sqrt this
      · rw [tripL_eq w l x a ds hcs.symm]
        exact (tripL_dist h l x hx1 hx).2

/-- **C65.** The round trip over `l` levels is off by at most `(1+ε)^l - 1` times the norm of the signal. -/
theorem C65_round_trip {ε : ℝ} {w : Wavelet ℝ} (h : NearOrthogonal ε w) {l : ℕ} {x : List ℝ}
    {cs : List (List ℝ)} (hx0 : x ≠ []) (hx : 2 ^ l ∣ x.length)
    (hr : wavedec w .periodization (some (l : ℤ)) x = .ok cs) :
    ∃ y, waverec w .periodization (cs.map some) = .ok (some y) ∧ y.length = x.length ∧
      distance y x ≤ ((1 + ε) ^ l - 1) * norm2 x := by
  obtain ⟨y, h1, h2, h3⟩ := C65_edit_error h (cs' := cs) hx0 hx hr rfl
  refine ⟨y, h1, h2, h3.trans (le_of_eq ?_)⟩
  have : dist2s cs cs = 0 := by
    unfold dist2s
    rw [List.zipWith_self]
    exact List.sum_eq_zero fun v hv => by
      obtain ⟨u, -, rfl⟩ := List.mem_map.1 hv
      exact dist2_self u
  rw [this, Real.sqrt_zero, mul_zero, zero_add]

theorem one_add_pow_le {ε : ℝ} (h0 : 0 ≤ ε) {l : ℕ} (h : l * ε ≤ 1) : (1 + ε) ^ l ≤ 1 + 2 * (l * ε) := by
  have key : ∀ l : ℕ, l * ε ≤ 1 → (1 + ε) ^ l ≤ 1 + l * ε + (l * ε) ^ 2 := by
    intro l
    induction l with
    | zero => simp
    | succ l ih =>
      intro h
      push_cast at h ⊢
      have hl0 : 0 ≤ (l : ℝ) * ε := by positivity
      have hl : (l : ℝ) * ε ≤ 1 := by linarith
      have i := ih hl
      set t := (l : ℝ) * ε with ht
      rw [show ((l : ℝ) + 1) * ε = t + ε by rw [ht]; ring]
      calc (1 + ε) ^ (l + 1) = (1 + ε) ^ l * (1 + ε) := pow_succ _ _
        _ ≤ (1 + t + t ^ 2) * (1 + ε) := mul_le_mul_of_nonneg_right i (by linarith)
        _ ≤ _ := by nlinarith [mul_nonneg (mul_nonneg hl0 h0) (sub_nonneg.2 hl), sq_nonneg ε]
  have := key l h
  have hl0 : 0 ≤ (l : ℝ) * ε := by positivity
  nlinarith

/-- **C65.** What this means for the built-in wavelets: with `τ` the tolerance of the family (`3·10⁻¹⁶` for the
Haar, Daubechies and Coiflet wavelets in double precision, see `tolerance`) and as long as `l·τ ≤ 1`, `l` levels of
`wavedec` change the energy by at most `2·l·τ` of it, and `waverec` comes back to the signal up to `2·l·τ` of its
norm. -/
theorem C65_builtin {name : String} {fam : Family} {order : ℕ} (h : (name, fam, order) ∈ wnameToCode)
    (hd : fam.isDiscrete = true) (single : Bool) {o : WaveletObj ℤ} (ho : waveletNamed single name = .ok o)
    (horth : o.orthogonal = true) {τ : ℝ} (hτ : τ = ((tolerance single fam).1 : ℝ) / (tolerance single fam).2)
    {l : ℕ} (hl : l * τ ≤ 1) {x : List ℝ} {cs : List (List ℝ)} (hx0 : x ≠ []) (hx : 2 ^ l ∣ x.length)
    (hr : wavedec (realBank o.w) .periodization (some (l : ℤ)) x = .ok cs) :
    |(cs.map energy).sum - energy x| ≤ 2 * (l * τ) * energy x ∧
      ∃ y, waverec (realBank o.w) .periodization (cs.map some) = .ok (some y) ∧ y.length = x.length ∧
        distance y x ≤ 2 * (l * τ) * norm2 x := by
  have hn := C65_builtin_near_orthogonal h hd single ho horth
  rw [← hτ] at hn
  have h0 := near_nonneg hn
  have hp := one_add_pow_le h0 hl
  have hl0 : 0 ≤ (l : ℝ) * τ := by positivity
  have hτ1 : τ ≤ 1 := by
    rw [hτ]
    cases single <;> cases fam <;> norm_num [tolerance]
  constructor
  · obtain ⟨e1, e2⟩ := C65_wavedec_energy hn hτ1 hx hr
    have he := energy_nonneg x
    have hb : 1 - l * τ ≤ (1 - τ) ^ l := by
      have := one_add_mul_le_pow (a := -τ) (by linarith) l
      calc _ = 1 + (l : ℝ) * -τ := by ring
        _ ≤ (1 + -τ) ^ l := this
        _ = _ := by ring
    rw [abs_le]
    constructor <;> nlinarith [mul_nonneg hl0 he]
  · obtain ⟨y, y1, y2, y3⟩ := C65_round_trip hn hx0 hx hr
    exact ⟨y, y1, y2, y3.trans (mul_le_mul_of_nonneg_right (by linarith) (Real.sqrt_nonneg _))⟩

/-- The hypotheses are met by the wavelet `db2` and a signal of four samples, transformed over two levels. -/
example : ∃ o cs, ("db2", Family.db, 2) ∈ wnameToCode ∧ waveletNamed false "db2" = .ok o ∧ o.orthogonal = true ∧
    wavedec (realBank o.w) .periodization (some ((2 : ℕ) : ℤ)) [(1 : ℝ), 2, 3, 4] = .ok cs := by
  have hm : ("db2", Family.db, 2) ∈ wnameToCode := by decide +kernel
  obtain ⟨o, h1, -, h2, -⟩ := C35_tables hm rfl false
  have hor : (waveletNamed false "db2").map (fun o => o.orthogonal) = .ok true := by decide +kernel
  rw [h1] at hor
  refine ⟨o, cascade .periodization (realBank o.w).dec_lo (realBank o.w).dec_hi 2 [1, 2, 3, 4], hm, h1,
    by simpa [Except.map] using hor, ?_⟩
  rw [C09_wavedec_explicit_level (realBank_ok h2), if_neg (by omega), Int.toNat_natCast,
    if_pos (levelsOk_per_div (by simp) (by simp))]

end Pywt
