import Verif.Proof.Biorth
import Verif.Proof.Multi
import Verif.Spec.DwtIdwt

/-! Analysis after synthesis: the coefficients of a reconstruction. -/

namespace Pywt

open Finset Spec

set_option linter.unusedSectionVars false

variable {R M : Type} [CommRing R] [AddCommGroup M] [Module R M]

theorem conv_add_fun (f : List R) (e e' : ℤ → M) (p : ℤ) : conv f (fun n => e n + e' n) p = conv f e p + conv f e' p := by
  unfold conv
  rw [← sum_add_distrib]
  refine sum_congr rfl fun j _ => smul_add _ _ _

theorem conv_periodic {f : List R} {e : ℤ → M} {P : ℤ} (h : ∀ p, e (p + P) = e p) (p : ℤ) :
    conv f e (p + P) = conv f e p := by
  unfold conv
  refine sum_congr rfl fun j _ => ?_
  rw [show p + P - (j : ℤ) = p - j + P by ring, h]

theorem upsample_periodic_add (a : List M) (p : ℤ) :
    upsample (ext .periodic a) (p + 2 * a.length) = upsample (ext .periodic a) p := by
  unfold upsample
  by_cases hp : p % 2 = 0
  · rw [if_pos (by omega), if_pos hp, show (p + 2 * (a.length : ℤ)) / 2 = p / 2 + a.length by omega]
    simp [Spec.ext]
  · rw [if_neg (by omega), if_neg hp]

/-- A function of period `P ≥ 1` is determined by its values at `0, …, P-1`. -/
theorem periodic_emod {e : ℤ → M} {P : ℤ} (h : ∀ p, e (p + P) = e p) (p : ℤ) : e (p % P) = e p := by
  have key : ∀ (k : ℕ) (p : ℤ), e (p + P * k) = e p := by
    intro k
    induction k with
    | zero => intro p; simp
    | succ k ih =>
      intro p
      rw [show p + P * ((k + 1 : ℕ) : ℤ) = p + P * k + P by push_cast; ring, h, ih]
  conv_rhs => rw [← Int.emod_add_mul_ediv p P]
  rcases Int.eq_nat_or_neg (p / P) with ⟨k, hk | hk⟩
  · rw [hk, key]
  · rw [hk]
    have := key k (p % P + P * -(k : ℤ))
    rw [← this]
    congr 1
    ring

/-- The coefficients of a reconstruction in periodization mode, one band. -/
theorem analysis_synthesis_per {f rl rh : List R} {F : ℕ} {α β : R} (hF : F % 2 = 0) (h2 : 2 ≤ F) (hf : f.length = F)
    (hl : rl.length = F) (hh : rh.length = F)
    (h1 : ∀ s, s % 2 = 1 → prodCoeff f rl s = if s + 1 = F then α else 0)
    (h3 : ∀ s, s % 2 = 1 → prodCoeff f rh s = if s + 1 = F then β else 0) {a d : List M} (had : d.length = a.length) :
    analysis .periodization f (synthesis .periodization rl rh a d) =
      (List.range a.length).map fun o => α • a.getD o 0 + β • d.getD o 0 := by
  set L := a.length with hL
  set c : ℤ := (F / 2 : ℕ) - 1 with hc
  set S : ℤ → M := fun n => conv rl (upsample (ext .periodic a)) (n + c) +
    conv rh (upsample (ext .periodic d)) (n + c) with hS
  have hy : synthesis .periodization rl rh a d = (List.range (2 * L)).map fun n : ℕ => S n := by
    unfold synthesis
    simp only [hl, hS, hc, ← hL]
  have hper : ∀ p, S (p + (2 * L : ℕ)) = S p := by
    intro p
    simp only [hS]
    rw [show p + ((2 * L : ℕ) : ℤ) + c = p + c + 2 * (a.length : ℤ) by push_cast; ring,
      conv_periodic (upsample_periodic_add a)]
    rw [← hL, ← had, conv_periodic (upsample_periodic_add d)]
  rw [hy]
  unfold analysis
  simp only [List.length_map, List.length_range]
  rw [show (2 * L + 1) / 2 = L by omega]
  refine List.map_congr_left fun o ho => ?_
  rw [List.mem_range] at ho
  have hext : ∀ p, ext .periodization ((List.range (2 * L)).map fun n : ℕ => S n) p = S p := by
    intro p
    unfold Spec.ext evenPad
    simp only [List.length_map, List.length_range]
    rw [if_neg (by omega)]
    simp only [List.length_map, List.length_range]
    have hp0 := Int.emod_nonneg p (b := ((2 * L : ℕ) : ℤ)) (by omega)
    have hp1 := Int.emod_lt_of_pos p (b := ((2 * L : ℕ) : ℤ)) (by omega)
    rw [at'_of (k := (p % ((2 * L : ℕ) : ℤ)).toNat) (by omega),
      List.getD_eq_getElem _ _ (by rw [List.length_map, List.length_range]; omega), List.getElem_map, List.getElem_range, Int.toNat_of_nonneg hp0, periodic_emod hper]
  rw [conv_congr (e' := S) (fun j _ => hext _), hS, conv_add_fun, hf]
  rw [show ((F / 2 : ℕ) : ℤ) + 2 * (o : ℤ) = 2 * (o : ℤ) + (F / 2 : ℕ) by ring,
    conv_upsample_dual hF h2 hf hl h1 _ _ _ _ (by rw [hc]; omega),
    conv_upsample_dual hF h2 hf hh h3 _ _ _ _ (by rw [hc]; omega)]
  have hx : ∀ x : List M, x.length = L → ext .periodic x (o : ℤ) = x.getD o 0 := by
    intro x hx
    unfold Spec.ext
    rw [hx]
    exact at'_of (Int.emod_eq_of_lt (by omega) (by omega))
  rw [hx a rfl, hx d had]

theorem map_range_getD (a : List M) : (List.range a.length).map (fun o => a.getD o 0) = a := by
  apply List.ext_getElem
  · simp
  · intro i h1 h2
    rw [List.getElem_map, List.getElem_range, List.getD_eq_getElem _ _ h2]

/-- In periodization mode `dwt` is also a left inverse of `idwt`. -/
theorem dwt_idwt_per {w : Wavelet R} (hw : w.Ok) (hpr : PR w.dec_lo w.dec_hi w.rec_lo w.rec_hi) {a d : List M}
    (had : a.length = d.length) (h1 : 1 ≤ a.length) :
    ∃ x, idwt w .periodization (some a) (some d) = .ok x ∧ x.length = 2 * a.length ∧
      dwt w .periodization x = .ok (a, d) := by
  obtain ⟨k1, k2, k3, k4, k5⟩ := hw
  have hw : w.Ok := ⟨k1, k2, k3, k4, k5⟩
  have hsl : synthLen .periodization a.length w.rec_len = 2 * a.length := rfl
  have hxl : (synthesis .periodization w.rec_lo w.rec_hi a d).length = 2 * a.length := by simp [synthesis]
  refine ⟨_, idwt_ok hw had (by rw [hsl]; omega), hxl, ?_⟩
  rw [dwt_ok hw ⟨by rw [hxl]; omega, by simp⟩]
  have hd := fun s (hs : s % 2 = 1) => PR_dual k2 k1 hpr hs
  rw [analysis_synthesis_per (F := w.dec_lo.length) (α := 1) (β := 0) k2 k1 rfl (by omega) (by omega)
      (fun s hs => (hd s hs).1) (fun s hs => by rw [(hd s hs).2.1]; simp) had.symm,
    analysis_synthesis_per (F := w.dec_lo.length) (α := 0) (β := 1) k2 k1 k3 (by omega) (by omega)
      (fun s hs => by rw [(hd s hs).2.2.1]; simp) (fun s hs => (hd s hs).2.2.2) had.symm]
  simp only [one_smul, zero_smul, add_zero, zero_add]
  rw [map_range_getD, had, map_range_getD]

/-- In the other modes the coefficients whose filters do not reach over the ends are recovered. -/
theorem dwt_idwt_inner {w : Wavelet R} (hw : w.Ok) (hpr : PR w.dec_lo w.dec_hi w.rec_lo w.rec_hi) {mode : Mode}
    (hm : mode ≠ .periodization) {a d : List M} (had : a.length = d.length)
    (h1 : LenOk mode (2 * a.length + 2 - w.dec_len)) :
    ∃ x a' d', idwt w mode (some a) (some d) = .ok x ∧ dwt w mode x = .ok (a', d') ∧ a'.length = a.length ∧
      d'.length = d.length ∧ ∀ o, w.dec_len / 2 - 1 ≤ o → o + w.dec_len / 2 ≤ a.length →
        a'.getD o 0 = a.getD o 0 ∧ d'.getD o 0 = d.getD o 0 := by
  obtain ⟨k1, k2, k3, k4, k5⟩ := hw
  have hw : w.Ok := ⟨k1, k2, k3, k4, k5⟩
  set F := w.dec_lo.length with hF
  have hdl : w.dec_len = F := rfl
  have hrl : w.rec_len = F := k4
  rw [hdl] at h1 ⊢
  have h10 := h1.1
  have hsl : synthLen mode a.length w.rec_len = 2 * a.length + 2 - F := by
    rw [hrl]
    simp [synthLen, hm]
  set S : ℤ → M := fun n => conv w.rec_lo (upsample (ext .zero a)) (n + (F - 2)) +
    conv w.rec_hi (upsample (ext .zero d)) (n + (F - 2)) with hS
  have hy : synthesis mode w.rec_lo w.rec_hi a d = (List.range (2 * a.length + 2 - F)).map fun n : ℕ => S n := by
    unfold synthesis
    cases mode <;> first | exact absurd rfl hm | simp only [hS, k4]
  set x := (List.range (2 * a.length + 2 - F)).map fun n : ℕ => S n with hx
  have hxl : x.length = 2 * a.length + 2 - F := by simp [hx]
  have hal : ∀ f : List R, f.length = F → (analysis mode f x).length = a.length := by
    intro f hf
    rw [analysis_length, hf, hxl]
    unfold coeffLen
    rw [if_neg hm]
    omega
  refine ⟨x, _, _, by rw [idwt_ok hw had (by rw [hsl]; omega), hy], dwt_ok hw (show LenOk mode x.length by rw [hxl]; exact h1), hal _ rfl,
    by rw [hal _ k3, had], ?_⟩
  intro o ho1 ho2
  have hext : ∀ p : ℤ, 0 ≤ p → p < (2 * a.length + 2 - F : ℕ) → ext mode x p = S p := by
    intro p hp0 hp1
    obtain ⟨k, rfl⟩ : ∃ k : ℕ, p = k := ⟨p.toNat, by omega⟩
    rw [ext_in x mode (by rw [hxl]; omega), List.getD_eq_getElem _ _ (by rw [hxl]; omega)]
    simp only [hx, List.getElem_map, List.getElem_range]
  have hget : ∀ f : List R, f.length = F → (analysis mode f x).getD o 0 = conv f S (2 * (o : ℤ) + 1) := by
    intro f hf
    rw [List.getD_eq_getElem _ _ (by rw [hal f hf]; omega)]
    have : (analysis mode f x)[o]'(by rw [hal f hf]; omega) = conv f (ext mode x) (2 * (o : ℤ) + 1) := by
      cases mode <;> first | exact absurd rfl hm | simp [analysis]
    rw [this]
    refine conv_congr fun j hj => hext _ ?_ ?_ <;> omega
  have hz : ∀ v : List M, v.length = a.length → ext .zero v (o : ℤ) = v.getD o 0 := by
    intro v hv
    exact ext_in v .zero (by omega)
  have hd := fun s (hs : s % 2 = 1) => PR_dual k2 k1 hpr hs
  rw [hget _ rfl, hget _ k3, hS, conv_add_fun, conv_add_fun,
    conv_upsample_dual (F := F) (δ := 1) k2 k1 rfl k4 (fun s hs => (hd s hs).1) _ _ _ _ (by ring),
    conv_upsample_dual (F := F) (δ := 0) k2 k1 rfl k5 (fun s hs => by rw [(hd s hs).2.1]; simp) _ _ _ _ (by ring),
    conv_upsample_dual (F := F) (δ := 0) k2 k1 k3 k4 (fun s hs => by rw [(hd s hs).2.2.1]; simp) _ _ _ _ (by ring),
    conv_upsample_dual (F := F) (δ := 1) k2 k1 k3 k5 (fun s hs => (hd s hs).2.2.2) _ _ _ _ (by ring)]
  simp only [one_smul, zero_smul, add_zero, zero_add]
  exact ⟨hz a rfl, hz d had.symm⟩

theorem wavedec_waverec_loop {w : Wavelet R} (hw : w.Ok) (hpr : PR w.dec_lo w.dec_hi w.rec_lo w.rec_hi)
    (ds : List (List M)) : ∀ (a : List M), 1 ≤ a.length → DoublingLengths a.length ds →
      ∃ x, waverecLoop w .periodization (some a) (ds.map some) = .ok (some x) ∧
        x.length = 2 ^ ds.length * a.length ∧
        ∀ (n : ℕ) (acc : List (List M)), wavedecLoop w .periodization (ds.length + n) x acc =
          wavedecLoop w .periodization n a (acc ++ ds.reverse) := by
  induction ds with
  | nil =>
    intro a _ _
    exact ⟨a, rfl, by simp, fun n acc => by simp⟩
  | cons d ds ih =>
    intro a h1 hd
    obtain ⟨hd1, hd2⟩ := hd
    obtain ⟨y, hy1, hy2, hy3⟩ := dwt_idwt_per hw hpr hd1.symm h1
    rw [← hy2] at hd2
    obtain ⟨x, hx1, hx2, hx3⟩ := ih y (by omega) hd2
    refine ⟨x, ?_, ?_, ?_⟩
    · rw [List.map_cons, waverecLoop, waverecTrim]
      rw [if_neg (by omega), if_neg (by omega), Py_bind_ok, hy1, Py_bind_ok]
      exact hx1
    · rw [hx2, hy2, List.length_cons, pow_succ]
      ring
    · intro n acc
      rw [List.length_cons, show ds.length + 1 + n = ds.length + (n + 1) by omega, hx3, wavedecLoop, hy3]
      simp only [Py_bind_ok]
      rw [List.append_assoc, List.reverse_cons]

theorem wavedec_waverec {w : Wavelet R} (hw : w.Ok) (hpr : PR w.dec_lo w.dec_hi w.rec_lo w.rec_hi) {a : List M}
    {ds : List (List M)} (h1 : 1 ≤ a.length) (hd : DoublingLengths a.length ds) :
    ∃ x, waverec w .periodization (some a :: ds.map some) = .ok (some x) ∧ x.length = 2 ^ ds.length * a.length ∧
      wavedec w .periodization (some ds.length) x = .ok (a :: ds) := by
  obtain ⟨x, hx1, hx2, hx3⟩ := wavedec_waverec_loop hw hpr ds a h1 hd
  refine ⟨x, ?_, hx2, ?_⟩
  · cases ds with
    | nil => exact hx1
    | cons d ds => exact hx1
  · unfold wavedec
    rw [checkLevel_one (show 2 ≤ w.dec_len from hw.1)]
    simp only
    rw [if_neg (by omega), Py_bind_ok]
    have := hx3 0 []
    simp only [Nat.add_zero, List.nil_append, wavedecLoop] at this
    rw [Int.toNat_natCast, this]
    simp

end Pywt
