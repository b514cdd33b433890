import Verif.Model.Data
import Verif.Proof.Dwt
import Verif.Proof.IeeeEval

/-!
# Lengths and values of the demo signals
-/

set_option linter.unusedSectionVars false
set_option autoImplicit false

namespace Pywt

open Spec

/-! ## Vectors -/

theorem arangeF_length (fl : ℝ → ℝ) (a b s : ℝ) : (arangeF fl a b s).length = ⌈fl (fl (b - a) / s)⌉.toNat := by
  simp [arangeF]

theorem arangeI_length (a b : ℤ) : (arangeI a b).length = (b - a).toNat := by simp [arangeI]

theorem bop_ok {g : ℝ → ℝ → ℝ} {a b : List ℝ} (h : a.length = b.length) :
    ∃ c, bop g a b = .ok c ∧ c.length = a.length := by
  unfold bop
  rw [if_pos h]
  exact ⟨_, rfl, by simp [h]⟩

theorem setSlice_ok {f v : List ℝ} {a b : ℕ} (hb : b ≤ f.length) (hab : a ≤ b) (hv : v.length = b - a) :
    ∃ g, setSlice f a b v = .ok g ∧ g.length = f.length := by
  unfold setSlice
  simp only
  rw [if_pos (by omega)]
  refine ⟨_, rfl, ?_⟩
  simp
  omega

theorem setSlice_ok' {n : ℕ} {f v : List ℝ} {a b : ℕ} (hf : f.length = n) (hb : b ≤ n) (hab : a ≤ b)
    (hv : v.length = b - a) : ∃ g, setSlice f a b v = .ok g ∧ g.length = n := by
  subst hf
  exact setSlice_ok hb hab hv

theorem setSlice_one {f v : List ℝ} {a b : ℕ} (hb : b ≤ f.length) (hab : a ≤ b) (hv : v.length = 1) :
    ∃ g, setSlice f a b v = .ok g ∧ g.length = f.length := by
  by_cases h : v.length = b - a
  · exact setSlice_ok hb hab h
  unfold setSlice
  simp only
  rw [if_neg (by omega), if_pos hv]
  refine ⟨_, rfl, ?_⟩
  simp
  omega

theorem setSlice_error {f v : List ℝ} {a b : ℕ} (hb : b ≤ f.length) (hab : a ≤ b) (hv : v.length ≠ b - a)
    (h1 : v.length ≠ 1) : setSlice f a b v = .error .value := by
  unfold setSlice
  simp only
  rw [if_neg (by omega), if_neg h1]

theorem setSliceRev_ok {f v : List ℝ} {hi lo : ℤ} (h : v.length = (revBound f.length hi - revBound f.length lo).toNat) :
    ∃ g, setSliceRev f hi lo v = .ok g ∧ g.length = f.length := by
  unfold setSliceRev
  simp only
  have : (if v.length = 1 then List.replicate (revBound f.length hi - revBound f.length lo).toNat (v.getD 0 0) else v).length =
      (revBound f.length hi - revBound f.length lo).toNat := by
    split_ifs
    · simp
    · exact h
  rw [if_pos this]
  exact ⟨_, rfl, by simp⟩

theorem revFrom_length (f : List ℝ) (hi : ℤ) :
    (revFrom f hi).length = min (revBound f.length hi + 1).toNat f.length := by
  simp [revFrom]

theorem bind_ok' {α β : Type} {x : Py α} {a : α} {f : α → Py β} (h : x = .ok a) : (x >>= f) = f a := by rw [h]; rfl

theorem sum_sub_mean {f : List ℝ} {n : ℕ} (hn : 1 ≤ n) (hf : f.length = n) :
    (f.map (f.sum / n - ·)).sum = 0 ∧ (f.map (· - f.sum / n)).sum = 0 := by
  have h1 : ∀ (l : List ℝ) (b : ℝ), (l.map (b - ·)).sum = l.length * b - l.sum := by
    intro l b
    induction l with
    | nil => simp
    | cons a l ih => simp only [List.map_cons, List.sum_cons, ih, List.length_cons]; push_cast; ring
  have h2 : ∀ (l : List ℝ) (b : ℝ), (l.map (· - b)).sum = l.sum - l.length * b := by
    intro l b
    induction l with
    | nil => simp
    | cons a l ih => simp only [List.map_cons, List.sum_cons, ih, List.length_cons]; push_cast; ring
  have hn' : (n : ℝ) ≠ 0 := by positivity
  rw [h1, h2, hf, mul_div_cancel₀ _ hn']
  simp

/-! ## The signals -/

theorem linChirps_length (n : ℕ) : (linChirps n).length = n := by
  simp [linChirps, arangeI_length]

theorem gabor_length : gabor.length = 512 := by
  simp [gabor, arangeI_length]

theorem sineOneOverX_length : sineOneOverX.length = 1024 := by
  simp [sineOneOverX, arangeI_length]

theorem bind_len {n : ℕ} {x : Py (List ℝ)} {k : List ℝ → Py (List ℝ)} (P : Py (List ℝ) → Prop)
    (hx : ∃ g, x = .ok g ∧ g.length = n) (hk : ∀ g, g.length = n → P (k g)) : P (x >>= k) := by
  obtain ⟨g, h, hg⟩ := hx
  rw [h]
  exact hk g hg

/-- The outcome of the piecewise signals. -/
def PieceOut (n : ℕ) (r : Py (List ℝ)) : Prop :=
  (¬ 5 ∣ n → ∃ f, r = .ok f ∧ f.length = n ∧ f.sum = 0) ∧ (5 ∣ n → r = .error .value)

theorem revFrom_tail {n : ℕ} (hn : 1 ≤ n) {g : List ℝ} (hg : g.length = n) :
    (¬ 5 ∣ n → (revFrom g ((n : ℤ) - 5 * ((n / 5 : ℕ) : ℤ) - 1)).length = n - 5 * (n / 5)) ∧
    (5 ∣ n → (revFrom g ((n : ℤ) - 5 * ((n / 5 : ℕ) : ℤ) - 1)).length = n) := by
  rw [revFrom_length, hg]
  unfold revBound
  constructor
  · intro h
    have : n % 5 ≠ 0 := fun h' => h (Nat.dvd_of_mod_eq_zero h')
    rw [if_neg (by omega)]
    omega
  · intro h
    have : n % 5 = 0 := Nat.mod_eq_zero_of_dvd h
    rw [if_pos (by omega)]
    omega

theorem tail_step {n : ℕ} (hn : 1 ≤ n) {g : List ℝ} (hg : g.length = n) {k : List ℝ → Py (List ℝ)}
    (hk : ∀ g, g.length = n → ∃ f, k g = .ok f ∧ f.length = n ∧ f.sum = 0) :
    PieceOut n (setSlice g (5 * (n / 5)) n (revFrom g ((n : ℤ) - 5 * ((n / 5 : ℕ) : ℤ) - 1)) >>= k) := by
  obtain ⟨h1, h2⟩ := revFrom_tail hn hg
  refine ⟨fun h => ?_, fun h => ?_⟩
  · obtain ⟨g', e, l⟩ := setSlice_ok (f := g) (a := 5 * (n / 5)) (b := n) hg.ge (by omega) (h1 h)
    rw [e]
    exact hk g' (l.trans hg)
  · obtain ⟨c, hc⟩ := h
    rw [setSlice_error hg.ge (by omega) (by rw [h2 ⟨c, hc⟩]; omega) (by rw [h2 ⟨c, hc⟩]; omega)]
    rfl

theorem pieceRegular_cases (fl : ℝ → ℝ) {n : ℕ} (hn : 1 ≤ n) {bumps : List ℝ} (hb : n ≤ bumps.length) :
    PieceOut n (pieceRegular fl n bumps) := by
  simp only [pieceRegular]
  refine bind_len (n := n) (PieceOut n) ?_ fun g1 l1 => ?_
  · refine setSlice_ok' (by simp) (by omega) (by omega) ?_
    simp [arangeI_length]
    omega
  refine bind_len (n := n) (PieceOut n) ?_ fun g2 l2 => ?_
  · refine setSlice_ok' l1 (by omega) (by omega) ?_
    simp [arangeI_length]
    omega
  refine bind_len (n := n) (PieceOut n) ?_ fun g3 l3 => ?_
  · refine setSlice_ok' l2 (by omega) (by omega) ?_
    simp [arangeI_length]
    omega
  refine bind_len (n := n) (PieceOut n) ?_ fun g4 l4 => ?_
  · rw [← l3]
    exact setSlice_ok (by omega) (by omega) (by simp; omega)
  refine bind_len (n := n) (PieceOut n) ?_ fun g5 l5 => ?_
  · refine setSlice_ok' l4 (by omega) (by omega) ?_
    simp [arangeI_length]
    omega
  refine bind_len (n := n) (PieceOut n) ?_ fun g6 l6 => ?_
  · rw [← l5]
    refine setSliceRev_ok ?_
    rw [l5]
    unfold revBound
    simp only [List.length_map, arangeI_length]
    split_ifs <;> omega
  refine bind_len (n := n) (PieceOut n) ?_ fun g7 l7 => ?_
  · rw [← l6]
    exact setSlice_ok (by omega) (by omega) (by simp; omega)
  refine bind_len (n := n) (PieceOut n) ?_ fun g8 l8 => ?_
  · refine setSlice_ok' l7 (by omega) (by omega) ?_
    simp [arangeI_length]
    omega
  refine tail_step hn l8 fun g9 l9 => ?_
  exact ⟨_, rfl, by simpa using l9, (sum_sub_mean hn l9).1⟩

theorem piecePolynomial_cases {n : ℕ} (hn : 1 ≤ n) : PieceOut n (piecePolynomial n) := by
  simp only [piecePolynomial]
  refine bind_len (n := n) (PieceOut n) ?_ fun g1 l1 => ?_
  · refine setSlice_ok' (by simp) (by omega) (by omega) ?_
    simp [arangeI_length]
    omega
  refine bind_len (n := n) (PieceOut n) ?_ fun g2 l2 => ?_
  · rw [← l1]
    refine setSliceRev_ok ?_
    rw [l1]
    unfold revBound
    simp only [List.length_map, arangeI_length]
    split_ifs <;> omega
  refine bind_len (n := n) (PieceOut n) ?_ fun g3 l3 => ?_
  · refine setSlice_ok' l2 (by omega) (by omega) ?_
    simp [arangeI_length]
    omega
  refine bind_len (n := n) (PieceOut n) ?_ fun g4 l4 => ?_
  · refine setSlice_ok' l3 (by omega) (by omega) ?_
    simp [arangeI_length]
    omega
  refine bind_len (n := n) (PieceOut n) ?_ fun g5 l5 => ?_
  · rw [← l4]
    refine setSlice_ok (by omega) (by omega) ?_
    rw [revFrom_length]
    unfold revBound
    simp only [List.length_map, arangeI_length]
    split_ifs <;> omega
  refine tail_step hn l5 fun g6 l6 => ?_
  have := bind_len (n := n) (k := fun f => setSlice f (n - n / 10) (n + n / 20 - n / 10) (List.replicate (n / 20) 150) >>= fun f => pure (f.map (· - f.sum / n)))
    (fun r => ∃ f, r = .ok f ∧ f.length = n ∧ f.sum = 0)
    (x := setSlice g6 (n / 20) (n / 20 + n / 10) (List.replicate (n / 10) 10)) ?_ fun g7 l7 => ?_
  · exact this
  · rw [← l6]
    exact setSlice_ok (by omega) (by omega) (by simp)
  · refine bind_len (n := n) (fun r => ∃ f, r = .ok f ∧ f.length = n ∧ f.sum = 0) ?_ fun g8 l8 => ?_
    · rw [← l7]
      exact setSlice_ok (by omega) (by omega) (by simp; omega)
    · exact ⟨_, rfl, by simpa using l8, (sum_sub_mean hn l8).2⟩

theorem chirps_cases {n : ℕ} (hn : 1 ≤ n) :
    (8 ∣ n ∨ (8 ≤ n ∧ n ≤ 15) → ∃ f, chirps n = .ok f ∧ f.length = n) ∧
    (¬ (8 ∣ n ∨ (8 ≤ n ∧ n ≤ 15)) → chirps n = .error .value) := by
  let P : Py (List ℝ) → Prop := fun r => (8 ∣ n ∨ (8 ≤ n ∧ n ≤ 15) → ∃ f, r = .ok f ∧ f.length = n) ∧
    (¬ (8 ∣ n ∨ (8 ≤ n ∧ n ≤ 15)) → r = .error .value)
  change P _
  have hb : ∀ {g : ℝ → ℝ → ℝ} {a b : List ℝ}, a.length = n → b.length = n → ∃ c, bop g a b = .ok c ∧ c.length = n := by
    intro g a b ha hb
    obtain ⟨c, h, l⟩ := bop_ok (g := g) (ha.trans hb.symm)
    exact ⟨c, h, l.trans ha⟩
  simp only [chirps]
  refine bind_len (n := n) P (hb ?_ ?_) fun f3 l3 => ?_
  · simp [arangeI_length]; omega
  · simp [arangeI_length]
  refine bind_len (n := n) P (hb ?_ ?_) fun f4 l4 => ?_
  · simp [arangeI_length]; omega
  · simp [arangeI_length]
  refine bind_len (n := n) P (hb ?_ ?_) fun f l => ?_
  · simp [arangeI_length]
  · simp [arangeI_length]
  refine bind_len (n := n) P (hb l l3) fun f l => ?_
  refine bind_len (n := n) P (hb l l4) fun f l => ?_
  refine bind_len (n := n) P ?_ fun e le => ?_
  · refine setSlice_ok' (by simp) (by omega) (by omega) ?_
    simp [arangeI_length]
    omega
  have lr : (e.take (n / 8)).reverse.length = n / 8 := by simp; omega
  refine ⟨fun h => ?_, fun h => ?_⟩
  · have : ∃ g, setSlice e (7 * n / 8) n (e.take (n / 8)).reverse = .ok g ∧ g.length = n := by
      by_cases h8 : 8 ∣ n
      · rw [← le]
        refine setSlice_ok (by omega) (by omega) ?_
        rw [le, lr]
        omega
      · rw [← le]
        refine setSlice_one (by omega) (by omega) ?_
        rw [le, lr]
        omega
    obtain ⟨g, e1, e2⟩ := this
    rw [e1]
    exact hb l e2
  · rw [setSlice_error (by omega) (by omega) (by rw [lr]; omega) (by rw [lr]; omega)]
    rfl

theorem round065_le {n : ℕ} (hn : 1 ≤ n) : round065 n ≤ n ∧ round065 n + (n + 9) / 10 - 1 ≤ n := by
  unfold round065
  simp only
  split_ifs <;> omega

/-- The number of times of HypChirps. -/
noncomputable def hypLen (fl : ℝ → ℝ) (n : ℕ) : ℕ := ⌈fl (fl (fl (fl (n + fl 0.001) + 1) - fl 1.001) / 1)⌉.toNat

theorem hypChirps_cases (fl : ℝ → ℝ) {n : ℕ} (hn : 1 ≤ n) :
    (hypLen fl n = n → ∃ f, hypChirps fl n = .ok f ∧ f.length = n) ∧
    (hypLen fl n ≠ n → 2 ≤ n → hypLen fl n ≠ 1 → hypChirps fl n = .error .value) := by
  let P : Py (List ℝ) → Prop := fun r => (hypLen fl n = n → ∃ f, r = .ok f ∧ f.length = n) ∧
    (hypLen fl n ≠ n → 2 ≤ n → hypLen fl n ≠ 1 → r = .error .value)
  change P _
  obtain ⟨m1, m2⟩ := round065_le hn
  have hL : ∀ g : ℝ → ℝ, (((arangeF fl (fl 1.001) (fl (fl (n + fl 0.001) + 1)) 1).map
      (fun x : ℝ => x / n)).map g).length = hypLen fl n := by
    intro g
    simp only [List.length_map, arangeF_length]
    rfl
  simp only [hypChirps]
  refine bind_len (n := round065 n) P ?_ fun e le => ?_
  · refine setSlice_ok' (by simp) (by omega) (by omega) ?_
    simp [arangeI_length]
    omega
  refine bind_len (n := round065 n) P ?_ fun e2 le2 => ?_
  · obtain ⟨g, h, l⟩ := setSlice_ok (f := e) (a := round065 n - round065 n / 4) (b := round065 n)
      (v := (e.take (round065 n / 4)).reverse) (by omega) (by omega) (by simp; omega)
    exact ⟨g, h, l.trans le⟩
  refine bind_len (n := n) P ?_ fun e3 le3 => ?_
  · obtain ⟨g, h, l⟩ := setSlice_ok (f := List.replicate n (0 : ℝ)) (a := (n + 9) / 10 - 1)
      (b := round065 n + (n + 9) / 10 - 1) (v := e2.take (round065 n)) (by simp; omega) (by omega) (by simp; omega)
    exact ⟨g, h, by simpa using l⟩
  refine bind_len (n := hypLen fl n) P ?_ fun f lf => ?_
  · obtain ⟨c, h, l⟩ := bop_ok (g := (· + ·)) ((hL _).trans (hL _).symm)
    exact ⟨c, h, l.trans (hL _)⟩
  refine ⟨fun h => ?_, fun h h2 h1 => ?_⟩
  · obtain ⟨c, h', l⟩ := bop_ok (g := (· * ·)) (lf.trans (h.trans le3.symm))
    exact ⟨c, h', l.trans (lf.trans h)⟩
  · unfold bop
    rw [if_neg (by omega), if_neg (by omega), if_neg (by omega)]

theorem foldl_setAt_length (l : List (ℕ × ℝ)) (f : List ℝ) : (l.foldl (fun f p => f.set p.1 p.2) f).length = f.length := by
  induction l generalizing f with
  | nil => rfl
  | cons p l ih => rw [List.foldl_cons, ih]; simp

theorem riemann_cases (n : ℕ) (t : List ℝ) :
    (roundSqrt n * roundSqrt n ≤ t.length → ∃ f, riemann n t = .ok f ∧ f.length = t.length) ∧
    (¬ roundSqrt n * roundSqrt n ≤ t.length → riemann n t = .error .index) := by
  simp only [riemann, setAt]
  refine ⟨fun h => ?_, fun h => ?_⟩
  · rw [if_pos]
    · refine ⟨_, rfl, ?_⟩
      simp only [List.length_map, List.length_range, foldl_setAt_length]
    · simp only [List.map_map, List.all_map, List.all_eq_true, List.mem_range, Function.comp_apply, List.length_map,
        decide_eq_true_eq]
      intro i hi
      have h1 : (i + 1) * (i + 1) ≤ roundSqrt n * roundSqrt n := Nat.mul_le_mul hi hi
      have h2 : 1 ≤ (i + 1) * (i + 1) := Nat.mul_pos (by omega) (by omega)
      omega
  · rw [if_neg]
    · rfl
    · simp only [List.map_map, List.all_map, List.all_eq_true, List.mem_range, Function.comp_apply, List.length_map,
        decide_eq_true_eq, not_forall]
      have hs : 1 ≤ roundSqrt n := by
        by_contra hc
        have : roundSqrt n = 0 := by omega
        rw [this] at h
        omega
      refine ⟨roundSqrt n - 1, by omega, ?_⟩
      rw [Nat.sub_add_cancel hs]
      have : 1 ≤ roundSqrt n * roundSqrt n := Nat.mul_pos hs hs
      omega

/-! ## The number of times -/

theorem ceil_near {T : ℝ} {n : ℕ} (h1 : (n : ℝ) - 1 < T) (h2 : T < n + 1) :
    (T ≤ n → ⌈T⌉.toNat = n) ∧ (n < T → ⌈T⌉.toNat = n + 1) := by
  refine ⟨fun h => ?_, fun h => ?_⟩
  · have : ⌈T⌉ = n := by
      rw [Int.ceil_eq_iff]
      push_cast
      exact ⟨h1, h⟩
    rw [this]; simp
  · have : ⌈T⌉ = (n + 1 : ℕ) := by
      rw [Int.ceil_eq_iff]
      push_cast
      exact ⟨by linarith, h2.le⟩
    rw [this]
    simp

theorem demoTimes_length (fl : ℝ → ℝ) (n : ℕ) : (demoTimes fl n).length =
    ⌈fl (fl (fl (1 + fl (1 / n)) - fl (1 / n)) / fl (1 / n))⌉.toNat := by
  rw [demoTimes, arangeF_length]

theorem demoTimes_near {fl : ℝ → ℝ} {u κ Ω : ℝ} (H : Rounds fl u κ Ω) {n : ℕ} (hn : 1 ≤ n) (hu : 32 * n * u ≤ 1)
    (hκ : n * κ ≤ 1) (hΩ : 2 * n ≤ Ω) (hΩ2 : 4 ≤ Ω) :
    (demoTimes fl n).length = n ∨ (demoTimes fl n).length = n + 1 := by
  have hn' : (1 : ℝ) ≤ n := by exact_mod_cast hn
  have hn0 : (0 : ℝ) < n := by linarith
  have hu0 := H.u_nonneg
  have hκ0 := H.κ_nonneg
  have hu1 : 32 * u ≤ 1 := by nlinarith
  have hκ1 : κ ≤ 1 := by nlinarith
  have hinv : (1 : ℝ) / n ≤ 1 := by rw [div_le_one hn0]; exact hn'
  have hinv0 : (0 : ℝ) < 1 / n := by positivity
  have hκn : κ ≤ 1 / n := by rw [le_div_iff₀ hn0]; linarith
  set q := fl (1 / n) with hq
  have e1 : |q - 1 / n| ≤ 2 * u * (1 / n) := by
    have := H.err (1 / n) (by rw [abs_of_pos hinv0]; linarith)
    rw [abs_of_pos hinv0] at this
    refine this.trans ?_
    nlinarith
  rw [abs_le] at e1
  have q1 : (1 - 2 * u) * (1 / n) ≤ q := by linarith
  have q2 : q ≤ (1 + 2 * u) * (1 / n) := by linarith
  have q0 : 0 < q := lt_of_lt_of_le (mul_pos (by linarith) hinv0) q1
  have q3 : q ≤ 17 / 16 := by nlinarith
  set s := fl (1 + q) with hs
  have e2 : |s - (1 + q)| ≤ 4 * u := by
    have := H.err (1 + q) (by rw [abs_of_pos (by linarith)]; linarith)
    rw [abs_of_pos (by linarith : 0 < 1 + q)] at this
    refine this.trans ?_
    nlinarith
  rw [abs_le] at e2
  set d := fl (s - q) with hd
  have e3 : |d - (s - q)| ≤ 3 * u := by
    have h1 : |s - q| ≤ 2 := by rw [abs_le]; constructor <;> linarith
    have := H.err (s - q) (by linarith)
    refine this.trans ?_
    nlinarith
  rw [abs_le] at e3
  have d1 : 1 - 7 * u ≤ d := by linarith
  have d2 : d ≤ 1 + 7 * u := by linarith
  have hr1 : d / q ≤ n * (1 + 10 * u) := by
    rw [div_le_iff₀ q0]
    have : n * (1 + 10 * u) * ((1 - 2 * u) * (1 / n)) ≤ n * (1 + 10 * u) * q :=
      mul_le_mul_of_nonneg_left q1 (by positivity)
    have e : n * (1 + 10 * u) * ((1 - 2 * u) * (1 / n)) = (1 + 10 * u) * (1 - 2 * u) := by field_simp
    nlinarith
  have hr2 : n * (1 - 9 * u) ≤ d / q := by
    rw [le_div_iff₀ q0]
    have : n * (1 - 9 * u) * q ≤ n * (1 - 9 * u) * ((1 + 2 * u) * (1 / n)) :=
      mul_le_mul_of_nonneg_left q2 (mul_nonneg hn0.le (by linarith))
    have e : n * (1 - 9 * u) * ((1 + 2 * u) * (1 / n)) = (1 - 9 * u) * (1 + 2 * u) := by field_simp
    nlinarith
  have hr0 : 0 < d / q := div_pos (by linarith) q0
  set T := fl (d / q) with hT
  have e4 : |T - d / q| ≤ u * (d / q + 1) := by
    have := H.err (d / q) (by
      rw [abs_of_pos hr0]
      have : n * (1 + 10 * u) = n + 10 * (n * u) := by ring
      linarith)
    rw [abs_of_pos hr0] at this
    refine this.trans ?_
    exact mul_le_mul_of_nonneg_left (by linarith) hu0
  rw [abs_le] at e4
  have f1 : u * (d / q + 1) ≤ u * (3 * n) := mul_le_mul_of_nonneg_left (by
    have : n * (1 + 10 * u) = n + 10 * (n * u) := by ring
    linarith) hu0
  have g1 : n * (1 + 10 * u) = n + 10 * (n * u) := by ring
  have g2 : n * (1 - 9 * u) = n - 9 * (n * u) := by ring
  have g3 : u * (3 * n) = 3 * (n * u) := by ring
  have g4 : n * u ≤ 1 / 32 := by linarith
  have h1 : (n : ℝ) - 1 < T := by linarith
  have h2 : T < n + 1 := by linarith
  rw [demoTimes_length]
  change ⌈T⌉.toNat = n ∨ ⌈T⌉.toNat = n + 1
  rcases le_or_gt T n with h | h
  · exact Or.inl ((ceil_near h1 h2).1 h)
  · exact Or.inr ((ceil_near h1 h2).2 h)

theorem demoTimes_pow {k : ℕ} (hk : k ≤ 52) : (demoTimes binary64 (2 ^ k)).length = 2 ^ k := by
  have e1 : binary64 (1 / ((2 ^ k : ℕ) : ℝ)) = 2 ^ (-(k : ℤ)) := by
    have : (1 / ((2 ^ k : ℕ) : ℝ)) = 2 ^ (-(k : ℤ)) := by rw [zpow_neg, zpow_natCast]; simp
    rw [this]
    exact ieee_exact (-(k : ℤ)) 1 (by simp) (by norm_num) (by omega)
  have e2 : binary64 (1 + 2 ^ (-(k : ℤ))) = 1 + 2 ^ (-(k : ℤ)) := by
    refine ieee_exact (-(k : ℤ)) (2 ^ k + 1) ?_ ?_ (by omega)
    · push_cast
      rw [zpow_neg, zpow_natCast]
      field_simp
    · push_cast
      rw [abs_of_pos (by positivity)]
      have : (2 : ℝ) ^ k ≤ 2 ^ 52 := pow_le_pow_right₀ (by norm_num) hk
      norm_num at this ⊢
      linarith
  have e3 : binary64 1 = 1 := ieee_exact 0 1 (by simp) (by norm_num) (by norm_num)
  have e4 : binary64 (1 / 2 ^ (-(k : ℤ))) = 2 ^ (k : ℤ) := by
    rw [one_div, ← zpow_neg, neg_neg]
    exact ieee_exact (k : ℤ) 1 (by simp) (by norm_num) (by omega)
  rw [demoTimes_length, e1, e2, add_sub_cancel_right, e3, e4]
  have : (2 : ℝ) ^ (k : ℤ) = ((2 ^ k : ℕ) : ℤ) := by rw [zpow_natCast]; push_cast; rfl
  rw [this, Int.ceil_intCast, Int.toNat_natCast]

theorem demoTimes_49 : (demoTimes binary64 49).length = 50 := by
  have e1 : binary64 (1 / ((49 : ℕ) : ℝ)) = 5882252574524729 * 2 ^ (-58 : ℤ) := by
    have := ieee_eq (p := 53) (emin := -1074) (t := 1 / ((49 : ℕ) : ℝ)) (-58) 5882252574524729
      (by norm_num [abs_of_pos]) (by norm_num [abs_of_pos]) (by norm_num) (by rw [abs_lt]; norm_num)
    exact_mod_cast this
  have e2 : binary64 (1 + 5882252574524729 * 2 ^ (-58 : ℤ)) = 4595509823847445 * 2 ^ (-52 : ℤ) := by
    have := ieee_eq (p := 53) (emin := -1074) (t := 1 + 5882252574524729 * 2 ^ (-58 : ℤ)) (-52) 4595509823847445
      (by norm_num [abs_of_pos]) (by norm_num [abs_of_pos]) (by norm_num) (by rw [abs_lt]; norm_num)
    exact_mod_cast this
  have e3 : binary64 (4595509823847445 * 2 ^ (-52 : ℤ) - 5882252574524729 * 2 ^ (-58 : ℤ)) = 4503599627370496 * 2 ^ (-52 : ℤ) := by
    have := ieee_eq (p := 53) (emin := -1074) (t := 4595509823847445 * 2 ^ (-52 : ℤ) - 5882252574524729 * 2 ^ (-58 : ℤ)) (-52) 4503599627370496
      (by norm_num [abs_of_pos]) (by norm_num [abs_of_pos]) (by norm_num) (by rw [abs_lt]; norm_num)
    exact_mod_cast this
  have e4 : binary64 (4503599627370496 * 2 ^ (-52 : ℤ) / (5882252574524729 * 2 ^ (-58 : ℤ))) = 6896136929411073 * 2 ^ (-47 : ℤ) := by
    have := ieee_eq (p := 53) (emin := -1074) (t := 4503599627370496 * 2 ^ (-52 : ℤ) / (5882252574524729 * 2 ^ (-58 : ℤ))) (-47) 6896136929411073
      (by norm_num [abs_of_pos]) (by norm_num [abs_of_pos]) (by norm_num) (by rw [abs_lt]; norm_num)
    exact_mod_cast this
  rw [demoTimes_length, e1, e2, e3, e4]
  have := (ceil_near (T := 6896136929411073 * 2 ^ (-47 : ℤ)) (n := 49) (by norm_num) (by norm_num)).2 (by norm_num)
  exact this

theorem hypLen_7 : hypLen binary64 7 = 8 := by
  have a : binary64 1.001 = 4508103226997866 * 2 ^ (-52 : ℤ) := by
    have := ieee_eq (p := 53) (emin := -1074) (t := 1.001) (-52) 4508103226997866
      (by norm_num [abs_of_pos]) (by norm_num [abs_of_pos]) (by norm_num) (by rw [abs_lt]; norm_num)
    exact_mod_cast this
  have b : binary64 0.001 = 4611686018427388 * 2 ^ (-62 : ℤ) := by
    have := ieee_eq (p := 53) (emin := -1074) (t := 0.001) (-62) 4611686018427388
      (by norm_num [abs_of_pos]) (by norm_num [abs_of_pos]) (by norm_num) (by rw [abs_lt]; norm_num)
    exact_mod_cast this
  have c : binary64 ((7 : ℕ) + 4611686018427388 * 2 ^ (-62 : ℤ)) = 7882425247805211 * 2 ^ (-50 : ℤ) := by
    have := ieee_eq (p := 53) (emin := -1074) (t := (7 : ℕ) + 4611686018427388 * 2 ^ (-62 : ℤ)) (-50) 7882425247805211
      (by norm_num [abs_of_pos]) (by norm_num [abs_of_pos]) (by norm_num) (by rw [abs_lt]; norm_num)
    exact_mod_cast this
  have d : binary64 (7882425247805211 * 2 ^ (-50 : ℤ) + 1) = 4504162577323918 * 2 ^ (-49 : ℤ) := by
    have := ieee_eq_tie (p := 53) (emin := -1074) (t := 7882425247805211 * 2 ^ (-50 : ℤ) + 1) (-49) 4504162577323918
      (by norm_num [abs_of_pos]) (by norm_num [abs_of_pos]) (by norm_num) (by rw [abs_le]; norm_num) (by norm_num)
    exact_mod_cast this
  have e : binary64 (4504162577323918 * 2 ^ (-49 : ℤ) - 4508103226997866 * 2 ^ (-52 : ℤ)) = 7881299347898370 * 2 ^ (-50 : ℤ) := by
    have := ieee_eq_tie (p := 53) (emin := -1074) (t := 4504162577323918 * 2 ^ (-49 : ℤ) - 4508103226997866 * 2 ^ (-52 : ℤ)) (-50) 7881299347898370
      (by norm_num [abs_of_pos]) (by norm_num [abs_of_pos]) (by norm_num) (by rw [abs_le]; norm_num) (by norm_num)
    exact_mod_cast this
  unfold hypLen
  have e' : binary64 (7881299347898370 * 2 ^ (-50 : ℤ)) = 7881299347898370 * 2 ^ (-50 : ℤ) :=
    ieee_exact (-50) 7881299347898370 (by norm_num) (by norm_num) (by norm_num)
  rw [a, b, c, d, e, div_one, e']
  exact (ceil_near (T := 7881299347898370 * 2 ^ (-50 : ℤ)) (n := 7) (by norm_num) (by norm_num)).2 (by norm_num)

theorem hypLen_16 : hypLen binary64 16 = 16 := by
  have a : binary64 1.001 = 4508103226997866 * 2 ^ (-52 : ℤ) := by
    have := ieee_eq (p := 53) (emin := -1074) (t := 1.001) (-52) 4508103226997866
      (by norm_num [abs_of_pos]) (by norm_num [abs_of_pos]) (by norm_num) (by rw [abs_lt]; norm_num)
    exact_mod_cast this
  have b : binary64 0.001 = 4611686018427388 * 2 ^ (-62 : ℤ) := by
    have := ieee_eq (p := 53) (emin := -1074) (t := 0.001) (-62) 4611686018427388
      (by norm_num [abs_of_pos]) (by norm_num [abs_of_pos]) (by norm_num) (by rw [abs_lt]; norm_num)
    exact_mod_cast this
  have c : binary64 ((16 : ℕ) + 4611686018427388 * 2 ^ (-62 : ℤ)) = 4503881102347207 * 2 ^ (-48 : ℤ) := by
    have := ieee_eq (p := 53) (emin := -1074) (t := (16 : ℕ) + 4611686018427388 * 2 ^ (-62 : ℤ)) (-48) 4503881102347207
      (by norm_num [abs_of_pos]) (by norm_num [abs_of_pos]) (by norm_num) (by rw [abs_lt]; norm_num)
    exact_mod_cast this
  have d : binary64 (4503881102347207 * 2 ^ (-48 : ℤ) + 1) = 4785356079057863 * 2 ^ (-48 : ℤ) := by
    have := ieee_eq (p := 53) (emin := -1074) (t := 4503881102347207 * 2 ^ (-48 : ℤ) + 1) (-48) 4785356079057863
      (by norm_num [abs_of_pos]) (by norm_num [abs_of_pos]) (by norm_num) (by rw [abs_lt]; norm_num)
    exact_mod_cast this
  have e : binary64 (4785356079057863 * 2 ^ (-48 : ℤ) - 4508103226997866 * 2 ^ (-52 : ℤ)) = 4503599627370496 * 2 ^ (-48 : ℤ) := by
    have := ieee_eq (p := 53) (emin := -1074) (t := 4785356079057863 * 2 ^ (-48 : ℤ) - 4508103226997866 * 2 ^ (-52 : ℤ)) (-48) 4503599627370496
      (by norm_num [abs_of_pos]) (by norm_num [abs_of_pos]) (by norm_num) (by rw [abs_lt]; norm_num)
    exact_mod_cast this
  unfold hypLen
  have e' : binary64 (4503599627370496 * 2 ^ (-48 : ℤ)) = 4503599627370496 * 2 ^ (-48 : ℤ) :=
    ieee_exact (-48) 4503599627370496 (by norm_num) (by norm_num) (by norm_num)
  rw [a, b, c, d, e, div_one, e']
  exact (ceil_near (T := 4503599627370496 * 2 ^ (-48 : ℤ)) (n := 16) (by norm_num) (by norm_num)).1 (by norm_num)

end Pywt
