import Verif.Proof.Moments
import Verif.Model.Multilevel
import Verif.Props.Dwt

/-!
# Which samples of a reconstruction a coefficient influences
-/

set_option linter.unusedSectionVars false

namespace Pywt
open Spec Finset

variable {R M : Type} [Ring R] [AddCommGroup M] [Module R M]

theorem idwt_some {w : Wavelet R} (hw : w.Ok) {mode : Mode} {a d r : List M}
    (h : idwt w mode (some a) (some d) = .ok r) :
    a.length = d.length ∧ r = synthesis mode w.rec_lo w.rec_hi a d ∧ r.length = synthLen mode a.length w.rec_len := by
  have h' : idwtSingle w mode a d = .ok r := h
  rcases idwtSingle_total hw mode a d with ⟨hl, -, e⟩ | ⟨-, e | e⟩
  swap
  · rw [e] at h'; simp at h'
  swap
  · rw [e] at h'; simp at h'
  rw [e] at h'
  simp only [Except.ok.injEq] at h'
  refine ⟨hl, h'.symm, ?_⟩
  rw [← h']
  unfold synthesis synthLen
  cases mode <;> simp [Wavelet.rec_len]

/-- Sample `n` of one synthesis step depends only on the coefficients near `n/2`. -/
theorem synthesis_local {mode : Mode} (hm : mode ≠ .periodization) {lo hi : List R} (hh : hi.length = lo.length)
    (hF : 2 ≤ lo.length) {a d b e : List M} (hl : a.length = b.length) {n : ℕ}
    (hab : ∀ o : ℕ, n ≤ 2 * o + 1 → 2 * o ≤ n + (lo.length - 2) → a.getD o 0 = b.getD o 0 ∧ d.getD o 0 = e.getD o 0)
    (hn : n < synthLen mode a.length lo.length) :
    (synthesis mode lo hi a d).getD n 0 = (synthesis mode lo hi b e).getD n 0 := by
  have hsyn : ∀ (a d : List M), synthesis mode lo hi a d =
      (List.range (2 * a.length + 2 - lo.length)).map fun n : ℕ =>
        conv lo (upsample (Spec.ext .zero a)) ((n : ℤ) + (lo.length - 2)) +
          conv hi (upsample (Spec.ext .zero d)) ((n : ℤ) + (lo.length - 2)) := by
    intro a d; cases mode <;> first | rfl | exact absurd rfl hm
  have hz : ∀ (x : List M) (p : ℤ), Spec.ext .zero x p = if 0 ≤ p then x.getD p.toNat 0 else 0 := by
    intro x p
    simp only [Spec.ext, at']
    by_cases h0 : 0 ≤ p
    · by_cases h1 : p < x.length
      · simp [h0, h1]
      · rw [if_neg (by omega), if_pos h0, List.getD_eq_default]
        omega
    · rw [if_neg (by omega), if_neg h0]
  have hn' : n < 2 * a.length + 2 - lo.length := by simpa [synthLen, hm] using hn
  have hu : ∀ (f : List R) (x y : List M), f.length = lo.length →
      (∀ o : ℕ, n ≤ 2 * o + 1 → 2 * o ≤ n + (lo.length - 2) → x.getD o 0 = y.getD o 0) →
      conv f (upsample (Spec.ext .zero x)) ((n : ℤ) + (lo.length - 2)) =
        conv f (upsample (Spec.ext .zero y)) ((n : ℤ) + (lo.length - 2)) := by
    intro f x y hf hxy
    unfold conv
    refine sum_congr rfl fun i hi' => ?_
    rw [mem_range, hf] at hi'
    congr 1
    unfold upsample
    split_ifs with hp
    · rw [hz, hz]
      split_ifs with h0
      · exact hxy _ (by omega) (by omega)
      · rfl
    · rfl
  rw [hsyn, hsyn, List.getD_eq_getElem (hn := by simpa using hn'),
    List.getD_eq_getElem (hn := by rw [← hl]; simpa using hn')]
  simp only [List.getElem_map, List.getElem_range]
  rw [hu lo a b rfl fun o h1 h2 => (hab o h1 h2).1, hu hi d e hh fun o h1 h2 => (hab o h1 h2).2]

theorem influences_step {F j k k' n : ℕ} (h : Influences F j k' n) (h1 : k' ≤ 2 * k + 1)
    (h2 : 2 * k ≤ k' + (F - 2)) : Influences F (j + 1) k n := by
  obtain ⟨g1, g2⟩ := h
  have hp : 1 ≤ 2 ^ j := Nat.one_le_two_pow
  constructor
  · calc n < 2 ^ j * (k' + 1) := g1
      _ ≤ 2 ^ j * (2 * (k + 1)) := Nat.mul_le_mul_left _ (by omega)
      _ = 2 ^ (j + 1) * (k + 1) := by rw [pow_succ]; ring
  · have e1 : 2 ^ (j + 1) * k = 2 ^ j * (2 * k) := by rw [pow_succ]; ring
    have e2 : (F - 2) * (2 ^ (j + 1) - 1) = (F - 2) * (2 ^ j - 1) + 2 ^ j * (F - 2) := by
      rw [pow_succ, show 2 ^ j * 2 - 1 = (2 ^ j - 1) + 2 ^ j by omega]; ring
    have := Nat.mul_le_mul_left (2 ^ j) h2
    rw [Nat.mul_add] at this
    rw [e1, e2]
    omega

theorem waverecTrim_some {a d t : List M} (h : waverecTrim (some a) (some d) = .ok (some t)) :
    t.length = d.length ∧ t = a.take d.length ∧ (a.length = d.length ∨ a.length = d.length + 1) := by
  unfold waverecTrim at h
  simp only at h
  split_ifs at h with h1 h2
  · simp only [Except.ok.injEq, Option.some.injEq] at h
    subst h
    exact ⟨by rw [List.length_take]; omega, rfl, .inr h1⟩
  · simp only [Except.ok.injEq, Option.some.injEq] at h
    subst h
    have : a.length = d.length := by simpa using h2
    exact ⟨this, by rw [← this, List.take_length], .inl this⟩

theorem waverecLoop_local {w : Wavelet R} (hw : w.Ok) {mode : Mode} (hm : mode ≠ .periodization) {n : ℕ}
    (ds : List (List M)) : ∀ (es : List (List M)) (a b r s : List M),
    waverecLoop w mode (some a) (ds.map some) = .ok (some r) →
    waverecLoop w mode (some b) (es.map some) = .ok (some s) →
    a.length = b.length → es.map List.length = ds.map List.length →
    (∀ k, Influences w.rec_len ds.length k n → a.getD k 0 = b.getD k 0) →
    (∀ i < ds.length, ∀ k, Influences w.rec_len (ds.length - i) k n →
      (ds.getD i []).getD k 0 = (es.getD i []).getD k 0) →
    r.length = s.length ∧ r.getD n 0 = s.getD n 0 := by
  induction ds with
  | nil =>
    intro es a b r s h1 h2 hab hes ha _
    have : es = [] := by simpa using hes
    subst this
    simp only [List.map_nil, waverecLoop, Except.ok.injEq, Option.some.injEq] at h1 h2
    subst h1 h2
    exact ⟨hab, ha n ⟨by simp, by simp⟩⟩
  | cons d ds ih =>
    intro es a b r s h1 h2 hab hes ha hd
    obtain ⟨e, es, rfl⟩ : ∃ e es', es = e :: es' := by
      cases es with
      | nil => simp at hes
      | cons e es => exact ⟨e, es, rfl⟩
    simp only [List.map_cons, List.cons.injEq] at hes
    obtain ⟨hel, hes⟩ := hes
    simp only [List.map_cons, waverecLoop] at h1 h2
    have key : ∀ (a d : List M) (ds : List (Option (List M))) (r : List M),
        (do let a ← waverecTrim (some a) (some d)
            let r ← idwt w mode a (some d)
            waverecLoop w mode (some r) ds) = .ok (some r) →
        ∃ u, (a.length = d.length ∨ a.length = d.length + 1) ∧
          u = synthesis mode w.rec_lo w.rec_hi (a.take d.length) d ∧
          u.length = synthLen mode d.length w.rec_len ∧ waverecLoop w mode (some u) ds = .ok (some r) := by
      intro a d ds r h
      cases ht : waverecTrim (some a) (some d) with
      | error er => rw [ht] at h; simp [bind, Except.bind] at h
      | ok t =>
        rw [ht, Py_bind_ok] at h
        cases t with
        | none =>
          unfold waverecTrim at ht
          simp only at ht
          split_ifs at ht <;> simp at ht
        | some t =>
          obtain ⟨t1, t2, t3⟩ := waverecTrim_some ht
          cases hi : idwt w mode (some t) (some d) with
          | error er => rw [hi] at h; simp [bind, Except.bind] at h
          | ok u =>
            rw [hi, Py_bind_ok] at h
            obtain ⟨i1, i2, i3⟩ := idwt_some hw hi
            exact ⟨u, t3, by rw [i2, t2], by rw [i3, t1], h⟩
    obtain ⟨u, u1, u2, u3, u4⟩ := key a d _ r h1
    obtain ⟨v, v1, v2, v3, v4⟩ := key b e _ s h2
    have h5 : w.rec_hi.length = w.rec_lo.length := by
      have h2 := hw.2.1; have h3 := hw.2.2.1; have h4 := hw.2.2.2.1; have h5 := hw.2.2.2.2
      simp only [Wavelet.rec_len] at *
      omega
    have hF : 2 ≤ w.rec_lo.length := by
      have h1 := hw.1; have h2 := hw.2.1; have h3 := hw.2.2.1; have h4 := hw.2.2.2.1; have h5 := hw.2.2.2.2
      simp only [Wavelet.rec_len] at *
      omega
    refine ih es u v r s u4 v4 (by rw [u3, v3, hel]) hes ?_ ?_
    · intro k hk
      by_cases hku : k < u.length
      · rw [u2, v2]
        refine synthesis_local hm h5 hF (by rw [List.length_take, List.length_take]; omega) ?_ (by
          rw [List.length_take, Nat.min_eq_left (by omega)]; rw [u3] at hku; exact hku)
        intro o o1 o2
        have hinf := influences_step hk o1 o2
        constructor
        · by_cases ho : o < d.length
          · have := ha o (by simpa using hinf)
            rw [List.getD_eq_getElem (hn := by rw [List.length_take]; omega),
              List.getD_eq_getElem (hn := by rw [List.length_take]; omega), List.getElem_take, List.getElem_take,
              ← List.getD_eq_getElem (hn := by omega) (d := 0), this, List.getD_eq_getElem (hn := by omega)]
          · rw [List.getD_eq_default _ _ (by rw [List.length_take]; omega),
              List.getD_eq_default _ _ (by rw [List.length_take]; omega)]
        · have := hd 0 (by simp) o (by simpa using hinf)
          simpa using this
      · rw [List.getD_eq_default _ _ (by omega), List.getD_eq_default _ _ (by rw [v3, hel, ← u3]; omega)]
    · intro i hi k hk
      have := hd (i + 1) (by simp; omega) k (by simpa using hk)
      simpa using this

end Pywt
