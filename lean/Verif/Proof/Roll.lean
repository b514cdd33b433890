import Verif.Spec.Roll
import Verif.Proof.Spin

/-!
# Proofs for C83
-/

namespace Pywt

open Finset Spec

set_option autoImplicit false
set_option linter.unusedSectionVars false

variable {R M : Type} [CommRing R] [AddCommGroup M] [Module R M]

theorem analysis_roll {u : List M} {m : ℕ} (hm : 1 ≤ m) (hu : u.length = 2 * m) (f : List R) (c : ℤ) :
    analysis .periodization f (shift (2 * c) u) = shift c (analysis .periodization f u) := by
  have hl : ∀ v : List M, v.length = 2 * m → (analysis .periodization f v).length = m := by
    intro v hv
    rw [analysis_per_even (by omega), List.length_map, List.length_range]
    omega
  have hs : (shift (2 * c) u).length = 2 * m := by rw [shift_length, hu]
  apply eq_of_per
  · rw [hl _ hs, shift_length, hl _ hu]
  · intro q
    rw [per_analysis hm hs, per_shift (by rw [hl _ hu]; exact hm), per_analysis hm hu]
    refine sum_congr rfl fun l _ => ?_
    rw [per_shift (by omega)]
    congr 2
    ring

theorem approx_roll {lo : List R} {x : List M} (hx : 1 ≤ x.length) (c : ℤ) : ∀ {j l : ℕ}, j ≤ l → 2 ^ l ∣ x.length →
    approx .periodization lo j (shift (2 ^ l * c) x) = shift (2 ^ (l - j) * c) (approx .periodization lo j x)
  | 0, l, _, _ => by simp [approx]
  | j + 1, l, hj, h => by
      have ih := approx_roll (lo := lo) hx c (j := j) (l := l) (by omega) h
      have he : ∀ y : List M, approx .periodization lo (j + 1) y = analysis .periodization lo (approx .periodization lo j y) := by
        intro y
        simp only [approx, Function.iterate_succ_apply']
      rw [he, he, ih]
      have hd : 2 ^ (j + 1) ∣ x.length := dvd_trans (pow_dvd_pow 2 hj) h
      have hpos : 1 ≤ x.length / 2 ^ (j + 1) := Nat.div_pos (Nat.le_of_dvd (by omega) hd) (by positivity)
      have hl : (approx .periodization lo j x).length = 2 * (x.length / 2 ^ (j + 1)) := by
        rw [approx_length, approxLen_per_div (dvd_trans (pow_dvd_pow 2 (by omega)) hd), half_len hd]
      rw [show (2 : ℤ) ^ (l - j) * c = 2 * (2 ^ (l - (j + 1)) * c) by
        rw [show l - j = (l - (j + 1)) + 1 by omega, pow_succ]; ring]
      exact analysis_roll hpos hl lo _

theorem detail_roll {lo hi : List R} {x : List M} (hx : 1 ≤ x.length) (c : ℤ) {j l : ℕ} (hj : j < l) (h : 2 ^ l ∣ x.length) :
    detail .periodization lo hi j (shift (2 ^ l * c) x) =
      shift (2 ^ (l - (j + 1)) * c) (detail .periodization lo hi j x) := by
  unfold detail
  have hd : 2 ^ (j + 1) ∣ x.length := dvd_trans (pow_dvd_pow 2 hj) h
  have hpos : 1 ≤ x.length / 2 ^ (j + 1) := Nat.div_pos (Nat.le_of_dvd (by omega) hd) (by positivity)
  have hl : (approx .periodization lo j x).length = 2 * (x.length / 2 ^ (j + 1)) := by
    rw [approx_length, approxLen_per_div (dvd_trans (pow_dvd_pow 2 (by omega)) hd), half_len hd]
  rw [approx_roll hx c (by omega) h, show (2 : ℤ) ^ (l - j) * c = 2 * (2 ^ (l - (j + 1)) * c) by
        rw [show l - j = (l - (j + 1)) + 1 by omega, pow_succ]; ring]
  exact analysis_roll hpos hl hi _

theorem cascade_roll {lo hi : List R} {x : List M} (hx : 1 ≤ x.length) (c : ℤ) {l : ℕ} (h : 2 ^ l ∣ x.length) :
    cascade .periodization lo hi l (shift (2 ^ l * c) x) = shiftAll c (cascade .periodization lo hi l x) := by
  unfold cascade shiftAll
  rw [approx_roll hx c le_rfl h, Nat.sub_self, pow_zero, one_mul]
  congr 1
  refine List.ext_getElem (by simp) fun i h1 h2 => ?_
  simp only [List.length_reverse, List.length_map, List.length_range] at h1
  rw [List.getElem_mapIdx, List.getElem_reverse, List.getElem_reverse]
  simp only [List.getElem_map, List.getElem_range, List.length_map, List.length_range]
  rw [detail_roll hx c (by omega) h]
  congr 3
  omega

theorem synthesis_roll {a d : List M} (ha : 1 ≤ a.length) (hd : d.length = a.length) (lo hi : List R) (c : ℤ) :
    synthesis .periodization lo hi (shift c a) (shift c d) = shift (2 * c) (synthesis .periodization lo hi a d) := by
  have hl : ∀ u v : List M, (synthesis .periodization lo hi u v).length = 2 * u.length := by
    intro u v
    simp [synthesis]
  have hu : ∀ {u : List M}, 1 ≤ u.length → ∀ p : ℤ, upsample (per (shift c u)) p = upsample (per u) (p - 2 * c) := by
    intro u hu p
    unfold upsample
    have h1 : (p - 2 * c) % 2 = p % 2 := by omega
    have h2 : (p - 2 * c) / 2 = p / 2 - c := by omega
    rw [h1, h2, per_shift hu]
  apply eq_of_per
  · rw [hl, shift_length, shift_length, hl]
  · intro q
    rw [per_synthesis (by rw [shift_length]; exact ha) (by rw [shift_length, shift_length, hd]),
      per_shift (by rw [hl]; omega), per_synthesis ha hd]
    unfold conv
    congr 1
    · refine sum_congr rfl fun j _ => ?_
      rw [hu ha]
      congr 2
      ring
    · refine sum_congr rfl fun j _ => ?_
      rw [hu (by omega)]
      congr 2
      ring

theorem recPer_roll (lo hi : List R) : ∀ (ds : List (List M)) (a : List M) (c : ℤ), 1 ≤ a.length → DoublingLengths a.length ds →
    recPer lo hi (ds.mapIdx fun i d => shift (2 ^ i * c) d) (shift c a) = shift (2 ^ ds.length * c) (recPer lo hi ds a)
  | [], a, c, _, _ => by simp [recPer]
  | d :: ds, a, c, ha, h => by
      have hl : (synthesis .periodization lo hi a d).length = 2 * a.length := by simp [synthesis]
      have ih := recPer_roll lo hi ds (synthesis .periodization lo hi a d) (2 * c) (by omega) (by rw [hl]; exact h.2)
      rw [List.mapIdx_cons, recPer, recPer, pow_zero, one_mul, synthesis_roll ha h.1, List.length_cons]
      rw [show (fun i d => shift (2 ^ (i + 1) * c) d) = (fun i (d : List M) => shift (2 ^ i * (2 * c)) d) by
        funext i d; congr 1; rw [pow_succ]; ring, ih]
      congr 1
      rw [pow_succ]
      ring

theorem doubling_roll (c : ℤ) : ∀ {ds : List (List M)} {L : ℕ}, DoublingLengths L ds →
    ∀ g : ℕ → ℤ, DoublingLengths L (ds.mapIdx fun i d => shift (g i) d)
  | [], _, _, _ => by trivial
  | d :: ds, L, h, g => by
      rw [List.mapIdx_cons]
      exact ⟨by rw [shift_length]; exact h.1, doubling_roll c h.2 fun i => g (i + 1)⟩

end Pywt
