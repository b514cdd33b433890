import Verif.Proof.Adjoint
import Verif.Proof.Spin
import Verif.Proof.Edit
import Verif.Props.Swt
import Verif.Props.DwtIdwt
import Verif.Spec.Edit

/-!
# Proofs for C74
-/

namespace Pywt

open Finset Spec

set_option autoImplicit false
set_option linter.unusedSectionVars false

section
variable {R : Type} [CommRing R]

theorem per_add (u : List R) (q : ℤ) : per u (q + u.length) = per u q := per_congr ⟨1, by ring⟩

theorem sprod_per {u v : List R} (h : v.length = u.length) : sprod u v = ∑ n ∈ range u.length, per u n * per v n := by
  rw [sprod_eq]
  refine sum_congr rfl fun n hn => ?_
  have hn := mem_range.mp hn
  rw [per_nat hn, per_nat (by omega)]

/-- Spread filtering and spread filtering with the reversed filter are transposes of each other. -/
theorem atrous_sprod {f x c : List R} (hf : f.length % 2 = 0) (s : ℕ) (hx : 1 ≤ x.length) (hc : c.length = x.length) :
    sprod (atrous f s x) c = sprod x (atrousInv f.reverse s c) := by
  rw [sprod_per (by rw [atrous_length, hc]), atrous_length, sprod_per (by simp [atrousInv, hc])]
  have h1 : ∀ n ∈ range x.length, per (atrous f s x) n * per c n =
      ∑ l ∈ range f.length, f.getD l 0 * (per x (n + s * ((f.length / 2 : ℕ) - l)) * per c n) := by
    intro n _
    rw [per_atrous hx, sum_mul]
    refine sum_congr rfl fun l _ => ?_
    rw [smul_eq_mul, mul_assoc]
  have h2 : ∀ n ∈ range x.length, per x n * per (atrousInv f.reverse s c) n =
      ∑ l ∈ range f.length, f.getD l 0 * (per x n * per c (n - s * ((f.length / 2 : ℕ) - l))) := by
    intro n _
    rw [per_atrousInv (by omega), mul_sum, List.length_reverse, ← sum_range_reflect]
    refine sum_congr rfl fun l hl => ?_
    have hl := mem_range.mp hl
    have e : f.reverse.getD (f.length - 1 - l) 0 = f.getD l 0 := by
      rw [List.getD_eq_getElem _ _ (by rw [List.length_reverse]; omega), List.getD_eq_getElem _ _ hl, List.getElem_reverse]
      congr 1
      omega
    rw [e, smul_eq_mul]
    have e2 : (n : ℤ) + s * (((f.length / 2 : ℕ) : ℤ) - 1 - (f.length - 1 - l : ℕ)) = n - s * ((f.length / 2 : ℕ) - l) := by
      have : ((f.length - 1 - l : ℕ) : ℤ) = 2 * (f.length / 2 : ℕ) - 1 - l := by omega
      rw [this]
      ring
    rw [e2]
    ring
  rw [sum_congr rfl h1, sum_congr rfl h2, sum_comm, sum_comm (s := range x.length)]
  refine sum_congr rfl fun l _ => ?_
  rw [← mul_sum, ← mul_sum]
  congr 1
  have := sum_period_shift (g := fun p : ℤ => per x p * per c (p - s * ((f.length / 2 : ℕ) - l))) (N := x.length) (by
    intro p
    rw [per_add, show p + (x.length : ℤ) - s * ((f.length / 2 : ℕ) - l) = p - s * ((f.length / 2 : ℕ) - l) + c.length by
      rw [hc]; ring, per_add]) (s * ((f.length / 2 : ℕ) - l))
  rw [← this]
  refine sum_congr rfl fun n _ => ?_
  rw [add_sub_cancel_right]

variable [Invertible (2 : R)]

theorem sprod_iswtStep {lo hi x a d : List R} {s : ℕ} (ha : a.length = x.length) (hd : d.length = x.length) :
    sprod x (iswtStep lo hi s a d) = ⅟2 * (sprod x (atrousInv lo s a) + sprod x (atrousInv hi s d)) := by
  rw [sprod_eq, sprod_eq, sprod_eq, ← sum_add_distrib, mul_sum]
  refine sum_congr rfl fun n hn => ?_
  have hn := mem_range.mp hn
  have l1 : n < (atrousInv lo s a).length := by simp [atrousInv]; omega
  have l2 : n < (atrousInv hi s d).length := by simp [atrousInv]; omega
  have l3 : n < (iswtStep lo hi s a d).length := by rw [iswtStep_length _ _ _ (by omega)]; omega
  rw [List.getD_eq_getElem _ _ l3, List.getD_eq_getElem _ _ l1, List.getD_eq_getElem _ _ l2]
  simp only [iswtStep, List.getElem_zipWith, smul_eq_mul]
  ring

theorem atrousInv_mul {f x : List R} (t : R) (s : ℕ) : atrousInv (f.map (· * t)) s x = (atrousInv f s x).map (· * t) := by
  simp only [atrousInv, List.map_map, List.length_map]
  refine List.map_congr_left fun n _ => ?_
  simp only [Function.comp_apply, sum_mul]
  refine sum_congr rfl fun l _ => ?_
  rw [getD_map_mul]
  simp only [smul_eq_mul]
  ring

theorem sprod_map_mul (x y : List R) (t : R) : sprod x (y.map (· * t)) = sprod x y * t := by
  rw [sprod_eq, sprod_eq, sum_mul]
  refine sum_congr rfl fun n _ => ?_
  rw [getD_map_mul]
  ring

/-- All levels. -/
theorem iswtCascade_adjoint {lo hi : List R} {s s' : R} (hs : s' = 2 * s) (hlo : lo.length % 2 = 0) (hhi : hi.length % 2 = 0)
    {x : List R} (hx : 1 ≤ x.length) : ∀ (n : ℕ) (ds : List (List R)) (a : List R), ds.length = n → a.length = x.length →
    (∀ d ∈ ds, d.length = x.length) →
    sprod (swtApprox (lo.map (· * s)) 0 x n) a +
      (List.zipWith sprod ((List.range n).map fun j => swtDetail (lo.map (· * s)) (hi.map (· * s)) 0 x j).reverse ds).sum =
      sprod x (iswtCascade (lo.reverse.map (· * s')) (hi.reverse.map (· * s')) ds a)
  | 0, [], a, _, _, _ => by simp [swtApprox, iswtCascade]
  | n + 1, d :: ds, a, hn, ha, hd => by
      have hdl := hd d (by simp)
      have hn' : ds.length = n := by simpa using hn
      have hal : (iswtStep (lo.reverse.map (· * s')) (hi.reverse.map (· * s')) (2 ^ ds.length) a d).length = x.length := by
        rw [iswtStep_length _ _ _ (by omega), ha]
      have ih := iswtCascade_adjoint hs hlo hhi hx n ds _ hn' hal fun d hd' => hd d (by simp [hd'])
      rw [iswtCascade, ← ih, List.range_succ, List.map_append, List.reverse_append]
      simp only [List.map_cons, List.map_nil, List.reverse_cons, List.reverse_nil, List.nil_append, List.cons_append,
        List.zipWith_cons_cons, List.sum_cons]
      rw [← add_assoc]
      congr 1
      have hA : (swtApprox (lo.map (· * s)) 0 x n).length = x.length := swtApprox_length _ _ _ _
      rw [sprod_iswtStep (by rw [hA, ha]) (by rw [hA, hdl]), swtApprox, swtDetail,
        atrous_sprod (by simpa using hlo) _ (by omega) (by omega), atrous_sprod (by simpa using hhi) _ (by omega) (by omega),
        hn', ← List.map_reverse, ← List.map_reverse]
      simp only [zero_add, atrousInv_mul, sprod_map_mul]
      rw [hs]
      linear_combination (-s * (sprod (swtApprox (lo.map (· * s)) 0 x n) (atrousInv lo.reverse (2 ^ n) a) +
        sprod (swtApprox (lo.map (· * s)) 0 x n) (atrousInv hi.reverse (2 ^ n) d))) * (invOf_mul_self (2 : R))

omit [Invertible (2 : R)]

theorem dist2_expand : ∀ {u v : List R}, u.length = v.length → dist2 u v = energy u - 2 * sprod u v + energy v
  | [], [], _ => by simp [dist2, energy, sprod]
  | [], _ :: _, h => by simp at h
  | _ :: _, [], h => by simp at h
  | a :: u, b :: v, h => by
      have ih := dist2_expand (u := u) (v := v) (by simpa using h)
      unfold dist2 energy sprod at *
      simp only [List.zipWith_cons_cons, List.sum_cons, List.map_cons]
      rw [ih]
      ring

theorem dist2s_expand : ∀ {us vs : List (List R)}, us.map List.length = vs.map List.length →
    dist2s us vs = (us.map energy).sum - 2 * (List.zipWith sprod us vs).sum + (vs.map energy).sum
  | [], [], _ => by simp [dist2s]
  | [], _ :: _, h => by simp at h
  | _ :: _, [], h => by simp at h
  | a :: u, b :: v, h => by
      simp only [List.map_cons, List.cons.injEq] at h
      have ih := dist2s_expand (us := u) (vs := v) h.2
      unfold dist2s at *
      simp only [List.zipWith_cons_cons, List.sum_cons, List.map_cons]
      rw [ih, dist2_expand h.1]
      ring

theorem sprod_self (u : List R) : sprod u u = energy u := by
  unfold sprod energy
  rw [List.zipWith_self]

end

end Pywt
