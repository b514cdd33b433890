import Verif.Proof.Dwt
import Mathlib.Algebra.Module.LinearMap.Basic
import Mathlib.Algebra.Module.Prod
import Mathlib.LinearAlgebra.Prod

/-! Naturality of the specification under linear maps, and the explicit synthesis sum. -/

namespace Pywt

open Finset Spec

set_option linter.unusedSectionVars false

section natural

variable {R M M' : Type} [Ring R] [AddCommGroup M] [Module R M] [AddCommGroup M'] [Module R M']

theorem at'_map (φ : M →ₗ[R] M') (x : List M) (p : ℤ) : at' (x.map φ) p = φ (at' x p) := by
  unfold at'
  rw [← map_zero φ, List.getD_map]

theorem evenPad_map (φ : M →ₗ[R] M') (x : List M) : evenPad (x.map φ) = (evenPad x).map φ := by
  unfold evenPad
  simp only [List.length_map, at'_map]
  split <;> simp

theorem ext_map (φ : M →ₗ[R] M') (mode : Mode) (x : List M) (p : ℤ) :
    Spec.ext mode (x.map φ) p = φ (Spec.ext mode x p) := by
  cases mode <;>
    simp only [Spec.ext, List.length_map, at'_map, evenPad_map] <;>
    repeat' split
  all_goals simp [map_zsmul]

theorem conv_map (φ : M →ₗ[R] M') (f : List R) (e : ℤ → M) (p : ℤ) :
    conv f (fun q => φ (e q)) p = φ (conv f e p) := by
  simp [conv, map_sum]

theorem analysis_map (φ : M →ₗ[R] M') (mode : Mode) (f : List R) (x : List M) :
    analysis mode f (x.map φ) = (analysis mode f x).map φ := by
  have : ∀ mode, Spec.ext mode (x.map φ) = fun q => φ (Spec.ext mode x q) :=
    fun mode => funext fun q => ext_map φ mode x q
  cases mode <;> simp [analysis, this, conv_map]

theorem upsample_map (φ : M →ₗ[R] M') (e : ℤ → M) :
    upsample (fun q => φ (e q)) = fun q => φ (upsample e q) := by
  funext q
  unfold upsample
  split <;> simp

theorem synthesis_map (φ : M →ₗ[R] M') (mode : Mode) (lo hi : List R) (a d : List M) :
    synthesis mode lo hi (a.map φ) (d.map φ) = (synthesis mode lo hi a d).map φ := by
  have : ∀ mode (x : List M), Spec.ext mode (x.map φ) = fun q => φ (Spec.ext mode x q) :=
    fun mode x => funext fun q => ext_map φ mode x q
  cases mode <;> simp [synthesis, this, conv_map, upsample_map]

theorem signalOk_map (φ : M → M') (mode : Mode) (x : List M) :
    SignalOk mode (x.map φ) ↔ SignalOk mode x := by simp [SignalOk, LenOk]

theorem signalOk_length {x : List M} {y : List M'} (mode : Mode) (h : x.length = y.length) :
    SignalOk mode x ↔ SignalOk mode y := by simp [SignalOk, h]

end natural

section synth

variable {R M : Type} [Ring R] [AddCommGroup M] [Module R M]

theorem upsample_zero_eq_sum (c : List M) (p : ℤ) :
    upsample (Spec.ext .zero c) p =
      ∑ k ∈ range c.length, if p = 2 * k then c.getD k 0 else 0 := by
  unfold upsample
  split
  · rename_i h
    obtain ⟨q, rfl⟩ : ∃ q, p = 2 * q := ⟨p / 2, by omega⟩
    rw [show 2 * q / 2 = q by omega]
    simp only [Spec.ext, at']
    split
    · rename_i hq
      rw [sum_eq_single q.toNat]
      · rw [if_pos (by omega)]
      · intro b _ hb
        rw [if_neg (by omega)]
      · intro hn
        simp at hn
        omega
    · rename_i hq
      rw [sum_eq_zero]
      intro k hk
      rw [if_neg]
      simp at hk
      omega
  · rw [sum_eq_zero]
    intro k _
    rw [if_neg (by omega)]

/-- The upsampled convolution as an explicit sum over the coefficients. -/
theorem conv_upsample_eq_sum (f : List R) (c : List M) (p : ℤ) :
    conv f (upsample (Spec.ext .zero c)) p =
      ∑ k ∈ range c.length, tap f (p - 2 * k) • c.getD k 0 := by
  unfold conv
  simp only [upsample_zero_eq_sum, smul_sum]
  rw [sum_comm]
  apply sum_congr rfl
  intro k _
  unfold tap
  split
  · rename_i h
    rw [sum_eq_single (p - 2 * k).toNat]
    · rw [if_pos (by omega)]
    · intro j _ hj
      rw [if_neg (by omega), smul_zero]
    · intro hn
      simp at hn
      omega
  · rename_i h
    rw [zero_smul, sum_eq_zero]
    intro j hj
    simp at hj
    rw [if_neg (by omega), smul_zero]

end synth

end Pywt
