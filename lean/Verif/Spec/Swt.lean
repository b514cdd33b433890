import Verif.Spec.Bank

/-!
# Specification: the stationary (undecimated, "à trous") transform
-/

namespace Pywt
namespace Spec

variable {R M : Type} [Semiring R] [AddCommGroup M] [Module R M]

/-- Circular filtering with the taps spread `s` samples apart, without decimation; as in
periodization mode the filter is centred: output `n` is `Σ_l f[l]·x[(n + s·(F/2 - l)) mod N]`. -/
def atrous (f : List R) (s : ℕ) (x : List M) : List M :=
  (List.range x.length).map fun n : ℕ =>
    ∑ l ∈ Finset.range f.length,
      f.getD l 0 • at' x (((n : ℤ) + s * ((f.length / 2 : ℕ) - l)) % x.length)

/-- Approximation after the levels `m+1, …, m+j`; level `i` uses taps `2^(i-1)` apart. -/
def swtApprox (lo : List R) (m : ℕ) (x : List M) : ℕ → List M
  | 0 => x
  | j + 1 => atrous lo (2 ^ (m + j)) (swtApprox lo m x j)

/-- Detail coefficients of level `m+j+1`. -/
def swtDetail (lo hi : List R) (m : ℕ) (x : List M) (j : ℕ) : List M :=
  atrous hi (2 ^ (m + j)) (swtApprox lo m x j)

/-- Circular filtering with a synthesis filter whose taps are spread `s` samples apart: output `n` is
`Σ_l f[l]·x[(n + s·(F/2 - 1 - l)) mod N]`. -/
def atrousInv (f : List R) (s : ℕ) (x : List M) : List M :=
  (List.range x.length).map fun n : ℕ =>
    ∑ l ∈ Finset.range f.length,
      f.getD l 0 • at' x (((n : ℤ) + s * (((f.length / 2 : ℕ) : ℤ) - 1 - l)) % x.length)

/-- One level of the inverse stationary transform: half the sum of the filtered approximation and the
filtered detail. -/
def iswtStep [Invertible (2 : R)] (lo hi : List R) (s : ℕ) (a d : List M) : List M :=
  List.zipWith (fun u v => (⅟2 : R) • (u + v)) (atrousInv lo s a) (atrousInv hi s d)

/-- The inverse stationary transform of an approximation and details listed from the coarsest level
on. -/
def iswtCascade [Invertible (2 : R)] (lo hi : List R) : List (List M) → List M → List M
  | [], a => a
  | d :: ds, a => iswtCascade lo hi ds (iswtStep lo hi (2 ^ ds.length) a d)

/-- Circular shift of a finite signal: sample `n` of the result is sample `n - c` of `x`. -/
def shift (c : ℤ) (x : List M) : List M :=
  (List.range x.length).map fun n : ℕ => at' x (((n : ℤ) - c) % x.length)

end Spec
end Pywt
