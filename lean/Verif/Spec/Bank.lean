import Verif.Spec.Ext
import Mathlib.Data.Fintype.BigOperators

/-!
# Specification: synthesis and perfect-reconstruction filter banks

Independent of the model of the code.
-/

namespace Pywt
namespace Spec

variable {R M : Type}

/-- The synthesis step of the decimated transform: both coefficient sequences are upsampled by two,
filtered with the synthesis filters and added.  Outside periodization only the positions at which
the filters lie entirely inside the coefficients are kept (`F-2 ≤ p`, `2L-F+2` of them); in
periodization mode the coefficients are extended periodically and `2L` positions from `F/2-1` are
kept. -/
def synthesis [Semiring R] [AddCommGroup M] [Module R M] (mode : Mode) (lo hi : List R)
    (a d : List M) : List M :=
  match mode with
  | .periodization =>
      (List.range (2 * a.length)).map fun n : ℕ =>
        conv lo (upsample (ext .periodic a)) ((n : ℤ) + ((lo.length / 2 : ℕ) - 1)) +
          conv hi (upsample (ext .periodic d)) ((n : ℤ) + ((lo.length / 2 : ℕ) - 1))
  | _ =>
      (List.range (2 * a.length + 2 - lo.length)).map fun n : ℕ =>
        conv lo (upsample (ext .zero a)) ((n : ℤ) + (lo.length - 2)) +
          conv hi (upsample (ext .zero d)) ((n : ℤ) + (lo.length - 2))

/-- Number of samples one-level synthesis returns for `L` coefficients and filters of length `F`. -/
def synthLen (mode : Mode) (L F : ℕ) : ℕ :=
  if mode = .periodization then 2 * L else 2 * L + 2 - F

/-- Tap number `i` of a filter, zero outside. -/
def tap [Zero R] (f : List R) (i : ℤ) : R := if 0 ≤ i ∧ i < f.length then f.getD i.toNat 0 else 0

/-- Coefficient of `z^{-s}` in the product of the filters `f` and `g`, restricted to taps `t` of `f`
of parity `p`. -/
def parityCoeff [Semiring R] (f g : List R) (p s : ℕ) : R :=
  ∑ t ∈ Finset.range f.length, ∑ l ∈ Finset.range g.length,
    if t % 2 = p ∧ t + l = s then f.getD t 0 * g.getD l 0 else 0

/-- Perfect reconstruction with delay `F-1`: for both parities `p` of the synthesis taps,
`Σ_{t+l=s, t≡p} rec_lo[t]·dec_lo[l] + rec_hi[t]·dec_hi[l] = δ(s, F-1)`.
(`Verif.Props.Bank` shows that this is the textbook condition "no distortion and no aliasing".) -/
def PR [Semiring R] (dec_lo dec_hi rec_lo rec_hi : List R) : Prop :=
  ∀ p < 2, ∀ s, parityCoeff rec_lo dec_lo p s + parityCoeff rec_hi dec_hi p s =
    if s + 1 = dec_lo.length then 1 else 0

/-- Coefficient of `z^{-s}` in the product of two FIR filters. -/
def prodCoeff [Semiring R] (f g : List R) (s : ℕ) : R :=
  ∑ t ∈ Finset.range f.length, ∑ l ∈ Finset.range g.length,
    if t + l = s then f.getD t 0 * g.getD l 0 else 0

/-- Coefficient of `z^{-s}` in `f(z)·g(-z)`. -/
def aliasCoeff [Ring R] (f g : List R) (s : ℕ) : R :=
  ∑ t ∈ Finset.range f.length, ∑ l ∈ Finset.range g.length,
    if t + l = s then f.getD t 0 * ((-1) ^ l * g.getD l 0) else 0

/-- The textbook form of perfect reconstruction for a two-channel filter bank:
`G₀(z)H₀(z) + G₁(z)H₁(z) = 2z^{-(F-1)}` (no distortion) and
`G₀(z)H₀(-z) + G₁(z)H₁(-z) = 0` (no aliasing). -/
def PRTextbook [Ring R] (dec_lo dec_hi rec_lo rec_hi : List R) : Prop :=
  (∀ s, prodCoeff rec_lo dec_lo s + prodCoeff rec_hi dec_hi s =
    if s + 1 = dec_lo.length then 2 else 0) ∧
  (∀ s, aliasCoeff rec_lo dec_lo s + aliasCoeff rec_hi dec_hi s = 0)

/-- Correlation of two filters at lag `m`: `Σ_j b[j]·c[j+m]`. -/
def xcorr [Semiring R] (b c : List R) (m : ℤ) : R :=
  ∑ j ∈ Finset.range b.length, b.getD j 0 * tap c (j + m)

/-- `b` and `c` are biorthogonal with respect to even shifts.  With `b = c`: the filter is orthonormal to
its even shifts, as a scaling filter has to be. -/
def EvenBiorthogonal [Semiring R] (b c : List R) : Prop :=
  ∀ k : ℤ, xcorr b c (2 * k) = if k = 0 then 1 else 0

end Spec
end Pywt
