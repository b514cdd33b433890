import Mathlib.Algebra.BigOperators.Group.Finset.Basic
import Mathlib.Algebra.Module.Basic
import Mathlib.Data.Int.Basic

/-!
# Specification: signal extension modes and filtering

This file is independent of the model of the code.  It fixes, for each documented extension mode,
the bi-infinite signal that a finite signal stands for (documentation of `pywt.Modes`,
`_pywt.pyx` L67-82, `doc/source/ref/signal-extension-modes.rst`), and the filtering operations on
bi-infinite signals in terms of which the transforms are specified.
-/

namespace Pywt

/-- The nine signal extension modes, in the order of the `MODE` enum (`c/common.h` L68-96). -/
inductive Mode
  | zero | symmetric | constant | smooth | periodic | periodization | reflect | antisymmetric
  | antireflect
  deriving DecidableEq, Repr

namespace Spec

variable {R M : Type}

/-- Sample number `p` of a finite signal (only ever used for `0 ≤ p < x.length`). -/
def at' [Zero M] (x : List M) (p : ℤ) : M := x.getD p.toNat 0

/-- The signal that `periodization` works on: the last sample is repeated if the length is odd. -/
def evenPad [Zero M] (x : List M) : List M :=
  if x.length % 2 = 1 then x ++ [at' x (x.length - 1)] else x

/-- The bi-infinite extension of the finite signal `x` in each mode. -/
def ext [AddCommGroup M] (mode : Mode) (x : List M) (p : ℤ) : M :=
  let N : ℤ := x.length
  match mode with
  | .zero => if 0 ≤ p ∧ p < N then at' x p else 0
  | .constant => if p < 0 then at' x 0 else if p < N then at' x p else at' x (N - 1)
  | .symmetric =>
      let r := p % (2 * N)
      if r < N then at' x r else at' x (2 * N - 1 - r)
  | .antisymmetric =>
      let r := p % (2 * N)
      if r < N then at' x r else - at' x (2 * N - 1 - r)
  | .reflect =>
      let r := p % (2 * (N - 1))
      if r < N then at' x r else at' x (2 * (N - 1) - r)
  | .antireflect =>
      let r := p % (2 * (N - 1))
      let q := p / (2 * (N - 1))
      (2 * q) • (at' x (N - 1) - at' x 0) +
        (if r < N then at' x r else (2 : ℤ) • at' x (N - 1) - at' x (2 * (N - 1) - r))
  | .periodic => at' x (p % N)
  | .periodization => at' (evenPad x) (p % (evenPad x).length)
  | .smooth =>
      if N < 2 then at' x 0
      else if p < 0 then at' x 0 + (-p) • (at' x 0 - at' x 1)
      else if p < N then at' x p
      else at' x (N - 1) + (p - (N - 1)) • (at' x (N - 1) - at' x (N - 2))

/-- Filtering a bi-infinite signal `e` with the FIR filter `f`: `(f * e)(p) = Σ_j f[j]·e(p-j)`. -/
def conv [Semiring R] [AddCommGroup M] [Module R M] (f : List R) (e : ℤ → M) (p : ℤ) : M :=
  ∑ j ∈ Finset.range f.length, f.getD j 0 • e (p - j)

/-- The analysis filter step of the decimated transform for an extension mode.
All modes except periodization keep the odd positions `1, 3, 5, …` of the filtered signal, as many
as there are positions below `N + F - 1`; periodization keeps positions `F/2, F/2+2, …`, `⌈N/2⌉` of
them. -/
def analysis [Semiring R] [AddCommGroup M] [Module R M] (mode : Mode) (f : List R) (x : List M) :
    List M :=
  match mode with
  | .periodization =>
      (List.range ((x.length + 1) / 2)).map fun o : ℕ =>
        conv f (ext .periodization x) (((f.length / 2 : ℕ) : ℤ) + 2 * o)
  | mode =>
      (List.range ((x.length + f.length - 1) / 2)).map fun o : ℕ =>
        conv f (ext mode x) (2 * (o : ℤ) + 1)

/-- Number of coefficients per subband documented for the decimated transform
(`_dwt.py` L103-112): `⌈N/2⌉` in periodization mode, `⌊(N+F-1)/2⌋` otherwise. -/
def coeffLen (mode : Mode) (N F : ℕ) : ℕ :=
  if mode = .periodization then (N + 1) / 2 else (N + F - 1) / 2

/-- Signal lengths a mode is defined for: positive, and at least two for the modes that reflect
about the edge *samples*. -/
def LenOk (mode : Mode) (N : ℕ) : Prop := 1 ≤ N ∧ (mode = .reflect ∨ mode = .antireflect → 2 ≤ N)

instance (mode : Mode) (N : ℕ) : Decidable (LenOk mode N) := by unfold LenOk; infer_instance

/-- Signals a mode is defined for. -/
abbrev SignalOk (mode : Mode) (x : List M) : Prop := LenOk mode x.length

/-- Upsampling by two: a zero is inserted after every sample. -/
def upsample [Zero M] (e : ℤ → M) (p : ℤ) : M := if p % 2 = 0 then e (p / 2) else 0

end Spec
end Pywt
