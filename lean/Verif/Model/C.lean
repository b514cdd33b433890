import Mathlib.Algebra.BigOperators.Intervals
import Mathlib.Algebra.BigOperators.Module
import Mathlib.Tactic.Ring
import Mathlib.Tactic.Linarith

/-!
# A checked model of the C subset used by the convolution kernels

A kernel is a computation in `C = Except CErr`.  Everything that C leaves undefined, or that would
silently go wrong, is an error *value*:

* reading or writing outside a buffer (`oob`),
* a `size_t` subtraction whose true result is negative (`underflow`; in C it wraps to a huge value),
* a loop still running when its fuel is used up (`fuel`).

So a theorem saying that a kernel returns `.ok` says that it is memory safe, that no index wraps and
that it terminates.  Simplification: `size_t` additions and multiplications do not overflow
(indices are `Nat`).
-/

namespace Pywt

/-- Ways in which a C kernel can go wrong. -/
inductive CErr
  | oob | underflow | fuel
  deriving DecidableEq, Repr

/-- Checked C computations. -/
abbrev C := Except CErr

/-- `a[i]` as an rvalue, bounds-checked. -/
def rd {α : Type} (a : List α) (i : Nat) : C α :=
  match a[i]? with
  | some v => .ok v
  | none => .error .oob

/-- `a[i] = v`, bounds-checked. -/
def wr {α : Type} (a : List α) (i : Nat) (v : α) : C (List α) :=
  if i < a.length then .ok (a.set i v) else .error .oob

/-- `a[i] += v`, bounds-checked. -/
def addTo {M : Type} [Add M] (a : List M) (i : Nat) (v : M) : C (List M) := do
  let u ← rd a i
  wr a i (u + v)

/-- `a - b` on `size_t`, an error when the true difference is negative. -/
def sub (a b : Nat) : C Nat :=
  if b ≤ a then .ok (a - b) else .error .underflow

/-- `while (cond) body`, with fuel. -/
def loop {σ : Type} (cond : σ → C Bool) (body : σ → C σ) : Nat → σ → C σ
  | 0, _ => .error .fuel
  | n + 1, s => do
      if ← cond s then
        let s' ← body s
        loop cond body n s'
      else
        pure s

/-- `for (k = k0; k < N && more(j); k += dk, j += dj) sum += term(j, k);`
The state carried through is `(j, sum)`.  As in C, `more` is evaluated only when `k < N`. -/
def forKJ {M : Type} [Add M] (fuel N k0 dk dj : Nat) (more : Nat → C Bool)
    (term : Nat → Nat → C M) (st : Nat × M) : C (Nat × M) := do
  let r ← loop (σ := Nat × Nat × M)
    (fun s => if s.1 < N then more s.2.1 else pure false)
    (fun s => do
      let v ← term s.2.1 s.1
      pure (s.1 + dk, s.2.1 + dj, s.2.2 + v))
    fuel (k0, st.1, st.2)
  pure r.2

/-- `for (; more(j); j += dj) sum += term(j);` -/
def forJ {M : Type} [Add M] (fuel dj : Nat) (more : Nat → C Bool)
    (term : Nat → C M) (st : Nat × M) : C (Nat × M) :=
  loop (σ := Nat × M) (fun s => more s.1)
    (fun s => do
      let v ← term s.1
      pure (s.1 + dj, s.2 + v))
    fuel st

end Pywt
