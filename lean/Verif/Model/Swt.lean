import Verif.Model.Dwt
import Mathlib.Algebra.Group.Invertible.Defs
import Mathlib.Algebra.Ring.Defs

/-!
# Model of the 1-D part of `pywt/_swt.py` and `pywt/_extensions/_swt.pyx`

Not modelled here: dtype conversions (see `Verif.Model.DType`), warnings, n-D data (see `Verif.Model.SwtN`).
-/

namespace Pywt

variable {R M : Type} [Zero R] [Mul R] [Zero M] [Add M] [Neg M] [Sub M] [SMul ℕ M] [SMul R M]

/-- The two output conventions of the stationary transform (`_swt.py` L57-80):
`[(cA_n, cD_n), …, (cA_1, cD_1)]`, or with `trim_approx` `[cA_n, cD_n, …, cD_1]`. -/
inductive SwtCoeffs (A : Type)
  | pairs (l : List (A × A))
  | trimmed (l : List A)
  deriving DecidableEq, Repr

/-- The loop of `_swt.pyx:swt` (L84-158): levels `i, i+1, …, i+n-1`; collects the `(cA, cD)`. -/
def swtLoop (w : Wavelet R) : Nat → Nat → List M → List (List M × List M) →
    Py (List (List M × List M))
  | 0, _, _, ret => .ok ret
  | n + 1, i, data, ret => do
      let output_len := swtBufferLength data.length
      let cD ← callC (swt_d w data (zeros output_len) i)
      let cA ← callC (swt_a w data (zeros output_len) i)
      swtLoop w n (i + 1) cA (ret ++ [(cA, cD)])

/-- `_swt.pyx:swt` (L54-158).  Simplification: with `trim_approx` the code appends only `cD` in each
iteration and the last `cA` at the end; here both are collected and `cA` dropped afterwards. -/
def swtC (w : Wavelet R) (data : List M) (level start_level : Nat) (trim_approx : Bool) :
    Py (SwtCoeffs (List M)) := do
  if data.length % 2 ≠ 0 then throw .value
  if data.length < 1 then throw .value
  if level < 1 then throw .value
  if start_level ≥ swtMaxLevelC data.length then throw .value
  if start_level + level > swtMaxLevelC data.length then throw .value
  if swtBufferLength data.length < 1 then throw .runtime
  let ret ← swtLoop w level (start_level + 1) data []
  if trim_approx then
    match ret.getLast? with
    | some last => pure (.trimmed (ret.map (·.2) ++ [last.1]).reverse)
    | none => throw .runtime            -- unreachable: `level ≥ 1`
  else
    pure (.pairs ret.reverse)

/-- `_rescale_wavelet_filterbank` (_swt.py L18-26). -/
def Wavelet.rescale (w : Wavelet R) (sf : R) : Wavelet R where
  dec_lo := w.dec_lo.map (· * sf)
  dec_hi := w.dec_hi.map (· * sf)
  rec_lo := w.rec_lo.map (· * sf)
  rec_hi := w.rec_hi.map (· * sf)

/-- `norm`: `none` is `norm=False`, `some sf` is `norm=True` with the factor the code uses
(`1/np.sqrt(2)` in `swt` L131, `np.sqrt(2)` in `iswt` L226). -/
def Wavelet.normed (w : Wavelet R) : Option R → Wavelet R
  | none => w
  | some sf => w.rescale sf

/-- `pywt.swt` on 1-D data (_swt.py L28-153).  Negative numbers passed to the `size_t` parameters
raise `OverflowError` in Cython. -/
def swt (w : Wavelet R) (level : Option Int) (start_level : Int) (trim_approx : Bool)
    (norm : Option R) (data : List M) : Py (SwtCoeffs (List M)) := do
  let w := w.normed norm
  let level ← match level with
    | none => swtMaxLevel data.length
    | some l => if l < 0 then throw .overflow else pure l.toNat
  if start_level < 0 then throw .overflow
  swtC w data level start_level.toNat trim_approx

/-- `l[0::2]`. -/
def evens {α : Type} : List α → List α
  | [] => []
  | [a] => [a]
  | a :: _ :: t => a :: evens t

/-- `l[1::2]`. -/
def odds {α : Type} (l : List α) : List α := evens l.tail

/-- `np.arange(first, stop, step)`. -/
def arange (first stop step : Nat) : List Nat :=
  (List.range ((stop - first + step - 1) / step)).map fun k => first + k * step

/-- `a[idx]` with an array of indices. -/
def gather {α : Type} (a : List α) (idx : List Nat) : Py (List α) :=
  idx.mapM fun i => match a[i]? with
    | some v => .ok v
    | none => .error .index

/-- `a[idx] = vals` with an array of in-range indices. -/
def scatter {α : Type} (a : List α) (idx : List Nat) (vals : List α) : List α :=
  (idx.zip vals).foldl (fun a p => a.set p.1 p.2) a

/-- `np.roll(x, 1)`. -/
def roll1 {α : Type} (x : List α) : List α := x.drop (x.length - 1) ++ x.take (x.length - 1)

/-- The factor of `/ 2.0` (_swt.py L265: `(x1 + x2)/2.`). -/
class Half (R : Type) where
  half : R

instance {R : Type} [Ring R] [Invertible (2 : R)] : Half R := ⟨⅟2⟩

theorem half_eq {R : Type} [Ring R] [Invertible (2 : R)] : (Half.half : R) = ⅟2 := rfl

variable [Half R]

/-- One iteration of the inner loop of `iswt` (_swt.py L244-267). -/
def iswtPhase (w : Wavelet R) (step_size : Nat) (cD output : List M) (first : Nat) :
    Py (List M) := do
  let indices := arange first cD.length step_size
  let even_indices := evens indices
  let odd_indices := odds indices
  let x1 ← idwtSingle w .periodization (← gather output even_indices) (← gather cD even_indices)
  let x2 ← idwtSingle w .periodization (← gather output odd_indices) (← gather cD odd_indices)
  let x2 := roll1 x2
  if x1.length ≠ x2.length then throw .value
  let avg := List.zipWith (fun u v => (Half.half : R) • (u + v)) x1 x2
  if avg.length ≠ indices.length then throw .value
  pure (scatter output indices avg)

/-- The loop over the levels of `iswt` (_swt.py L228-267): `cDs` lists the detail arrays from the
coarsest level on, so the current level is the number of arrays left. -/
def iswtLoop (w : Wavelet R) : List (List M) → List M → Py (List M)
  | [], output => .ok output
  | cD :: rest, output => do
      let step_size := 2 ^ rest.length
      let output ← (List.range step_size).foldlM (iswtPhase w step_size cD) output
      iswtLoop w rest output

/-- `pywt.iswt` on 1-D coefficients (_swt.py L156-269). -/
def iswt (w : Wavelet R) (norm : Option R) (coeffs : SwtCoeffs (List M)) : Py (List M) :=
  let w := w.normed norm
  match coeffs with
  | .trimmed [] => .error .index
  | .pairs [] => .error .index
  | .trimmed (cA :: cDs) => iswtLoop w cDs cA
  | .pairs ((cA, cD) :: rest) => iswtLoop w (cD :: rest.map (·.2)) cA

end Pywt
