import Verif.Model.AxisPy
import Mathlib.Logic.Equiv.Basic
import Mathlib.Algebra.Order.Floor.Ring
import Mathlib.Data.Nat.Log

/-!
# Model of the continuous wavelet transform (`pywt/_cwt.py`)

The integrated wavelet `int_psi` and its grid (`x[0]`, `x[-1]`, `x[1] - x[0]`) are arguments, as is
the square root; `Verif.Model.Wavefun` computes them from the wavelet.  Arithmetic is exact; the discrete Fourier transform is the sum it computes, for a given
root of unity per size.
-/

namespace Pywt

variable {K E M : Type}

/-- `np.convolve(a, v)` in mode `full` (used at _cwt.py L146-155): an empty argument raises. -/
def npConvolve [Semiring E] [AddCommGroup M] [Module E M] (a : List M) (v : List E) : Py (List M) :=
  if a.length = 0 ∨ v.length = 0 then .error .value
  else
    .ok ((List.range (a.length + v.length - 1)).map fun k =>
      ((List.range v.length).map fun i =>
        if i ≤ k ∧ k - i < a.length then v.getD i 0 • a.getD (k - i) 0 else 0).sum)

/-- `np.diff(l)` (_cwt.py L175). -/
def npDiff [Sub M] (l : List M) : List M := List.zipWith (fun a b => a - b) l.tail l

/-- The sample positions at a scale (_cwt.py L138-143): `np.arange(scale·(x[-1]-x[0])+1) / (scale·step)`,
rounded down, those inside the integrated wavelet. -/
def cwtIndices [Field K] [LinearOrder K] [FloorRing K] (x0 xl step scale : K) (size : ℕ) : List ℕ :=
  let j := (List.range ⌈scale * (xl - x0) + 1⌉.toNat).map fun i : ℕ => ⌊(i : K) / (scale * step)⌋.toNat
  match j.getLast? with
  | none => j
  | some last => if size ≤ last then j.filter (· < size) else j

/-- `int_psi[j][::-1]` (_cwt.py L143). -/
def psiScale [Zero E] (int_psi : List E) (j : List ℕ) : List E := (j.map fun k => int_psi.getD k 0).reverse

/-- `next_fast_len` (_cwt.py L18-24). -/
def nextFastLen (n : ℕ) : ℕ := 2 ^ Nat.clog 2 n

/-- `np.fft.fft(l, n)`: `l` is cut or filled with zeros to length `n` (_cwt.py L167-169); `ω` is the root of
unity `exp(-2πi/n)`. -/
def fft [Semiring E] [AddCommGroup M] [Module E M] (ω : E) (l : List M) (n : ℕ) : List M :=
  (List.range n).map fun k => ((List.range n).map fun i => ω ^ (k * i) • l.getD i 0).sum

/-- `np.fft.ifft(l)` (_cwt.py L170). -/
def ifft [Field E] [AddCommGroup M] [Module E M] (ω : E) (l : List M) : List M :=
  (fft ω⁻¹ l l.length).map fun v => (l.length : E)⁻¹ • v

/-- How the convolution is computed: `method='conv'`, `method='fft'` (with the roots of unity for each size)
or any other string. -/
inductive CwtMethod (E : Type)
  | conv
  | fft (root : ℕ → E)
  | other

/-- The convolutions of all rows at one scale (_cwt.py L145-173) and the kept Fourier transforms of the rows,
with the size they were computed for (`size_scale0`, `fft_data`; absent before the first scale). -/
def cwtConv [Field E] [AddCommGroup M] [Module E M] (method : CwtMethod E) (rows : List (List M)) (n : ℕ)
    (cache : Option (ℕ × List (List M))) (psi : List E) : Py (List (List M) × Option (ℕ × List (List M))) :=
  match method with
  | .conv => do
    let conv ← rows.mapM fun r => npConvolve r psi
    .ok (conv, cache)
  | .fft root =>
    let size := nextFastLen (n + psi.length - 1)
    let fresh := rows.map fun r => fft (root size) r size
    let fft_data := match cache with
      | .some (size0, old) => if size ≠ size0 then fresh else old
      | .none => fresh
    let fft_wav := fft (root size) psi size
    let conv := fft_data.map fun d => ifft (root size) (List.zipWith (fun a b => a • b) fft_wav d)
    .ok (conv.map fun c => c.take (n + psi.length - 1), .some (size, fft_data))
  | .other => .error .value

/-- Scaling, differences and cropping (_cwt.py L175-183); `rt` is `np.sqrt(scale)`, `n` the length of the data
and `len` that of the convolutions.  The real part taken for a real wavelet and real data is not modelled: these
values are real in exact arithmetic. -/
def cwtCrop [Ring E] [AddCommGroup M] [Module E M] (rt : E) (n len : ℕ) (conv : List (List M)) :
    Py (List (List M)) :=
  let coef := conv.map fun c => (npDiff c).map fun v => (-rt) • v
  let clen := len - 1
  if n < clen then
    let d2 := clen - n
    .ok (coef.map fun c => (c.take (clen - (d2 + 1) / 2)).drop (d2 / 2))
  else if clen < n then .error .value
  else .ok coef

/-- The loop over the scales (_cwt.py L137-188) for data arranged in rows of length `n`. -/
def cwtLoop [Field K] [LinearOrder K] [FloorRing K] [Field E] [AddCommGroup M] [Module E M]
    (method : CwtMethod E) (int_psi : List E) (x0 xl step : K) (sqrt : K → E) (rows : List (List M)) (n : ℕ) :
    List K → Option (ℕ × List (List M)) → Py (List (List (List M)))
  | [], _ => .ok []
  | scale :: scales, cache => do
    let psi := psiScale int_psi (cwtIndices x0 xl step scale int_psi.length)
    let (conv, cache) ← cwtConv method rows n cache psi
    let coef ← cwtCrop (sqrt scale) n (n + psi.length - 1) conv
    let rest ← cwtLoop method int_psi x0 xl step sqrt rows n scales cache
    .ok (coef :: rest)

/-- `a.swapaxes(i, j)`. -/
def Arr.swapaxes [Zero M] (a : Arr M) (i j : ℕ) : Arr M :=
  Arr.ofFn ((List.range a.shape.length).map fun k => a.shape.getD (Equiv.swap i j k) 0)
    fun idx => a.get fun k => idx (Equiv.swap i j k)

/-- `a.reshape((-1, n))` as a list of rows: the size cannot be inferred when `n` is zero (_cwt.py L134). -/
def Arr.rowsOf (a : Arr M) (n : ℕ) : Py (List (List M)) :=
  if n = 0 then .error .value
  else .ok ((List.range (a.data.length / n)).map fun b => (a.data.drop (b * n)).take n)

/-- Restoring the shape and the axis of one row of coefficients (_cwt.py L184-187). -/
def cwtRestore [Zero M] (shape : List ℕ) (i j : ℕ) (coef : List (List M)) : Py (Arr M) := do
  let a ← toArr shape coef.flatten
  .ok (a.swapaxes i j)

/-- The transform after the argument checks (_cwt.py L129-190).  The axis is not used for 1-D data; a 0-d array
has no last axis. -/
def cwtRun [Field K] [LinearOrder K] [FloorRing K] [Field E] [AddCommGroup M] [Module E M]
    (method : CwtMethod E) (int_psi : List E) (x0 xl step : K) (sqrt : K → E) (data : Arr M) (axis : ℤ)
    (scales : List K) : Py (List (Arr M)) :=
  if 1 < data.ndim then do
    let ax ← normAxis data.ndim axis
    let sw := data.swapaxes (data.ndim - 1) ax
    let n := sw.shape.getD (data.ndim - 1) 0
    let rows ← sw.rowsOf n
    let out ← cwtLoop method int_psi x0 xl step sqrt rows n scales .none
    out.mapM (cwtRestore sw.shape ax (data.ndim - 1))
  else if data.ndim = 1 then do
    let out ← cwtLoop method int_psi x0 xl step sqrt [data.data] data.data.length scales .none
    out.mapM fun coef => toArr data.shape coef.flatten
  else if scales = [] then .ok []
  else .error .index

/-- `cwt` (_cwt.py L27-196): the coefficients, one array per scale (a slice `out[i, ...]`).  The frequencies
are in `cwtWavelet`. -/
def cwt [Field K] [LinearOrder K] [FloorRing K] [Field E] [AddCommGroup M] [Module E M]
    (method : CwtMethod E) (int_psi : List E) (x0 xl step : K) (sqrt : K → E) (data : Arr M) (axis : ℤ)
    (scales : List K) : Py (List (Arr M)) :=
  if scales.any fun s => decide (s ≤ 0) then .error .value
  else match method with
    | .other => .error .value
    | _ => cwtRun method int_psi x0 xl step sqrt data axis scales

end Pywt
