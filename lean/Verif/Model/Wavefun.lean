import Verif.Model.ContWave
import Verif.Model.Dwt
import Verif.Model.Cwt

/-!
# Model of `Wavelet.wavefun` and of the functions built on it

`Wavelet.wavefun` and its helpers (`_pywt.pyx`), `integrate_wavelet`, `central_frequency`, `scale2frequency` and
`frequency2scale` (`_functions.py`), and the frequencies that `cwt` returns.  Floating point numbers are real numbers
and lengths are unbounded integers.
-/

namespace Pywt

open Real

/-- `get_keep_length` (_pywt.pyx L1002-1011). -/
def getKeepLength (level : ℕ) (filter_length : ℤ) : ℤ := (fun k => 2 * k + (filter_length - 2))^[level] 1

/-- `fix_output_length` (_pywt.pyx L1013-1016). -/
def fixOutputLength (output_length keep_length : ℤ) : ℤ :=
  if output_length - keep_length - 2 < 0 then keep_length + 2 else output_length

/-- `get_right_extent_length` (_pywt.pyx L1018-1019). -/
def getRightExtentLength (output_length keep_length : ℤ) : ℤ := output_length - keep_length - 1

/-- `keep` (_pywt.pyx L1054-1059); the kept length is positive. -/
def keepMiddle {V : Type} (arr : List V) (keep_length : ℤ) : List V :=
  if keep_length < arr.length then
    (arr.drop ((arr.length - keep_length) / 2).toNat).take keep_length.toNat
  else arr

/-- `np.zeros(n)`: a negative length is rejected. -/
def npZeros {V : Type} [Zero V] (n : ℤ) : Py (List V) :=
  if n < 0 then .error .value else .ok (List.replicate n.toNat 0)

/-- One of the sampled functions (_pywt.pyx L607-611, L633-640, L648-653):
`np.concatenate(([0.], keep(upcoef(…, [n], …, level, 0), keep_length), np.zeros(right_extent_length)))`. -/
def sampledFun {R : Type} [Ring R] (part : String) (n : R) (w : Wavelet R) (level : ℤ)
    (keep_length right_extent_length : ℤ) : Py (List R) := do
  let c ← upcoef part w level 0 [n]
  let z ← npZeros right_extent_length
  .ok (0 :: (keepMiddle c keep_length ++ z))

/-- What the methods `wavefun` return: `[psi, x]`, `[phi, psi, x]` or `[phi_d, psi_d, phi_r, psi_r, x]`. -/
inductive WaveFuns
  | cont (psi : Psi) (x : List ℝ)
  | orth (phi psi x : List ℝ)
  | bior (phi_d psi_d phi_r psi_r x : List ℝ)

/-- `Wavelet.wavefun(level)` (_pywt.pyx L550-655).  For a level below one, where the powers of two are not integers,
`upcoef` raises before they are used. -/
noncomputable def WaveletObj.wavefun (o : WaveletObj ℝ) (level : ℤ) : Py WaveFuns := do
  let n : ℝ := √2 ^ level.toNat
  let p : ℤ := 2 ^ level.toNat
  if o.orthogonal then
    let filter_length : ℤ := o.w.dec_len
    let output_length := (filter_length - 1) * p + 1
    let keep_length := getKeepLength level.toNat filter_length
    let output_length := fixOutputLength output_length keep_length
    let right_extent_length := getRightExtentLength output_length keep_length
    let phi ← sampledFun "a" n o.w level keep_length right_extent_length
    let psi ← sampledFun "d" n o.w level keep_length right_extent_length
    .ok (.orth phi psi ((linspace 0 ((output_length - 1) / p) output_length.toNat).map fun q : ℚ => (q : ℝ)))
  else
    let n_mul := if o.biorthogonal ∧ o.vmPsi % 4 ≠ 1 then -n else n
    let other ← waveletObjOfBank "" o.w.inverse.filterBank
    let filter_length : ℤ := other.w.dec_len
    let output_length := (filter_length - 1) * p
    let keep_length := getKeepLength level.toNat filter_length
    let output_length := fixOutputLength output_length keep_length
    let right_extent_length := getRightExtentLength output_length keep_length
    let phi_d ← sampledFun "a" n other.w level keep_length right_extent_length
    let psi_d ← sampledFun "d" n_mul other.w level keep_length right_extent_length
    let filter_length : ℤ := o.w.dec_len
    let output_length := (filter_length - 1) * p
    let keep_length := getKeepLength level.toNat filter_length
    let output_length := fixOutputLength output_length keep_length
    let right_extent_length := getRightExtentLength output_length keep_length
    let phi_r ← sampledFun "a" n o.w level keep_length right_extent_length
    let psi_r ← sampledFun "d" n_mul o.w level keep_length right_extent_length
    .ok (.bior phi_d psi_d phi_r psi_r
      ((linspace 0 ((output_length - 1) / p) output_length.toNat).map fun q : ℚ => (q : ℝ)))

/-- An object of one of the two classes of wavelets. -/
inductive AnyWavelet
  | disc (o : WaveletObj ℝ)
  | cont (w : ContWavelet)

/-- The filters of a built-in wavelet, as real numbers. -/
noncomputable def WaveletObj.toReal (o : WaveletObj ℤ) : WaveletObj ℝ :=
  let f := fun l : List ℤ => l.map fun z => ((fxVal z : ℚ) : ℝ)
  ⟨o.name, o.number, ⟨f o.w.dec_lo, f o.w.dec_hi, f o.w.rec_lo, f o.w.rec_hi⟩, o.orthogonal, o.biorthogonal,
    o.symmetry, o.familyName, o.shortName, o.vmPsi, o.vmPhi⟩

/-- `DiscreteContinuousWavelet(name)` (_pywt.pyx L300-328) without a filter bank. -/
noncomputable def discreteContinuousWavelet (name : String) : Py AnyWavelet := do
  if name = "" then throw .type
  let (family, _) ← wnameLookup name.toLower
  if family.isDiscrete then
    let o ← waveletNamed false name.toLower
    .ok (.disc o.toReal)
  else
    let w ← contWaveletNamed name.toLower
    .ok (.cont w)

/-- `wavelet.wavefun(precision)` of an object of either class. -/
noncomputable def AnyWavelet.wavefun (w : AnyWavelet) (precision : ℤ) : Py WaveFuns :=
  match w with
  | .disc o => o.wavefun precision
  | .cont c => do
    let (psi, x) ← c.wavefun precision none
    .ok (.cont psi x)

/-- `_integrate` (_functions.py L28-31): `np.cumsum(arr) * step`. -/
def integrateArr {V : Type} [AddCommMonoid V] [SMul ℝ V] (arr : List V) (step : ℝ) : List V :=
  (List.range arr.length).map fun i => step • (arr.take (i + 1)).sum

/-- `x[1] - x[0]`. -/
def gridStep (x : List ℝ) : Py ℝ :=
  match x with
  | a :: b :: _ => .ok (b - a)
  | _ => .error .index

/-- `_integrate` of the samples of a continuous wavelet. -/
noncomputable def Psi.integrate (psi : Psi) (step : ℝ) : Psi :=
  match psi with
  | .real l => .real (integrateArr l step)
  | .cplx l => .cplx (integrateArr l step)

/-- What `integrate_wavelet` returns: `(int_psi, x)` or `(int_psi_d, int_psi_r, x)`. -/
inductive WaveIntegrals
  | one (int_psi : Psi) (x : List ℝ)
  | two (int_psi_d int_psi_r x : List ℝ)

/-- `integrate_wavelet(wavelet, precision)` of an object (_functions.py L58-118). -/
noncomputable def integrateWavelet (wavelet : AnyWavelet) (precision : ℤ) : Py WaveIntegrals := do
  let f ← wavelet.wavefun precision
  match f with
  | .cont psi x => do
    let step ← gridStep x
    .ok (.one (psi.integrate step) x)
  | .orth _ psi x => do
    let step ← gridStep x
    .ok (.one (.real (integrateArr psi step)) x)
  | .bior _ psi_d _ psi_r x => do
    let step ← gridStep x
    .ok (.two (integrateArr psi_d step) (integrateArr psi_r step) x)

/-- The samples as complex numbers. -/
def Psi.toComplex : Psi → List ℂ
  | .real l => l.map fun v : ℝ => (v : ℂ)
  | .cplx l => l

/-- `np.argmax`: the first position of the largest element; an empty array is rejected. -/
noncomputable def npArgmax : List ℝ → Py ℕ
  | [] => .error .value
  | a :: l => .ok (l.foldl (fun (s : ℕ × ℕ × ℝ) v => if s.2.2 < v then (s.1 + 1, s.1 + 1, v) else (s.1 + 1, s.2.1, s.2.2))
      (0, 0, a)).2.1

/-- The root of unity of the discrete Fourier transform of size `n`. -/
noncomputable def dftRoot (n : ℕ) : ℂ := Complex.exp (-2 * π * Complex.I / n)

/-- The last lines of `central_frequency` (_functions.py L150-159) for the samples `psi` on the grid `x`.  The error
`AssertionError` is `.runtime` here. -/
noncomputable def centralFrequencyOf (psi : List ℂ) (x : List ℝ) : Py ℝ := do
  match x.getLast?, x.head? with
  | some l, some f => do
    let domain := l - f
    if ¬ 0 < domain then throw .runtime
    let m ← npArgmax (((fft (dftRoot psi.length) psi psi.length).tail).map fun z => ‖z‖)
    let index : ℤ := m + 2
    let index : ℤ := if (psi.length : ℝ) / 2 < index then psi.length - index + 2 else index
    .ok (1 / (domain / (index - 1)))
  | _, _ => .error .index

/-- `central_frequency(wavelet, precision)` of an object (_functions.py L121-159). -/
noncomputable def centralFrequency (wavelet : AnyWavelet) (precision : ℤ) : Py ℝ := do
  let f ← wavelet.wavefun precision
  match f with
  | .cont psi x => centralFrequencyOf psi.toComplex x
  | .orth _ psi x => centralFrequencyOf (Psi.real psi).toComplex x
  | .bior _ psi_d _ _ x => centralFrequencyOf (Psi.real psi_d).toComplex x

/-- `scale2frequency(wavelet, scale, precision)` (_functions.py L162-183).  A scale of zero, for which the code
returns infinity or not-a-number, is not modelled: division by zero gives zero here. -/
noncomputable def scale2frequency (wavelet : AnyWavelet) (scale : ℝ) (precision : ℤ) : Py ℝ := do
  let f ← centralFrequency wavelet precision
  .ok (f / scale)

/-- `frequency2scale(wavelet, freq, precision)` (_functions.py L185-204), with the same restriction. -/
noncomputable def frequency2scale (wavelet : AnyWavelet) (freq : ℝ) (precision : ℤ) : Py ℝ := do
  let f ← centralFrequency wavelet precision
  .ok (f / freq)

/-- The property `complex_cwt` (_pywt.pyx L812-817), which the class `Wavelet` does not have (_cwt.py L116). -/
def AnyWavelet.complexCwt : AnyWavelet → Py Bool
  | .disc _ => .error .attr
  | .cont w => .ok w.complexCwt

/-- `cwt(data, scales, wavelet, sampling_period, method, axis)` (_cwt.py L27-196) with the integrated wavelet and the
frequencies computed from the wavelet; complex data stands for real data too. -/
noncomputable def cwtWavelet (data : Arr ℂ) (scales : List ℝ) (wavelet : AnyWavelet) (sampling_period : ℝ)
    (method : CwtMethod ℂ) (axis : ℤ) : Py (List (Arr ℂ) × List ℝ) := do
  if scales.any fun s => decide (s ≤ 0) then throw .value
  let cc ← wavelet.complexCwt
  let f ← integrateWavelet wavelet 10
  match f with
  | .one int_psi x => do
    let int_psi := if cc then int_psi.toComplex.map (starRingEnd ℂ) else int_psi.toComplex
    let step ← gridStep x
    let out ← cwt method int_psi (x.headD 0) (x.getLastD 0) step (fun s => ((√s : ℝ) : ℂ)) data axis scales
    let freqs ← scales.mapM fun s => scale2frequency wavelet s 10
    .ok (out, freqs.map fun v => v / sampling_period)
  | .two _ _ _ => throw .value

end Pywt
