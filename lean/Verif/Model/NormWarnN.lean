import Verif.Model.Objects
import Verif.Model.SwtN

/-!
# The warning of `swtn` and `swt2` with `norm=True`
-/

namespace Pywt

variable {R M : Type} [Ring R] [AddCommGroup M] [Module R M]

/-- `pywt.swtn` (_swt.py L540-677) for `Wavelet` objects, with the warning "the wavelets used are not orthogonal: The conditions for
energy preservation are not satisfied" (L648-652).  (A warning before an exception is not recorded.) -/
def swtnWarn (data : Arr M) (wavelet : PerAxis (WaveletObj R)) (level start_level : Int) (axes : Option (List Int))
    (trim_approx : Bool) (norm : Option R) : Py (SwtN M × Bool) := do
  if data.ndim < 1 then throw .value
  let axes := normAxes data.ndim (axes.getD (rangeAxes data.ndim))
  if axes.any fun a => decide (a < 0 ∨ a ≥ data.ndim) then throw .axis
  if ¬ axes.Nodup then throw .value
  let objs ← wavelet.expand axes.length
  let warned := norm.isSome && !(objs.all fun o => o.orthogonal)
  let wavelets := objs.map fun o => o.w.normed norm
  let r ← swtnLoop ((axes.map Int.toNat).zip wavelets) trim_approx level.toNat start_level data []
  if trim_approx then pure (.trimmed r.2 r.1.reverse, warned)
  else pure (.dicts r.1.reverse, warned)

/-- `pywt.swt2` (_swt.py L272-378) for `Wavelet` objects: the warning is that of `swtn` (L368). -/
def swt2Warn (data : Arr M) (wavelet : PerAxis (WaveletObj R)) (level start_level : Int) (axes : List Int)
    (trim_approx : Bool) (norm : Option R) : Py (Swt2 M × Bool) := do
  if axes.length ≠ 2 then throw .value
  if ¬ axes.Nodup then throw .value
  if data.ndim < numUnique axes then throw .value
  let r ← swtnWarn data wavelet level start_level (some axes) trim_approx norm
  match r.1 with
  | .trimmed a cs => do
      let l ← cs.mapM swt2Details
      pure (.trimmed a l, r.2)
  | .dicts cs => do
      let l ← cs.mapM swt2Pair
      pure (.pairs l, r.2)

end Pywt
