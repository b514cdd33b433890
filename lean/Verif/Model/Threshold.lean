import Verif.Model.Arr
import Verif.Model.Common
import Mathlib.Algebra.Order.Field.Basic
import Mathlib.Algebra.Module.Defs

/-!
# `_thresholding.py`

Magnitudes and thresholds live in a linearly ordered field `K`, data in a `K`-module `E`
(`E = K` for real dtypes, `K = ℝ, E = ℂ` for complex dtypes).  The functions divide by the magnitude
and rely on the IEEE rules for division by zero, so quotients live in `Flt K`: a number, an infinity
or NaN.  Arithmetic on numbers is exact.
-/

namespace Pywt

/-- The values of a NumPy floating point array: exact numbers, infinities and NaN. -/
inductive Flt (K : Type)
  | num (x : K) | inf | ninf | nan
  deriving DecidableEq

/-- An element of an output array: a number, or one of ±inf, NaN (not distinguished). -/
inductive Cell (E : Type)
  | num (x : E) | nonfinite
  deriving DecidableEq

instance {E : Type} [Zero E] : Zero (Cell E) := ⟨.num 0⟩

/-- What the thresholding functions need to know of a dtype: `np.absolute`, and the order of real
dtypes (`none` if `np.iscomplexobj`). -/
structure Dtype (K E : Type) where
  mag : E → K
  real : Option (E → K)

/-- The elementwise map of a ufunc. -/
def Arr.mapCells {E F : Type} (f : E → F) (a : Arr E) : Arr F where
  shape := a.shape
  data := a.data.map f
  ok := by rw [List.length_map]; exact a.ok

section
variable {K E : Type} [Field K] [LinearOrder K]

/-- `a / b` for a divisor that is positive or `+0.0` (`np.absolute` and `value_high - value_low` never
give `-0.0`). -/
def Flt.div (a b : K) : Flt K :=
  if b = 0 then (if 0 < a then .inf else if a < 0 then .ninf else .nan) else .num (a / b)

/-- `1 - x` -/
def Flt.oneSub : Flt K → Flt K
  | .num x => .num (1 - x)
  | .inf => .ninf
  | .ninf => .inf
  | .nan => .nan

/-- `c * x` -/
def Flt.mul (c : K) : Flt K → Flt K
  | .num x => .num (c * x)
  | .inf => if 0 < c then .inf else if c < 0 then .ninf else .nan
  | .ninf => if 0 < c then .ninf else if c < 0 then .inf else .nan
  | .nan => .nan

/-- `x / b` for `b` positive or `+0.0`. -/
def Flt.divBy (b : K) : Flt K → Flt K
  | .num x => Flt.div x b
  | .inf => .inf
  | .ninf => .ninf
  | .nan => .nan

/-- `x.clip(min=0, max=None)`; NaN stays NaN. -/
def Flt.clip0 : Flt K → Flt K
  | .num x => .num (max x 0)
  | .inf => .inf
  | .ninf => .num 0
  | .nan => .nan

/-- `data * thresholded` -/
def Flt.scale [AddCommGroup E] [Module K E] (x : E) : Flt K → Cell E
  | .num c => .num (c • x)
  | _ => .nonfinite

variable [AddCommGroup E] [Module K E] [DecidableEq E]

/-- The factor in `soft`, `pywt/_thresholding.py` L22-23. -/
def softFactor (value m : K) : Flt K := (Flt.div value m).oneSub.clip0

/-- The factor in `nn_garrote`, `pywt/_thresholding.py` L40-41. -/
def garroteFactor (value m : K) : Flt K := (Flt.div (value ^ 2) (m ^ 2)).oneSub.clip0

/-- Common tail of `soft` and `nn_garrote`, `pywt/_thresholding.py` L24-30, L42-48.  On 0-d data the
quotient is an immutable NumPy scalar and `clip(..., out=)` raises `TypeError`. -/
def shrink (dt : Dtype K E) (factor : K → K → Flt K) (value : K) (substitute : E) (data : Arr E) :
    Py (Arr (Cell E)) :=
  if data.ndim = 0 then throw .type else
  if substitute = 0 then pure (data.mapCells fun x => (factor value (dt.mag x)).scale x)
  else pure (data.mapCells fun x =>
    if dt.mag x < value then .num substitute else (factor value (dt.mag x)).scale x)

/-- `hard`, `pywt/_thresholding.py` L51-54. -/
def hard (dt : Dtype K E) (value : K) (substitute : E) (data : Arr E) : Py (Arr (Cell E)) :=
  pure (data.mapCells fun x => if dt.mag x < value then .num substitute else .num x)

/-- `greater`, `pywt/_thresholding.py` L57-61. -/
def greater (dt : Dtype K E) (value : K) (substitute : E) (data : Arr E) : Py (Arr (Cell E)) :=
  match dt.real with
  | none => throw .value
  | some re => pure (data.mapCells fun x => if re x < value then .num substitute else .num x)

/-- `less`, `pywt/_thresholding.py` L64-68. -/
def less (dt : Dtype K E) (value : K) (substitute : E) (data : Arr E) : Py (Arr (Cell E)) :=
  match dt.real with
  | none => throw .value
  | some re => pure (data.mapCells fun x => if value < re x then .num substitute else .num x)

/-- `threshold`, `pywt/_thresholding.py` L71-78 (the table of modes), L163-170. -/
def threshold (dt : Dtype K E) (data : Arr E) (value : K) (mode : String) (substitute : E) :
    Py (Arr (Cell E)) :=
  if mode = "soft" then shrink dt softFactor value substitute data
  else if mode = "hard" then hard dt value substitute data
  else if mode = "greater" then greater dt value substitute data
  else if mode = "less" then less dt value substitute data
  else if mode = "garrote" then shrink dt garroteFactor value substitute data
  else if mode = "garotte" then shrink dt garroteFactor value substitute data
  else throw .value

/-- The factor in `threshold_firm`, `pywt/_thresholding.py` L240-242. -/
def firmFactor (low high m : K) : Flt K :=
  (((Flt.div low m).oneSub.mul high).divBy (high - low)).clip0

/-- `np.where(magnitude > value_high)[0]`, `pywt/_thresholding.py` L246: the index along the first
axis of each large element, in C order. -/
def largeRows (dt : Dtype K E) (high : K) (data : Arr E) : List ℕ :=
  ((List.range data.data.length).filter fun p => decide (high < dt.mag (data.data.getD p 0))).map
    fun p => unravelIx data.shape data.shape.length p 0

/-- `threshold_firm`, `pywt/_thresholding.py` L229-249.  `np.any(large_vals[0])` (L247) asks whether
some of these indices is not zero.  0-d data: as in `shrink`. -/
def thresholdFirm (dt : Dtype K E) (data : Arr E) (low high : K) : Py (Arr (Cell E)) :=
  if low < 0 then throw .value else
  if high < low then throw .value else
  if data.ndim = 0 then throw .type else
  if (largeRows dt high data).any fun r => decide (r ≠ 0) then
    pure (data.mapCells fun x =>
      if high < dt.mag x then .num x else (firmFactor low high (dt.mag x)).scale x)
  else pure (data.mapCells fun x => (firmFactor low high (dt.mag x)).scale x)

end

end Pywt
