import Verif.Model.UpConv

/-!
# Model of `pywt/_extensions/c/common.c`, and the types shared by the Python-level models
-/

namespace Pywt

/-- Python exceptions.  `c e` marks C code that misbehaved (out-of-bounds access, index wrap,
endless loop): no Python exception, but undefined behaviour of the real program. -/
inductive PyErr
  | value | runtime | axis | index | type | alloc | key | zeroDiv | overflow | attr
  | c (e : CErr)
  deriving DecidableEq, Repr

/-- Python computations. -/
abbrev Py := Except PyErr

/-- Calling into C. -/
def liftC {α : Type} : C α → Py α
  | .ok a => .ok a
  | .error e => .error (.c e)

/-- A C function with an error return code, as used from Cython:
`if retval < 0: raise RuntimeError(...)` -/
def callC {α : Type} (c : C (Option α)) : Py α :=
  match c with
  | .ok (some a) => .ok a
  | .ok none => .error .runtime
  | .error e => .error (.c e)

/-- A discrete wavelet (`DiscreteWavelet`, `c/wavelets.h`): the four filters.  `dec_len` and
`rec_len` are the lengths of the filter arrays. -/
structure Wavelet (R : Type) where
  dec_lo : List R
  dec_hi : List R
  rec_lo : List R
  rec_hi : List R
  deriving DecidableEq, Repr

namespace Wavelet
variable {R : Type}

def dec_len (w : Wavelet R) : Nat := w.dec_lo.length
def rec_len (w : Wavelet R) : Nat := w.rec_lo.length

/-- Well-formedness: four filters of one even, positive length (established by every constructor,
see `Verif.Props.Bank`). -/
def Ok (w : Wavelet R) : Prop :=
  2 ≤ w.dec_lo.length ∧ w.dec_lo.length % 2 = 0 ∧ w.dec_hi.length = w.dec_lo.length ∧
    w.rec_lo.length = w.dec_lo.length ∧ w.rec_hi.length = w.dec_lo.length

instance (w : Wavelet R) : Decidable w.Ok := by unfold Ok; infer_instance

end Wavelet

/-- `dwt_buffer_length` (common.c L48-58). -/
def dwtBufferLength (input_len filter_len : Nat) (mode : Mode) : Nat :=
  if input_len < 1 ∨ filter_len < 1 then 0
  else match mode with
    | .periodization => input_len / 2 + (if input_len % 2 ≠ 0 then 1 else 0)
    | _ => (input_len + filter_len - 1) / 2

/-- `reconstruction_buffer_length` (common.c L60-65). -/
def reconstructionBufferLength (coeffs_len filter_len : Nat) : Nat :=
  if coeffs_len < 1 ∨ filter_len < 1 then 0
  else 2 * coeffs_len + filter_len - 2

/-- `idwt_buffer_length` (common.c L67-74).  `none` when the `size_t` expression
`2*coeffs_len-filter_len+2` wraps below zero (its value is then at least `2^64 - filter_len`). -/
def idwtBufferLength (coeffs_len filter_len : Nat) (mode : Mode) : Option Nat :=
  match mode with
  | .periodization => some (2 * coeffs_len)
  | _ => if filter_len ≤ 2 * coeffs_len + 2 then some (2 * coeffs_len + 2 - filter_len) else none

/-- `swt_buffer_length` (common.c L76-78). -/
def swtBufferLength (input_len : Nat) : Nat := input_len

/-- `size_log2` (common.c L19-44): position of the highest set bit, found by counting how often the
value can be halved.  Simplification: the compiler intrinsic `clz` is replaced by this loop. -/
def sizeLog2 (x : Nat) : Nat :=
  if x < 2 then 0 else sizeLog2 (x / 2) + 1
termination_by x

/-- C `dwt_max_level` (common.c L80-85). -/
def dwtMaxLevelC (input_len filter_len : Nat) : Nat :=
  if filter_len ≤ 1 ∨ input_len < filter_len - 1 then 0
  else sizeLog2 (input_len / (filter_len - 1))

/-- C `swt_max_level` (common.c L87-97): the `while` loop, with the counter as an argument.
Simplification: the `unsigned char` counter does not overflow (it is at most 64). -/
def swtMaxLevelC (input_len : Nat) (j : Nat := 0) : Nat :=
  if input_len > 0 then
    if input_len % 2 ≠ 0 then j
    else swtMaxLevelC (input_len / 2) (j + 1)
  else j
termination_by input_len

/-- Python `swt_max_level` (_swt.pyx L18-51; the warning is not modelled). -/
def swtMaxLevel (input_len : Nat) : Py Nat :=
  if input_len < 1 then .error .value else .ok (swtMaxLevelC input_len)

end Pywt
