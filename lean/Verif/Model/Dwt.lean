import Verif.Model.Wt

/-!
# Model of the 1-D part of `pywt/_dwt.py` and `pywt/_extensions/_dwt.pyx`

Not modelled here (see `Verif.Model.DType`): dtype conversion (`_check_dtype`, real/complex promotion), the conversion of
array-likes to arrays, resolution of wavelet and mode names (see `Verif.Model.Modes`).
-/

namespace Pywt

variable {R M : Type} [Zero R] [Zero M] [Add M] [Neg M] [Sub M] [SMul ℕ M] [SMul R M]

/-- `np.zeros(n)`. -/
def zeros (n : Nat) : List M := List.replicate n 0

/-- `dwt_coeff_len` (_dwt.pyx L18-24; _dwt.py L83-117). -/
def dwtCoeffLen (data_len filter_len : Nat) (mode : Mode) : Py Nat :=
  if data_len < 1 then .error .value
  else if filter_len < 1 then .error .value
  else .ok (dwtBufferLength data_len filter_len mode)

/-- `pywt.dwt_max_level` for an integer `filter_len` (_dwt.py L18-80, _dwt.pyx L14-15). -/
def dwtMaxLevel (data_len filter_len : Nat) : Py Nat :=
  if filter_len < 2 then .error .value else .ok (dwtMaxLevelC data_len filter_len)

/-- The guard `data_size == 1 and mode in (reflect, antireflect)` (_dwt.pyx L34, L94). -/
def tooShort (n : Nat) (mode : Mode) : Bool :=
  decide (n = 1) && (decide (mode = .reflect) || decide (mode = .antireflect))

/-- `dwt_single` (_dwt.pyx L26-82). -/
def dwtSingle (w : Wavelet R) (mode : Mode) (data : List M) : Py (List M × List M) := do
  let output_len ← dwtCoeffLen data.length w.dec_len mode
  if output_len < 1 then throw .runtime
  if tooShort data.length mode then throw .value
  let cA ← callC (dec_a w data (zeros output_len) mode)
  let cD ← callC (dec_d w data (zeros output_len) mode)
  pure (cA, cD)

/-- `pywt.dwt` on 1-D data (_dwt.py L120-188), `axis` being `-1` or `0`. -/
def dwt (w : Wavelet R) (mode : Mode) (data : List M) : Py (List M × List M) :=
  dwtSingle w mode data

/-- `idwt_single` (_dwt.pyx L182-243).  When `idwt_buffer_length` wraps around, `np.zeros` cannot
allocate the array and raises. -/
def idwtSingle (w : Wavelet R) (mode : Mode) (cA cD : List M) : Py (List M) := do
  if cA.length ≠ cD.length then throw .value
  match idwtBufferLength cA.length w.rec_len mode with
  | none => throw .alloc
  | some rec_len =>
    if rec_len < 1 then throw .value
    callC (idwtC w (some cA) (some cD) (zeros rec_len) mode)

/-- `pywt.idwt` on 1-D data (_dwt.py L191-292). -/
def idwt (w : Wavelet R) (mode : Mode) (cA cD : Option (List M)) : Py (List M) :=
  match cA, cD with
  | none, none => .error .value
  | some a, some d => idwtSingle w mode a d
  | none, some d => idwtSingle w mode (zeros d.length) d
  | some a, none => idwtSingle w mode a (zeros a.length)

/-- The loop of `_dwt.pyx:downcoef` (L440-510): `n` more iterations, `last` being the number of
iterations after which the detail filter is used.  `doA` is `do_dec_a`. -/
def downcoefLoop (w : Wavelet R) (mode : Mode) (doA : Bool) : Nat → List M → Py (List M)
  | 0, data => .ok data
  | n + 1, data => do
      let output_len := dwtBufferLength data.length w.dec_len mode
      if output_len < 1 then throw .runtime
      let coeffs ←
        if doA ∨ 0 < n then callC (dec_a w data (zeros output_len) mode)
        else callC (dec_d w data (zeros output_len) mode)
      downcoefLoop w mode doA n coeffs

/-- `part not in 'ad'` (_dwt.py L337, L399) is a *substring* test, so `''` and `'ad'` pass it. -/
def partOk (part : String) : Bool := part = "" || part = "a" || part = "d" || part = "ad"

/-- `pywt.downcoef` on 1-D data (_dwt.py L295-343, _dwt.pyx L432-510). -/
def downcoef (part : String) (w : Wavelet R) (mode : Mode) (level : Int) (data : List M) :
    Py (List M) := do
  if ¬ partOk part then throw .value
  if level < 1 then throw .value
  downcoefLoop w mode (part = "a") level.toNat data

/-- The loop of `_dwt.pyx:upcoef` (L350-415); `i` is the iteration number. -/
def upcoefLoop (w : Wavelet R) (doA : Bool) : Nat → Nat → List M → Py (List M)
  | 0, _, coeffs => .ok coeffs
  | n + 1, i, coeffs => do
      let rec_len := reconstructionBufferLength coeffs.length w.dec_len
      if rec_len < 1 then throw .runtime
      let r ←
        if doA ∨ 0 < i then callC (rec_a w coeffs (zeros rec_len))
        else callC (rec_d w coeffs (zeros rec_len))
      upcoefLoop w doA n (i + 1) r

/-- The `take` slice of `_dwt.pyx:upcoef` (L417-428): `rec[left_bound:-right_bound]`. -/
def takeCentral (take : Nat) (r : List M) : List M :=
  if 0 < take ∧ take < r.length then
    let left := (r.length - take) / 2
    let right := if (r.length - take) % 2 ≠ 0 then left + 1 else left
    (r.drop left).take (r.length - right - left)
  else r

/-- `pywt.upcoef` (_dwt.py L346-401, _dwt.pyx L339-429). -/
def upcoef (part : String) (w : Wavelet R) (level : Int) (take : Nat) (coeffs : List M) :
    Py (List M) := do
  if ¬ partOk part then throw .value
  if level < 1 then throw .value
  let r ← upcoefLoop w (part = "a") level.toNat 0 coeffs
  pure (takeCentral take r)

end Pywt
