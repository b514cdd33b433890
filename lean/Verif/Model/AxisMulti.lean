import Verif.Model.Pack
import Verif.Model.Multilevel

/-!
# Model of `dwt`, `idwt`, `wavedec`, `waverec` with an `axis` argument on n-D data

Not modelled here: dtypes (see `Verif.Model.DType`).
-/

namespace Pywt

variable {R M : Type} [Zero R] [Zero M] [Add M] [Neg M] [Sub M] [SMul ℕ M] [SMul R M]

/-- A 1-D array. -/
def Arr.of1 (l : List M) : Arr M := ⟨[l.length], l, by simp⟩

/-- `pywt.dwt` (_dwt.py L120-188): 1-D data go to `dwt_single`, other data to `dwt_axis`. -/
def dwtA (w : Wavelet R) (mode : Mode) (axis : Int) (data : Arr M) : Py (Arr M × Arr M) := do
  let ax ← normAxis data.ndim axis
  if data.ndim = 1 then do
    let (cA, cD) ← dwtSingle w mode data.data
    pure (.of1 cA, .of1 cD)
  else dwtAxis w mode ax data

/-- `idwt_single` or `idwt_axis` at the end of `pywt.idwt` (_dwt.py L282-292).  A `cD` that is not
1-D does not fit the buffer type of `idwt_single`. -/
def idwtPair (w : Wavelet R) (mode : Mode) (axis : Int) (cA cD : Arr M) : Py (Arr M) := do
  let ax ← normAxis cA.ndim axis
  if cA.ndim = 1 then do
    if cD.ndim ≠ 1 then throw .value
    let r ← idwtSingle w mode cA.data cD.data
    pure (.of1 r)
  else do
    match ← idwtAxis w mode ax (some cA) (some cD) with
    | none => throw .type
    | some r => pure r

/-- `pywt.idwt` (_dwt.py L191-292). -/
def idwtA (w : Wavelet R) (mode : Mode) (axis : Int) (cA cD : Option (Arr M)) : Py (Arr M) :=
  match cA, cD with
  | none, none => throw .value
  | some a, none => idwtPair w mode axis a a.zerosLike
  | none, some d => idwtPair w mode axis d.zerosLike d
  | some a, some d => idwtPair w mode axis a d

/-- The loop of `wavedec` (_multilevel.py L98-106). -/
def wavedecALoop (w : Wavelet R) (mode : Mode) (axis : Int) :
    Nat → Arr M → List (Arr M) → Py (List (Arr M))
  | 0, a, coeffs_list => pure (coeffs_list ++ [a]).reverse
  | n + 1, a, coeffs_list => do
      let (a, d) ← dwtA w mode axis a
      wavedecALoop w mode axis n a (coeffs_list ++ [d])

/-- `pywt.wavedec` (_multilevel.py L49-109). -/
def wavedecA (w : Wavelet R) (mode : Mode) (level : Option Int) (axis : Int) (data : Arr M) :
    Py (List (Arr M)) :=
  match pyIndex data.shape axis with
  | none => throw .axis
  | some n => do
      let level ← checkLevel [n] [w.dec_len] level
      wavedecALoop w mode axis level data []

/-- `a[tuple(slice(s) for s in d.shape)]`, with `IndexError` turned into `AxisError`
(_multilevel.py L167-174). -/
def trimTo (a d : Arr M) : Py (Arr M) :=
  match a.getSlices (d.shape.map fun s => ⟨0, some s⟩) with
  | .error _ => throw .axis
  | .ok r => pure r

/-- The trimming step of `waverec` (_multilevel.py L165-174). -/
def trimA (axis : Int) (a d : Option (Arr M)) : Py (Option (Arr M)) :=
  match a, d with
  | some a, some d =>
      match pyIndex a.shape axis, pyIndex d.shape axis with
      | some na, some nd =>
          if na = nd + 1 then do
            let r ← trimTo a d
            pure (some r)
          else if na ≠ nd then throw .value
          else pure (some a)
      | _, _ => throw .axis
  | a, _ => pure a

/-- The loop of `waverec` (_multilevel.py L158-175). -/
def waverecALoop (w : Wavelet R) (mode : Mode) (axis : Int) :
    Option (Arr M) → List (Option (Arr M)) → Py (Option (Arr M))
  | a, [] => pure a
  | a, d :: ds => do
      let a ← trimA axis a d
      let r ← idwtA w mode axis a d
      waverecALoop w mode axis (some r) ds

/-- `pywt.waverec` (_multilevel.py L112-176). -/
def waverecA (w : Wavelet R) (mode : Mode) (axis : Int) (coeffs : List (Option (Arr M))) :
    Py (Option (Arr M)) :=
  match coeffs with
  | [] => throw .value
  | [a] => pure a
  | a :: ds => waverecALoop w mode axis a ds

end Pywt
