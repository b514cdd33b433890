import Verif.Model.Dwt

/-!
# Model of the 1-D part of `pywt/_multilevel.py`

Not modelled: warnings, type checks of the coefficient list, the `axis` argument (see
`Verif.Model.ND`).
-/

namespace Pywt

variable {R M : Type} [Zero R] [Zero M] [Add M] [Neg M] [Sub M] [SMul ℕ M] [SMul R M]

/-- `_check_level` (_multilevel.py L31-46); `level = none` is `None`.  The warning for levels above
the maximum is not modelled. -/
def checkLevel (sizes dec_lens : List Nat) (level : Option Int) : Py Nat := do
  let ls ← (sizes.zip dec_lens).mapM fun p => dwtMaxLevel p.1 p.2
  match ls.min? with
  | none => throw .value
  | some max_level =>
    match level with
    | none => pure max_level
    | some l => if l < 0 then throw .value else pure l.toNat

/-- The loop of `wavedec` (_multilevel.py L98-106). -/
def wavedecLoop (w : Wavelet R) (mode : Mode) :
    Nat → List M → List (List M) → Py (List (List M))
  | 0, a, coeffs_list => .ok (coeffs_list ++ [a]).reverse
  | n + 1, a, coeffs_list => do
      let (a, d) ← dwt w mode a
      wavedecLoop w mode n a (coeffs_list ++ [d])

/-- `pywt.wavedec` on 1-D data (_multilevel.py L49-109). -/
def wavedec (w : Wavelet R) (mode : Mode) (level : Option Int) (data : List M) :
    Py (List (List M)) := do
  let level ← checkLevel [data.length] [w.dec_len] level
  wavedecLoop w mode level data []

/-- The trimming step of `waverec` (_multilevel.py L166-171). -/
def waverecTrim (a d : Option (List M)) : Py (Option (List M)) :=
  match a, d with
  | some a, some d =>
      if a.length = d.length + 1 then .ok (some (a.take d.length))
      else if a.length ≠ d.length then .error .value
      else .ok (some a)
  | a, _ => .ok a

/-- The loop of `waverec` (_multilevel.py L158-174). -/
def waverecLoop (w : Wavelet R) (mode : Mode) :
    Option (List M) → List (Option (List M)) → Py (Option (List M))
  | a, [] => .ok a
  | a, d :: ds => do
      let a ← waverecTrim a d
      let r ← idwt w mode a d
      waverecLoop w mode (some r) ds

/-- `pywt.waverec` on 1-D coefficients (_multilevel.py L112-176). -/
def waverec (w : Wavelet R) (mode : Mode) (coeffs : List (Option (List M))) :
    Py (Option (List M)) :=
  match coeffs with
  | [] => .error .value
  | [a] => .ok a
  | a :: ds => waverecLoop w mode a ds

end Pywt
