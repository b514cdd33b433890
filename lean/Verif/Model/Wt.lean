import Verif.Model.Common

/-!
# Model of `pywt/_extensions/c/wt.template.c` (1-D drivers)

A negative return code is `none`.  The functions write into the buffer `out` they are given and
return it.
-/

namespace Pywt

variable {R M : Type} [Zero R] [Zero M] [Add M] [Neg M] [Sub M] [SMul ℕ M] [SMul R M]

/-- Fuel given to the kernels for a signal of `N` samples and a filter of `F` taps.  The kernel
theorems hold for every larger fuel, so its exact value is immaterial. -/
def kfuel (N F : Nat) : Nat := N + F + 3

/-- `dec_a`/`dec_d` (wt.template.c L318-351), the filter being `wavelet->dec_lo` or `dec_hi`. -/
def decStep (filter : List R) (dec_len : Nat) (input : List M) (out : List M) (mode : Mode) :
    C (Option (List M)) :=
  if out.length ≠ dwtBufferLength input.length dec_len mode then pure none
  else do
    let r ← dsConv (kfuel input.length filter.length) input filter out 2 mode
    pure (some r)

/-- `dec_a` (wt.template.c L318-333). -/
def dec_a (w : Wavelet R) (input out : List M) (mode : Mode) : C (Option (List M)) :=
  decStep w.dec_lo w.dec_len input out mode

/-- `dec_d` (wt.template.c L338-351). -/
def dec_d (w : Wavelet R) (input out : List M) (mode : Mode) : C (Option (List M)) :=
  decStep w.dec_hi w.dec_len input out mode

/-- `rec_a` (wt.template.c L356-368). -/
def rec_a (w : Wavelet R) (coeffs out : List M) : C (Option (List M)) :=
  if out.length ≠ reconstructionBufferLength coeffs.length w.rec_len then pure none
  else usFull (kfuel coeffs.length w.rec_len) coeffs w.rec_lo out

/-- `rec_d` (wt.template.c L373-385). -/
def rec_d (w : Wavelet R) (coeffs out : List M) : C (Option (List M)) :=
  if out.length ≠ reconstructionBufferLength coeffs.length w.rec_len then pure none
  else usFull (kfuel coeffs.length w.rec_len) coeffs w.rec_hi out

/-- One `if(coeffs_x){ if(upsampling_convolution_valid_sf(...) < 0) goto error; }` of `idwt`
(wt.template.c L420-440). -/
def idwtPart (filter : List R) (c : Option (List M)) (out : List M) (mode : Mode) :
    C (Option (List M)) :=
  match c with
  | none => pure (some out)
  | some c => usConv (kfuel c.length filter.length) c filter out mode

/-- C `idwt` (wt.template.c L393-445); `none` coefficients are NULL pointers. -/
def idwtC (w : Wavelet R) (ca cd : Option (List M)) (out : List M) (mode : Mode) :
    C (Option (List M)) := do
  let input_len : Option Nat :=
    match ca, cd with
    | some a, some d => if a.length ≠ d.length then none else some a.length
    | some a, none => some a.length
    | none, some d => some d.length
    | none, none => none
  match input_len with
  | none => pure none
  | some n =>
    if some out.length ≠ idwtBufferLength n w.rec_len mode then pure none
    else
      match ← idwtPart w.rec_lo ca out mode with
      | none => pure none
      | some out => idwtPart w.rec_hi cd out mode

/-- The filter with `2^(level-1) - 1` zeros after each tap (wt.template.c L474-478):
`e_filter[i << (level-1)] = filter[i]` in a zero-initialised array of length
`filter_len << (level-1)`. -/
def eFilter (filter : List R) (level : Nat) : List R :=
  (List.range filter.length).foldl
    (fun e i => e.set (i * 2 ^ (level - 1)) (filter.getD i 0))
    (List.replicate (filter.length * 2 ^ (level - 1)) 0)

/-- `swt_` (wt.template.c L448-494).  Allocation failure is not modelled. -/
def swtStep (filter : List R) (input out : List M) (level : Nat) : C (Option (List M)) :=
  if level < 1 then pure none
  else if level > swtMaxLevelC input.length then pure none
  else if out.length ≠ swtBufferLength input.length then pure none
  else if level > 1 then do
    let e := eFilter filter level
    let r ← dsConvPer (kfuel input.length e.length) input e out 1 (2 ^ (level - 1))
    pure (some r)
  else do
    let r ← dsConvPer (kfuel input.length filter.length) input filter out 1 1
    pure (some r)

/-- `swt_a` (wt.template.c L500-506). -/
def swt_a (w : Wavelet R) (input out : List M) (level : Nat) : C (Option (List M)) :=
  swtStep w.dec_lo input out level

/-- `swt_d` (wt.template.c L511-517). -/
def swt_d (w : Wavelet R) (input out : List M) (level : Nat) : C (Option (List M)) :=
  swtStep w.dec_hi input out level

end Pywt
