import Verif.Model.Dwt

/-!
# Model of the n-D drivers of `pywt/_extensions/c/wt.template.c`

Memory is a list of samples; strides and offsets are counted in samples (the code counts bytes, and
all strides of a NumPy array of one dtype that reach this code are multiples of the item size).
Strides may be negative.  Every access is bounds-checked.
-/

namespace Pywt

variable {R M : Type} [Zero R] [Zero M] [Add M] [Neg M] [Sub M] [SMul ℕ M] [SMul R M]

/-- `ArrayInfo` (common.h L51-55): shape and strides. -/
structure Info where
  shape : List Nat
  strides : List Int
  deriving DecidableEq, Repr

def Info.ndim (a : Info) : Nat := a.shape.length

/-- `*(p + off)`, bounds-checked. -/
def rdZ {α : Type} (mem : List α) (p : Int) : C α :=
  if 0 ≤ p then rd mem p.toNat else .error .oob

/-- `*(p + off) = v`, bounds-checked. -/
def wrZ {α : Type} (mem : List α) (p : Int) (v : α) : C (List α) :=
  if 0 ≤ p then wr mem p.toNat v else .error .oob

/-- Copying a line of the array to a contiguous buffer (wt.template.c L98-102).  When the line is
contiguous the code passes a pointer into the array instead; the samples are the same. -/
def readRow (mem : List M) (off stride : Int) (n : Nat) : C (List M) :=
  (List.range n).mapM fun j : Nat => rdZ mem (off + j * stride)

/-- Copying a contiguous buffer to a line of the array (wt.template.c L145-149).  When the line is
contiguous the code has written into the array already. -/
def writeRow (mem : List M) (off stride : Int) (n : Nat) (row : List M) : C (List M) :=
  (List.range n).foldlM (fun m j => do
    let v ← rd row j
    wrZ m (off + j * stride) v) mem

/-- The offset of line number `reduced_idx`, "Calculate offset into linear buffer"
(wt.template.c L81-94): the axes `j-1, …, 0` are still to be visited. -/
def rowOffset (shape : List Nat) (strides : List Int) (axis : Nat) : Nat → Nat → Int → Int
  | 0, _, off => off
  | j + 1, reduced_idx, off =>
      if j = axis then rowOffset shape strides axis j reduced_idx off
      else
        let axis_idx := reduced_idx % shape.getD j 0
        rowOffset shape strides axis j (reduced_idx / shape.getD j 0)
          (off + axis_idx * strides.getD j 0)

/-- `num_loops` (wt.template.c L69-72). -/
def numLoops (shape : List Nat) (axis : Nat) : Nat :=
  (List.range shape.length).foldl (fun n i => if i ≠ axis then n * shape.getD i 0 else n) 1

/-- `for (i = 0; i < num_loops; ++i)` over the lines of the output array (wt.template.c L74-150 and
L234-303).  `body i row` computes the new contents of line `i` in the buffer `row`.
Simplification: when the output line is not contiguous the code passes an uninitialised temporary
buffer; here it is initialised with the old contents of the line. -/
def rowLoop (oi : Info) (axis : Nat) (body : Nat → List M → C (List M)) (out : List M) :
    C (List M) :=
  (List.range (numLoops oi.shape axis)).foldlM (fun out i => do
    let off := rowOffset oi.shape oi.strides axis oi.ndim i 0
    let n := oi.shape.getD axis 0
    let row ← readRow out off (oi.strides.getD axis 0) n
    let row ← body i row
    writeRow out off (oi.strides.getD axis 0) n row) out

/-- `DiscreteTransformType` with its parameter. -/
inductive Transform
  | dwt (mode : Mode)
  | swt (level : Nat)
  deriving DecidableEq, Repr

/-- The shape check of `downcoef_axis` (wt.template.c L46-56). -/
def Transform.outLen (t : Transform) (dec_len n : Nat) : Nat :=
  match t with
  | .dwt mode => dwtBufferLength n dec_len mode
  | .swt _ => swtBufferLength n

/-- The switch over transform and coefficient (wt.template.c L110-142). -/
def Transform.kernel (t : Transform) (w : Wavelet R) (approx : Bool) (row out : List M) :
    C (Option (List M)) :=
  match t, approx with
  | .dwt mode, true => dec_a w row out mode
  | .dwt mode, false => dec_d w row out mode
  | .swt level, true => swt_a w row out level
  | .swt level, false => swt_d w row out level

/-- The transform of line number `i` (wt.template.c L81-142).  The return code of the 1-D transform
is ignored, as in the code. -/
def downcoefRow (w : Wavelet R) (axis : Nat) (approx : Bool) (t : Transform)
    (input : List M) (base : Int) (ii oi : Info) (i : Nat) (orow : List M) : C (List M) := do
  let off := base + rowOffset oi.shape ii.strides axis oi.ndim i 0
  let row ← readRow input off (ii.strides.getD axis 0) (ii.shape.getD axis 0)
  match ← t.kernel w approx row orow with
  | some r => pure r
  | none => pure orow

/-- `downcoef_axis` (wt.template.c L27-168).  `input`/`base` is the memory of the input array and
the position of its first element; `none` is a non-zero return code.  Allocation failure is not
modelled. -/
def downcoefAxis (w : Wavelet R) (axis : Nat) (approx : Bool) (t : Transform)
    (input : List M) (base : Int) (ii : Info) (out : List M) (oi : Info) :
    C (Option (List M)) :=
  if ii.ndim ≠ oi.ndim then pure none
  else if axis ≥ ii.ndim then pure none
  else if (List.range ii.ndim).any fun i =>
      if i = axis then t.outLen w.dec_len (ii.shape.getD i 0) ≠ oi.shape.getD i 0
      else ii.shape.getD i 0 ≠ oi.shape.getD i 0 then pure none
  else do
    let r ← rowLoop oi axis (downcoefRow w axis approx t input base ii oi) out
    pure (some r)

/-- An array in memory: samples, position of the first element, shape and strides. -/
structure Mem (M : Type) where
  data : List M
  base : Int
  info : Info

/-- One `if (have_x) upsampling_convolution_valid_sf(...)` of `idwt_axis` (wt.template.c L272-293);
its return code is ignored. -/
def idwtAxisPart (filter : List R) (axis : Nat) (oi : Info) (mode : Mode) (c : Option (Mem M))
    (i : Nat) (orow : List M) : C (List M) :=
  match c with
  | none => pure orow
  | some c => do
      let off := c.base + rowOffset oi.shape c.info.strides axis oi.ndim i 0
      let row ← readRow c.data off (c.info.strides.getD axis 0) (c.info.shape.getD axis 0)
      match ← usConv (kfuel row.length filter.length) row filter orow mode with
      | some r => pure r
      | none => pure orow

/-- The transform of line number `i` (wt.template.c L240-293). -/
def idwtRow (w : Wavelet R) (axis : Nat) (oi : Info) (mode : Mode) (ca cd : Option (Mem M))
    (i : Nat) (orow : List M) : C (List M) := do
  let orow := zeros orow.length         -- memset
  let orow ← idwtAxisPart w.rec_lo axis oi mode ca i orow
  idwtAxisPart w.rec_hi axis oi mode cd i orow

/-- A check of `idwt_axis` that applies only to coefficients that are present. -/
def haveOk (c : Option (Mem M)) (p : Info → Bool) : Bool :=
  match c with
  | none => true
  | some c => p c.info

/-- `idwt_axis` (wt.template.c L171-315); missing coefficients are NULL pointers. -/
def idwtAxisC (w : Wavelet R) (axis : Nat) (mode : Mode) (ca cd : Option (Mem M))
    (out : List M) (oi : Info) : C (Option (List M)) :=
  let input_shape : Option Nat := match ca, cd with
    | some a, some d =>
      if a.info.shape.getD axis 0 ≠ d.info.shape.getD axis 0 then none
      else some (a.info.shape.getD axis 0)
    | some a, none => some (a.info.shape.getD axis 0)
    | none, some d => some (d.info.shape.getD axis 0)
    | none, none => none
  if !(haveOk ca (·.ndim = oi.ndim)) || !(haveOk cd (·.ndim = oi.ndim)) then pure none
  else if axis ≥ oi.ndim then pure none
  else match input_shape with
    | none => pure none
    | some n =>
      if idwtBufferLength n w.rec_len mode ≠ some (oi.shape.getD axis 0) then pure none
      else if (List.range oi.ndim).any fun i => i ≠ axis &&
          (!(haveOk ca (·.shape.getD i 0 = oi.shape.getD i 0)) ||
            !(haveOk cd (·.shape.getD i 0 = oi.shape.getD i 0))) then pure none
      else do
        let r ← rowLoop oi axis (idwtRow w axis oi mode ca cd) out
        pure (some r)

end Pywt
