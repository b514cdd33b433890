import Verif.Model.HeapConv
import Verif.Model.AxisPy

/-!
# The drivers of `wt.template.c`, `wavelets.c` and the Cython functions as programs on a heap

As `Verif.Model.Wt`, `Verif.Model.Axis` and `Verif.Model.AxisPy`, but with memory: temporary buffers
are allocated and freed, allocations may fail, a wavelet is a structure holding pointers to its
filters, return codes are numbers.  NumPy arrays are blocks of samples; `np.zeros` and `np.empty`
are allocations (`MemoryError` on failure), and an array is freed when its last reference goes.
-/

namespace Pywt.Heap

variable {R M : Type} [Ring R] [AddCommGroup M] [Module R M]

/-! ### The structure `DiscreteWavelet` (wavelets.h L57-72); the fields that only describe the wavelet
are one cell -/

/-- `REAL_TYPE`: which of the two sets of filters a transform uses. -/
inductive Prec
  | double | float
  deriving DecidableEq, Repr

/-- `dec_len`, `rec_len`. -/
def fDecLen : ℕ := 0
def fRecLen : ℕ := 1

/-- `base` and the vanishing moments. -/
def fBase : ℕ := 10

/-- The position of a pointer to a filter: `dec_lo`, `dec_hi`, `rec_lo`, `rec_hi` for `double`, then
for `float`. -/
def fFilter (rec hi : Bool) (q : Prec) : ℕ :=
  2 + (if q = .double then 0 else 4) + (if rec then 2 else 0) + (if hi then 1 else 0)

/-! ### 1-D functions -/

/-- `dec_a` (`hi = false`, wt.template.c L318-333) and `dec_d` (`hi = true`, L338-351). -/
def dec (q : Prec) (hi : Bool) (w : Option Ptr) (x : Buf) (out : Buf) (mode : Mode) :
    Prog (Val R M) ℤ := do
  let n ← rdNum w fDecLen
  if out.len ≠ dwtBufferLength x.len n mode then pure (-1)
  else
    let f ← rdPtr w (fFilter false hi q)
    dsConv (kfuel x.len n) x ⟨⟨f, 0⟩, n⟩ out.loc 2 mode
    pure 0

/-- `rec_a` (`hi = false`, wt.template.c L356-368) and `rec_d` (`hi = true`, L373-385). -/
def recon (q : Prec) (hi : Bool) (w : Option Ptr) (x : Buf) (out : Buf) : Prog (Val R M) ℤ := do
  let n ← rdNum w fRecLen
  if out.len ≠ reconstructionBufferLength x.len n then pure (-1)
  else
    let f ← rdPtr w (fFilter true hi q)
    usFull (kfuel x.len n) x ⟨⟨f, 0⟩, n⟩ out.loc

/-- One `if(coeffs_x){ if(upsampling_convolution_valid_sf(...) < 0) goto error; }` of `idwt`
(wt.template.c L420-440). -/
def idwtPart (q : Prec) (hi : Bool) (w : Option Ptr) (c : Buf) (n : ℕ) (out : Loc) (mode : Mode) :
    Prog (Val R M) ℤ :=
  if c.loc.blk = none then pure 0
  else do
    let f ← rdPtr w (fFilter true hi q)
    let m ← rdNum w fRecLen
    usConv (kfuel n m) ⟨c.loc, n⟩ ⟨⟨f, 0⟩, m⟩ out mode

/-- `idwt` (wt.template.c L393-445); the coefficients may be NULL. -/
def idwt (q : Prec) (w : Option Ptr) (ca cd out : Buf) (mode : Mode) : Prog (Val R M) ℤ :=
  let input_len : Option ℕ :=
    if ca.loc.blk ≠ none ∧ cd.loc.blk ≠ none then
      if ca.len ≠ cd.len then none else some ca.len
    else if ca.loc.blk ≠ none then some ca.len
    else if cd.loc.blk ≠ none then some cd.len
    else none
  match input_len with
  | none => pure (-1)
  | some n => do
    let m ← rdNum w fRecLen
    if some out.len ≠ idwtBufferLength n m mode then pure (-1)
    else
      let r ← idwtPart q false w ca n out.loc mode
      if r < 0 then pure (-1)
      else
        let r ← idwtPart q true w cd n out.loc mode
        if r < 0 then pure (-1) else pure 0

/-- `swt_` (wt.template.c L448-494). -/
def swtStep (x : Buf) (f : Buf) (out : Buf) (level : ℕ) : Prog (Val R M) ℤ :=
  if level < 1 then pure (-1)
  else if level > swtMaxLevelC x.len then pure (-2)
  else if out.len ≠ swtBufferLength x.len then pure (-1)
  else if level > 1 then do
    let e_len := f.len * 2 ^ (level - 1)
    let e ← callocR e_len
    if e = none then
      free e                        -- cleanup
      pure (-3)
    else
      forN (fun i => do
        let v ← rdR f.loc i
        put ⟨e, 0⟩ ((i * 2 ^ (level - 1) : ℕ) : ℤ) (.coef v)) f.len
      dsConvPer (kfuel x.len e_len) x ⟨⟨e, 0⟩, e_len⟩ out.loc 1 (2 ^ (level - 1))
      free e
      pure 0
  else do
    dsConvPer (kfuel x.len f.len) x f out.loc 1 1
    pure 0

/-- `swt_a` (`hi = false`, wt.template.c L500-506) and `swt_d` (`hi = true`, L511-517). -/
def swtDec (q : Prec) (hi : Bool) (w : Option Ptr) (x : Buf) (out : Buf) (level : ℕ) :
    Prog (Val R M) ℤ := do
  let f ← rdPtr w (fFilter false hi q)
  let n ← rdNum w fDecLen
  swtStep x ⟨⟨f, 0⟩, n⟩ out level

/-! ### n-D functions -/

/-- `for (i = 0; i < n; ++i) if (…) return code;`: the first code, 0 if there is none. -/
def forCode {V : Type} (body : ℕ → Prog V ℤ) : ℕ → Prog V ℤ
  | 0 => .ret 0
  | n + 1 => do
      let r ← forCode body n
      if r ≠ 0 then pure r else body n

/-- `if (make_temp) p = malloc(n * sizeof(TYPE))`, NULL otherwise. -/
def mallocIf (b : Bool) (n : ℕ) : Prog (Val R M) (Option Ptr) := if b then malloc n else pure none

/-- The switch over transform and coefficient (wt.template.c L110-142). -/
def kernel (q : Prec) (t : Transform) (approx : Bool) (w : Option Ptr) (x out : Buf) :
    Prog (Val R M) ℤ :=
  match t with
  | .dwt mode => dec q (!approx) w x out mode
  | .swt level => swtDec q (!approx) w x out level

/-- `for (j = 0; j < n; ++j) tmp[j] = *(TYPE*)((char*) src + offset + j * stride)`
(wt.template.c L97-102). -/
def copyIn (tmp src : Loc) (stride : ℤ) (n : ℕ) : Prog (Val R M) Unit :=
  forN (fun j => do
    let v ← rdM src ((j : ℤ) * stride)
    put tmp j (.samp v)) n

/-- `for (j = 0; j < n; ++j) *(TYPE*)((char*) dst + offset + j * stride) = row[j]`
(wt.template.c L144-149). -/
def copyOut (dst row : Loc) (stride : ℤ) (n : ℕ) : Prog (Val R M) Unit :=
  forN (fun j => do
    let v ← rdM row j
    put dst ((j : ℤ) * stride) (.samp v)) n

/-- `if (make_temp) copyIn`. -/
def copyInIf (b : Bool) (tmp src : Loc) (stride : ℤ) (n : ℕ) : Prog (Val R M) Unit :=
  if b then copyIn tmp src stride n else pure ()

/-- `if (make_temp) copyOut`. -/
def copyOutIf (b : Bool) (dst row : Loc) (stride : ℤ) (n : ℕ) : Prog (Val R M) Unit :=
  if b then copyOut dst row stride n else pure ()

/-- The body of the loop of `downcoef_axis` (wt.template.c L74-150).  The return code of the 1-D
transform is ignored. -/
def downcoefRow (q : Prec) (input : Loc) (ii : Info) (output : Loc) (oi : Info) (w : Option Ptr)
    (axis : ℕ) (approx : Bool) (t : Transform) (ti tout : Option Ptr) (i : ℕ) :
    Prog (Val R M) Unit := do
  let mti := decide (ii.strides.getD axis 0 ≠ 1)
  let mto := decide (oi.strides.getD axis 0 ≠ 1)
  let src := input.add (rowOffset oi.shape ii.strides axis oi.ndim i 0)
  let dst := output.add (rowOffset oi.shape oi.strides axis oi.ndim i 0)
  copyInIf mti ⟨ti, 0⟩ src (ii.strides.getD axis 0) (ii.shape.getD axis 0)
  let irow := if mti then ⟨ti, 0⟩ else src
  let orow := if mto then ⟨tout, 0⟩ else dst
  let _ ← kernel q t approx w ⟨irow, ii.shape.getD axis 0⟩ ⟨orow, oi.shape.getD axis 0⟩
  copyOutIf mto dst orow (oi.strides.getD axis 0) (oi.shape.getD axis 0)

/-- The check of dimension `i` (wt.template.c L44-63). -/
def downcoefCheck (ii oi : Info) (w : Option Ptr) (axis : ℕ) (t : Transform) (i : ℕ) :
    Prog (Val R M) ℤ :=
  if i = axis then
    match t with
    | .dwt mode => do
        let n ← rdNum w fDecLen
        if dwtBufferLength (ii.shape.getD i 0) n mode ≠ oi.shape.getD i 0 then pure 3 else pure 0
    | .swt _ =>
        if swtBufferLength (ii.shape.getD i 0) ≠ oi.shape.getD i 0 then pure 4 else pure 0
  else if ii.shape.getD i 0 ≠ oi.shape.getD i 0 then pure 5
  else pure 0

/-- `downcoef_axis` (wt.template.c L27-168). -/
def downcoefAxis (q : Prec) (input : Loc) (ii : Info) (output : Loc) (oi : Info) (w : Option Ptr)
    (axis : ℕ) (approx : Bool) (t : Transform) : Prog (Val R M) ℤ :=
  if ii.ndim ≠ oi.ndim then pure 1
  else if axis ≥ ii.ndim then pure 2
  else do
    let r ← forCode (downcoefCheck ii oi w axis t) ii.ndim
    if r ≠ 0 then pure r
    else
      let mti := decide (ii.strides.getD axis 0 ≠ 1)
      let mto := decide (oi.strides.getD axis 0 ≠ 1)
      let ti ← mallocIf mti (ii.shape.getD axis 0)
      if mti = true ∧ ti = none then
        free ti
        pure 6
      else
        let tout ← mallocIf mto (oi.shape.getD axis 0)
        if mto = true ∧ tout = none then
          free ti
          free tout
          pure 6
        else
          forN (downcoefRow q input ii output oi w axis approx t ti tout) (numLoops oi.shape axis)
          free ti
          free tout
          pure 0

/-- Coefficients passed to `idwt_axis`: NULL, or a pointer with shape and strides. -/
abbrev CoefArg := Option (Loc × Info)

/-- The offset of line `i` in coefficients that are present. -/
def CoefArg.row (c : Loc × Info) (oi : Info) (axis i : ℕ) : Loc :=
  c.1.add (rowOffset oi.shape c.2.strides axis oi.ndim i 0)

/-- `make_temp_coefs_x` (wt.template.c L215-216). -/
def CoefArg.temp (c : CoefArg) (axis : ℕ) : Bool :=
  match c with
  | none => false
  | some c => decide (c.2.strides.getD axis 0 ≠ 1)

/-- The length of a line of the coefficients. -/
def CoefArg.len (c : CoefArg) (axis : ℕ) : ℕ :=
  match c with
  | none => 0
  | some c => c.2.shape.getD axis 0

/-- A check of `idwt_axis` that applies to coefficients that are present. -/
def CoefArg.bad (c : CoefArg) (p : Info → Bool) : Bool :=
  match c with
  | none => false
  | some c => p c.2

/-- `if (make_temp_coefs_x) for (…) temp_coefs_x[j] = …` (wt.template.c L256-265). -/
def CoefArg.load (c : CoefArg) (oi : Info) (axis : ℕ) (tmp : Option Ptr) (i : ℕ) :
    Prog (Val R M) Unit :=
  match c with
  | none => pure ()
  | some c =>
    copyInIf (decide (c.2.strides.getD axis 0 ≠ 1)) ⟨tmp, 0⟩ (CoefArg.row c oi axis i)
      (c.2.strides.getD axis 0) (c.2.shape.getD axis 0)

/-- `if (have_x){ … upsampling_convolution_valid_sf(…) }` (wt.template.c L273-293); the return code
is ignored. -/
def CoefArg.conv (q : Prec) (hi : Bool) (w : Option Ptr) (c : CoefArg) (oi : Info) (axis : ℕ)
    (tmp : Option Ptr) (orow : Loc) (mode : Mode) (i : ℕ) : Prog (Val R M) Unit :=
  match c with
  | none => pure ()
  | some c => do
    let row : Loc := if c.2.strides.getD axis 0 ≠ 1 then ⟨tmp, 0⟩ else CoefArg.row c oi axis i
    let f ← rdPtr w (fFilter true hi q)
    let m ← rdNum w fRecLen
    let _ ← usConv (kfuel (c.2.shape.getD axis 0) m) ⟨row, c.2.shape.getD axis 0⟩ ⟨⟨f, 0⟩, m⟩
      orow mode
    pure ()

/-- The body of the loop of `idwt_axis` (wt.template.c L234-303). -/
def idwtRow (q : Prec) (ca cd : CoefArg) (output : Loc) (oi : Info) (w : Option Ptr) (axis : ℕ)
    (mode : Mode) (ta td tout : Option Ptr) (i : ℕ) : Prog (Val R M) Unit := do
  let mto := decide (oi.strides.getD axis 0 ≠ 1)
  let dst := output.add (rowOffset oi.shape oi.strides axis oi.ndim i 0)
  ca.load oi axis ta i
  cd.load oi axis td i
  let orow := if mto then ⟨tout, 0⟩ else dst
  forN (fun j => put orow j (.samp 0)) (oi.shape.getD axis 0)       -- memset
  ca.conv q false w oi axis ta orow mode i
  cd.conv q true w oi axis td orow mode i
  copyOutIf mto dst orow (oi.strides.getD axis 0) (oi.shape.getD axis 0)

/-- The check of dimension `i` (wt.template.c L191-212). -/
def idwtCheck (ca cd : CoefArg) (oi : Info) (w : Option Ptr) (axis : ℕ) (mode : Mode) (i : ℕ) :
    Prog (Val R M) ℤ :=
  if i = axis then
    if ca.isSome = true ∧ cd.isSome = true ∧ ca.len i ≠ cd.len i then pure 1
    else do
      let m ← rdNum w fRecLen
      if idwtBufferLength (if ca.isSome then ca.len i else cd.len i) m mode
          ≠ some (oi.shape.getD i 0) then pure 1
      else pure 0
  else if ca.bad (fun a => decide (a.shape.getD i 0 ≠ oi.shape.getD i 0)) ||
      cd.bad (fun d => decide (d.shape.getD i 0 ≠ oi.shape.getD i 0)) then pure 1
  else pure 0

/-- `idwt_axis` (wt.template.c L171-315). -/
def idwtAxis (q : Prec) (ca cd : CoefArg) (output : Loc) (oi : Info) (w : Option Ptr)
    (axis : ℕ) (mode : Mode) : Prog (Val R M) ℤ :=
  if ca.isNone = true ∧ cd.isNone = true then pure 3
  else if ca.bad (fun a => decide (a.ndim ≠ oi.ndim)) ||
      cd.bad (fun d => decide (d.ndim ≠ oi.ndim)) then pure 1
  else if axis ≥ oi.ndim then pure 1
  else do
    let r ← forCode (idwtCheck ca cd oi w axis mode) oi.ndim
    if r ≠ 0 then pure r
    else
      let mto := decide (oi.strides.getD axis 0 ≠ 1)
      let ta ← mallocIf (ca.temp axis) (ca.len axis)
      if ca.temp axis = true ∧ ta = none then
        free ta
        pure 2
      else
        let td ← mallocIf (cd.temp axis) (cd.len axis)
        if cd.temp axis = true ∧ td = none then
          free ta
          free td
          pure 2
        else
          let tout ← mallocIf mto (oi.shape.getD axis 0)
          if mto = true ∧ tout = none then
            free ta
            free td
            free tout
            pure 2
          else
            forN (idwtRow q ca cd output oi w axis mode ta td tout) (numLoops oi.shape axis)
            free ta
            free td
            free tout
            pure 0

/-! ### The Cython functions

The result is the list of arrays returned, or the exception raised.  `q` is the precision of the
data's dtype. -/

/-- What a call returns: pointers to the data of the arrays. -/
abbrev Res := Except PyErr (List Ptr)

/-- The pointers that are not NULL. -/
def freeAll : List (Option Ptr) → Prog (Val R M) Unit
  | [] => pure ()
  | p :: ps => do
      free p
      freeAll ps

/-- Raising an exception; the arrays made so far are freed. -/
def raise (e : PyErr) (ps : List (Option Ptr)) : Prog (Val R M) Res := do
  freeAll ps
  pure (.error e)

/-- `np.zeros(n)`; the arrays `held` are freed if it raises. -/
def npZeros (n : ℕ) (held : List (Option Ptr)) (k : Ptr → Prog (Val R M) Res) :
    Prog (Val R M) Res := do
  let p ← callocM n
  match p with
  | none => raise .alloc held
  | some p => k p

/-- `np.empty(n)`. -/
def npEmpty (n : ℕ) (held : List (Option Ptr)) (k : Ptr → Prog (Val R M) Res) :
    Prog (Val R M) Res := do
  let p ← malloc n
  match p with
  | none => raise .alloc held
  | some p => k p

/-- `dwt_single` (_dwt.pyx L26-82) for the data `x`. -/
def dwtSingle (q : Prec) (w : Option Ptr) (mode : Mode) (x : Buf) : Prog (Val R M) Res := do
  let n ← rdNum w fDecLen
  match dwtCoeffLen x.len n mode with
  | .error e => raise e []
  | .ok m =>
    if m < 1 then raise .runtime []
    else if tooShort x.len mode then raise .value []
    else
      npZeros m [] fun cA =>
      npZeros m [some cA] fun cD => do
        let ra ← dec q false w x ⟨⟨some cA, 0⟩, m⟩ mode
        let rd ← dec q true w x ⟨⟨some cD, 0⟩, m⟩ mode
        if ra < 0 ∨ rd < 0 then raise .runtime [some cA, some cD]
        else pure (.ok [cA, cD])

/-- `idwt_single` (_dwt.pyx L182-243). -/
def idwtSingle (q : Prec) (w : Option Ptr) (mode : Mode) (ca cd : Buf) : Prog (Val R M) Res :=
  if ca.len ≠ cd.len then raise .value []
  else do
    let n ← rdNum w fRecLen
    match idwtBufferLength ca.len n mode with
    | none => raise .alloc []
    | some m =>
      if m < 1 then raise .value []
      else
        npZeros m [] fun r => do
          let rc ← idwt q w ca cd ⟨⟨some r, 0⟩, m⟩ mode
          if rc < 0 then raise .runtime [some r] else pure (.ok [r])

/-- The loop of `swt` (_swt.pyx L84-158): `n` more levels, the next being `i`; `ret` lists the
arrays made so far, the newest first. -/
def swtLoop (q : Prec) (w : Option Ptr) (m : ℕ) : ℕ → ℕ → Buf → List Ptr → Prog (Val R M) Res
  | 0, _, _, ret => pure (.ok ret)
  | n + 1, i, x, ret =>
      npZeros m (ret.map some) fun cD => do
        let rc ← swtDec q true w x ⟨⟨some cD, 0⟩, m⟩ i
        if rc < 0 then raise .runtime (some cD :: ret.map some)
        else
          npZeros m (some cD :: ret.map some) fun cA => do
            let rc ← swtDec q false w x ⟨⟨some cA, 0⟩, m⟩ i
            if rc < 0 then raise .runtime (some cA :: some cD :: ret.map some)
            else swtLoop q w m n (i + 1) ⟨⟨some cA, 0⟩, m⟩ (cA :: cD :: ret)

/-- `swt` (_swt.pyx L54-158) with `trim_approx=False`: `cA_n, cD_n, …, cA_1, cD_1`. -/
def swt (q : Prec) (w : Option Ptr) (level start_level : ℕ) (x : Buf) : Prog (Val R M) Res :=
  if x.len % 2 ≠ 0 then raise .value []
  else if x.len < 1 then raise .value []
  else if level < 1 then raise .value []
  else if start_level ≥ swtMaxLevelC x.len then raise .value []
  else if start_level + level > swtMaxLevelC x.len then raise .value []
  else if swtBufferLength x.len < 1 then raise .runtime []
  else swtLoop q w (swtBufferLength x.len) level (start_level + 1) x []

/-- `dwt_axis` (_dwt.pyx L85-179) for data of a supported dtype at `x`, its shape and strides being
`ii`.  An axis number beyond the dimension is outside the shape array. -/
def dwtAxisPy (q : Prec) (w : Option Ptr) (mode : Mode) (axis : ℕ) (x : Loc) (ii : Info) :
    Prog (Val R M) Res :=
  if axis ≥ ii.ndim then .fail .oob
  else if tooShort (ii.shape.getD axis 0) mode then raise .value []
  else do
    let n ← rdNum w fDecLen
    match dwtCoeffLen (ii.shape.getD axis 0) n mode with
    | .error e => raise e []
    | .ok m =>
      let shape := ii.shape.set axis m
      let oi : Info := ⟨shape, cstrides shape⟩
      npEmpty shape.prod [] fun cA =>
      npEmpty shape.prod [some cA] fun cD => do
        let rc ← downcoefAxis q x ii ⟨some cA, 0⟩ oi w axis true (.dwt mode)
        if rc ≠ 0 then raise .runtime [some cA, some cD]
        else
          let rc ← downcoefAxis q x ii ⟨some cD, 0⟩ oi w axis false (.dwt mode)
          if rc ≠ 0 then raise .runtime [some cA, some cD] else pure (.ok [cA, cD])

/-- `idwt_axis` (_dwt.pyx L246-336) for coefficients of one supported dtype. -/
def idwtAxisPy (q : Prec) (w : Option Ptr) (mode : Mode) (axis : ℕ) (ca cd : CoefArg) :
    Prog (Val R M) Res :=
  match ca <|> cd with
  | none => pure (.ok [])
  | some c =>
    if axis ≥ c.2.ndim then .fail .oob
    else do
      let n ← rdNum w fRecLen
      match idwtBufferLength (c.2.shape.getD axis 0) n mode with
      | none => raise .alloc []
      | some m =>
        let shape := c.2.shape.set axis m
        npEmpty shape.prod [] fun r => do
          let rc ← idwtAxis q ca cd ⟨some r, 0⟩ ⟨shape, cstrides shape⟩ w axis mode
          if rc ≠ 0 then raise .runtime [some r] else pure (.ok [r])

/-- The loop of `swt_axis` (_swt.pyx L200-326) with `trim_approx=False`, for real dtypes (for complex
ones the arrays are allocated twice and zeroed). -/
def swtAxisLoop (q : Prec) (w : Option Ptr) (axis : ℕ) (shape : List ℕ) :
    ℕ → ℕ → Loc → Info → List Ptr → Prog (Val R M) Res
  | 0, _, _, _, ret => pure (.ok ret)
  | n + 1, i, x, ii, ret =>
      let oi : Info := ⟨shape, cstrides shape⟩
      npEmpty shape.prod (ret.map some) fun cA =>
      npEmpty shape.prod (some cA :: ret.map some) fun cD => do
        let rc ← downcoefAxis q x ii ⟨some cA, 0⟩ oi w axis true (.swt i)
        if rc ≠ 0 then raise .runtime (some cA :: some cD :: ret.map some)
        else
          let rc ← downcoefAxis q x ii ⟨some cD, 0⟩ oi w axis false (.swt i)
          if rc ≠ 0 then raise .runtime (some cA :: some cD :: ret.map some)
          else swtAxisLoop q w axis shape n (i + 1) ⟨some cA, 0⟩ oi (cA :: cD :: ret)

/-- `swt_axis` (_swt.pyx L161-326) with `trim_approx=False` for data of a real dtype.  An axis number
beyond the dimension is outside the shape array. -/
def swtAxisPy (q : Prec) (w : Option Ptr) (level start_level axis : ℕ) (x : Loc) (ii : Info) :
    Prog (Val R M) Res :=
  if axis ≥ ii.ndim then .fail .oob
  else if ii.shape.getD axis 0 % 2 ≠ 0 then raise .value []
  else if ii.shape.getD axis 0 < 1 then raise .value []
  else if level < 1 then raise .value []
  else if start_level ≥ swtMaxLevelC (ii.shape.getD axis 0) then raise .value []
  else if start_level + level > swtMaxLevelC (ii.shape.getD axis 0) then raise .value []
  else swtAxisLoop q w axis ii.shape level (start_level + 1) x ii []

/-! ### Making and freeing wavelets (wavelets.c) -/

/-- `free_discrete_wavelet` (wavelets.c L651-670). -/
def freeWavelet (w : Option Ptr) : Prog (Val R M) Unit := do
  let n ← rdNum w fDecLen
  if 0 < n then
    free (← rdPtr w (fFilter false false .float))
    free (← rdPtr w (fFilter false true .float))
    free (← rdPtr w (fFilter false false .double))
    free (← rdPtr w (fFilter false true .double))
  let n ← rdNum w fRecLen
  if 0 < n then
    free (← rdPtr w (fFilter true false .float))
    free (← rdPtr w (fFilter true true .float))
    free (← rdPtr w (fFilter true false .double))
    free (← rdPtr w (fFilter true true .double))
  free w

/-- `p->field = v`. -/
def setField (w : Option Ptr) (i : ℕ) (v : Val R M) : Prog (Val R M) Unit := put ⟨w, 0⟩ i v

/-- `w->filter = wtcalloc(n, …)`. -/
def newFilter (w : Option Ptr) (rec hi : Bool) (q : Prec) (n : ℕ) :
    Prog (Val R M) (Option Ptr) := do
  let p ← callocR n
  setField w (fFilter rec hi q) (.ptr p)
  pure p

/-- `blank_discrete_wavelet` (wavelets.c L504-560), `n > 0`. -/
def blankWavelet (n : ℕ) : Prog (Val R M) (Option Ptr) := do
  let n := if n % 2 ≠ 0 then n + 1 else n
  let w ← malloc 11
  if w = none then pure none
  else
    setField w fDecLen (.num n)
    setField w fRecLen (.num n)
    let a ← newFilter w false false .float n
    let b ← newFilter w false true .float n
    let c ← newFilter w true false .float n
    let d ← newFilter w true true .float n
    let e ← newFilter w false false .double n
    let f ← newFilter w false true .double n
    let g ← newFilter w true false .double n
    let h ← newFilter w true true .double n
    if a = none ∨ b = none ∨ c = none ∨ d = none ∨ e = none ∨ f = none ∨ g = none ∨ h = none then
      freeWavelet w
      pure none
    else
      setField w fBase (.num 0)
      pure w

/-- `for x in source: dest[i] = x; i = i + 1` (`copy_object_to_float32_array`,
`copy_object_to_float64_array`, _pywt.pyx L1076-1090).  The rounding to `float` is not modelled. -/
def copyObj (dest : Option Ptr) : ℕ → List R → Prog (Val R M) Unit
  | _, [] => pure ()
  | i, x :: xs => do
      put ⟨dest, 0⟩ i (.coef x)
      copyObj dest (i + 1) xs

/-- `copy_object_to_…_array(l, self.w.field)`. -/
def copyField (w : Option Ptr) (rec hi : Bool) (q : Prec) (l : List R) : Prog (Val R M) Unit := do
  let p ← rdPtr w (fFilter rec hi q)
  copyObj p 0 l

/-- The part of `Wavelet.__cinit__` that stores a filter bank (_pywt.pyx L410-425). -/
def waveletOfBank (b : Wavelet R) : Prog (Val R M) (Except PyErr Ptr) := do
  let w ← blankWavelet b.dec_lo.length
  match w with
  | none => pure (.error .alloc)
  | some w =>
    copyField (some w) false false .float b.dec_lo
    copyField (some w) false true .float b.dec_hi
    copyField (some w) true false .float b.rec_lo
    copyField (some w) true true .float b.rec_hi
    copyField (some w) false false .double b.dec_lo
    copyField (some w) false true .double b.dec_hi
    copyField (some w) true false .double b.rec_lo
    copyField (some w) true true .double b.rec_hi
    pure (.ok w)

/-- `w->filter[i] = v`. -/
def setFilter (w : Option Ptr) (rec hi : Bool) (q : Prec) (i : ℕ) (v : R) :
    Prog (Val R M) Unit := do
  let p ← rdPtr w (fFilter rec hi q)
  put ⟨p, 0⟩ i (.coef v)

end Pywt.Heap
