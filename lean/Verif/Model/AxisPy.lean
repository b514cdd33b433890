import Verif.Model.Axis
import Verif.Model.Arr

/-!
# Model of `dwt_axis`, `idwt_axis` (`_dwt.pyx`), and of `dwt`/`idwt` with an `axis`

Not modelled here: dtypes (see `Verif.Model.DType`).
-/

namespace Pywt

variable {R M : Type} [Zero R] [Zero M] [Add M] [Neg M] [Sub M] [SMul ℕ M] [SMul R M]

/-- C-order strides. -/
def cstrides (shape : List Nat) : List Int :=
  (List.range shape.length).map fun k => ((shape.drop (k + 1)).prod : Int)

/-- Memory offset of an index: `Σ_{k<j} idx[k]·strides[k]`. -/
def dot (strides : List Int) (idx : Nat → Nat) (j : Nat) : Int :=
  ∑ k ∈ Finset.range j, (idx k : Int) * strides.getD k 0

/-- The element of an array in memory. -/
def Mem.get (c : Mem M) (idx : Nat → Nat) : M :=
  c.data.getD (c.base + dot c.info.strides idx c.info.ndim).toNat 0

/-- What NumPy guarantees: the elements of an array lie inside its memory. -/
def Mem.Ok (c : Mem M) : Prop :=
  ∀ idx, InB c.info.shape idx →
    0 ≤ c.base + dot c.info.strides idx c.info.ndim ∧
      c.base + dot c.info.strides idx c.info.ndim < c.data.length

/-- A C-ordered array in memory. -/
def Arr.toMem (a : Arr M) : Mem M := ⟨a.data, 0, ⟨a.shape, cstrides a.shape⟩⟩

/-- The array a C function has filled. -/
def toArr (shape : List Nat) (data : List M) : Py (Arr M) :=
  if h : data.length = shape.prod then .ok ⟨shape, data, h⟩ else .error (.c .oob)

/-- One of the two calls of `downcoef_axis` in `dwt_axis` (_dwt.pyx L117-130): a freshly allocated
C-ordered output (its contents, undefined in the code, are zeros here). -/
def downcoefAxisCall (w : Wavelet R) (axis : Nat) (approx : Bool) (t : Transform) (data : Mem M)
    (output_shape : List Nat) : Py (Arr M) := do
  let r ← callC (downcoefAxis w axis approx t data.data data.base data.info
    (zeros output_shape.prod) ⟨output_shape, cstrides output_shape⟩)
  toArr output_shape r

/-- `dwt_axis` (_dwt.pyx L85-179) for data in any memory layout.  The module is compiled without
bounds checks, so an axis number beyond the dimension makes `data.shape[axis]` and
`output_shape[axis]` access memory outside the shape arrays. -/
def dwtAxisMem (w : Wavelet R) (mode : Mode) (axis : Nat) (data : Mem M) :
    Py (Arr M × Arr M) := do
  if axis ≥ data.info.ndim then throw (.c .oob)
  if tooShort (data.info.shape.getD axis 0) mode then throw .value
  let n ← dwtCoeffLen (data.info.shape.getD axis 0) w.dec_len mode
  let output_shape := data.info.shape.set axis n
  let cA ← downcoefAxisCall w axis true (.dwt mode) data output_shape
  let cD ← downcoefAxisCall w axis false (.dwt mode) data output_shape
  pure (cA, cD)

/-- `dwt_axis` on a C-ordered array. -/
def dwtAxis (w : Wavelet R) (mode : Mode) (axis : Nat) (data : Arr M) : Py (Arr M × Arr M) :=
  dwtAxisMem w mode axis data.toMem

/-- `idwt_axis` (_dwt.pyx L246-336) for coefficients in any memory layout; `None` for both inputs
gives `None`.  A wrapped `idwt_buffer_length` makes `np.empty` raise. -/
def idwtAxisMem (w : Wavelet R) (mode : Mode) (axis : Nat) (ca cd : Option (Mem M)) :
    Py (Option (Arr M)) := do
  match ca <|> cd with
  | none => pure none
  | some c =>
    if axis ≥ c.info.ndim then throw (.c .oob)
    match idwtBufferLength (c.info.shape.getD axis 0) w.rec_len mode with
    | none => throw .alloc
    | some n =>
      let output_shape := c.info.shape.set axis n
      let r ← callC (idwtAxisC w axis mode ca cd (zeros output_shape.prod)
        ⟨output_shape, cstrides output_shape⟩)
      let r ← toArr output_shape r
      pure (some r)

/-- `idwt_axis` on C-ordered arrays. -/
def idwtAxis (w : Wavelet R) (mode : Mode) (axis : Nat) (ca cd : Option (Arr M)) :
    Py (Option (Arr M)) :=
  idwtAxisMem w mode axis (ca.map Arr.toMem) (cd.map Arr.toMem)

/-- `axis = axis + data.ndim if axis < 0`, then the range check of `dwt` (_dwt.py L174-178). -/
def normAxis (ndim : Nat) (axis : Int) : Py Nat :=
  let axis := if axis < 0 then axis + ndim else axis
  if 0 ≤ axis ∧ axis < ndim then .ok axis.toNat else .error .axis

/-- `np.zeros_like`. -/
def Arr.zerosLike (a : Arr M) : Arr M := ⟨a.shape, zeros a.shape.prod, by simp [zeros]⟩

end Pywt
