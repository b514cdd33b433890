import Verif.Model.DType

/-!
# What the data type of a result should be

`Kept ins out`: an array of dtype `out` can hold what is computed from arrays of dtypes `ins`.
-/

namespace Pywt.Spec

/-- The dtypes the library computes with. -/
def Supported (d : DType) : Prop := d = .f32 ∨ d = .f64 ∨ d = .c64 ∨ d = .c128

instance (d : DType) : Decidable (Supported d) := by unfold Supported; infer_instance

/-- Does the dtype hold complex numbers? -/
def Cplx (d : DType) : Prop := d = .c64 ∨ d = .c128 ∨ d = .c256

instance (d : DType) : Decidable (Cplx d) := by unfold Cplx; infer_instance

/-- The precision of the dtype, as bits of a (real) floating point number; what is more precise than
double precision is computed in double precision. -/
def precision : DType → Nat
  | .f16 => 16
  | .f32 | .c64 => 32
  | _ => 64

/-- The dtype of a result, given the dtypes of the arrays it is computed from: one of the four supported
ones; complex exactly if one of the arrays is; at least as precise as every array (integers and booleans
count as double precision); and if all arrays have the same supported dtype, that dtype. -/
structure Kept (ins : List DType) (out : DType) : Prop where
  supported : Supported out
  complex : Cplx out ↔ ∃ d ∈ ins, Cplx d
  precise : ∀ d ∈ ins, precision d ≤ precision out
  same : ∀ T, Supported T → ins ≠ [] → (∀ d ∈ ins, d = T) → out = T

/-- A computation with dtypes does the same as one without: it raises the same error, or returns a
result related by `P`. -/
def Agrees {α β : Type} (P : α → β → Prop) : Py α → Py β → Prop
  | .ok a, .ok b => P a b
  | .error e, .error e' => e = e'
  | _, _ => False

/-- The values of an argument. -/
def values {M : Type} : Like M → List M
  | .arr a => a.val
  | .seq _ v => v

/-- The dtype of an argument; Python numbers that are not complex are taken as double precision. -/
def dtypeOf {M : Type} : Like M → DType
  | .arr a => a.dtype
  | .seq inferred _ => if Cplx inferred then inferred else .f64

/-- A Python sequence that contains complex numbers. -/
def ComplexSeq {M : Type} : Like M → Prop
  | .arr _ => False
  | .seq inferred _ => Cplx inferred

/-- Complex numbers never disappear from one level to the next: `a` is the dtype of the approximation,
the list has the dtypes of the details of each level from the coarsest on. -/
def StaysComplex (a : DType) (levels : List (List DType)) : Prop :=
  levels.Pairwise fun l l' => (Cplx a ∨ ∃ d ∈ l, Cplx d) → (Cplx a ∨ ∃ d ∈ l', Cplx d)

/-! ### The dtypes and the values of collections of arrays -/

variable {M : Type}

/-- The dtypes of the levels. -/
def levelD (ds : List (List (Key × Typed (Arr M)))) : List (List DType) :=
  ds.map fun d => d.map fun p => p.2.dtype

/-- The dtypes of the levels of `swt2`. -/
def levelD2 (ds : List (Typed (Arr M) × Typed (Arr M) × Typed (Arr M))) : List (List DType) :=
  ds.map fun p => [p.1.dtype, p.2.1.dtype, p.2.2.dtype]

/-- The detail arrays without dtypes. -/
def erase2 (ds : List (Typed (Arr M) × Typed (Arr M) × Typed (Arr M))) :
    List (Arr M × Arr M × Arr M) := ds.map fun p => (p.1.val, p.2.1.val, p.2.2.val)

/-- A dict without its dtypes. -/
def eraseT (c : TDict M) : CDict M := c.map fun p => (p.1, p.2.map (·.val))

/-- The dtypes of the arrays of a dict. -/
def dictD (c : TDict M) : List DType := c.filterMap fun p => p.2.map fun a => a.dtype

/-- The present arrays' dtypes. -/
def presentD (l : List (Option (Typed (List M)))) : List DType :=
  l.filterMap fun o => o.map fun a => a.dtype

end Pywt.Spec
