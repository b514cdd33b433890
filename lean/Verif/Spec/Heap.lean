import Verif.Spec.Threads
import Verif.Model.HeapWt
import Verif.Model.SwtN

/-!
# What it means that memory holds a wavelet or an array
-/

namespace Pywt.Heap

variable {R M : Type} [Ring R] [AddCommGroup M] [Module R M]

/-- Block `p` holds the filter `f`. -/
def FilterAt (h : Ptr → Option (Blk (Val R M))) (p : Ptr) (f : List R) : Prop :=
  ∃ b, h p = some ⟨b, f.map fun r => some (.coef r)⟩

/-- Block `p` holds the samples `l`. -/
def SamplesAt (h : Ptr → Option (Blk (Val R M))) (p : Ptr) (l : List M) : Prop :=
  ∃ b, h p = some ⟨b, l.map fun m => some (.samp m)⟩

/-- The memory holds the samples `l` at `x`. -/
def HoldsM (h : Ptr → Option (Blk (Val R M))) (x : Loc) (l : List M) : Prop :=
  ∀ i (hi : i < l.length), load h x.blk (x.off + (i : ℤ)) = .ok (.samp l[i])

/-- The block of `x` holds the array `c`: all of its memory, `x` pointing to its first element. -/
def MemAt (h : Ptr → Option (Blk (Val R M))) (x : Loc) (c : Mem M) : Prop :=
  ∃ p, x = ⟨some p, c.base⟩ ∧ SamplesAt h p c.data

/-- Block `w` is a wavelet structure: the lengths of the filters, and pointers to four blocks
holding them (in the precision `q`). -/
def WaveletAt (h : Ptr → Option (Blk (Val R M))) (q : Prec) (w : Ptr) (wl : Wavelet R) : Prop :=
  ∃ b cells, h w = some ⟨b, cells⟩ ∧
    cells[fDecLen]? = some (some (.num wl.dec_len)) ∧
    cells[fRecLen]? = some (some (.num wl.rec_len)) ∧
    (∃ p, cells[fFilter false false q]? = some (some (.ptr (some p))) ∧ FilterAt h p wl.dec_lo) ∧
    (∃ p, cells[fFilter false true q]? = some (some (.ptr (some p))) ∧ FilterAt h p wl.dec_hi) ∧
    (∃ p, cells[fFilter true false q]? = some (some (.ptr (some p))) ∧ FilterAt h p wl.rec_lo) ∧
    (∃ p, cells[fFilter true true q]? = some (some (.ptr (some p))) ∧ FilterAt h p wl.rec_hi)

/-- From the heap `h` to the heap `h'`: the blocks `ps`, distinct and not there before, have been
added and hold the samples `ls`; nothing else has changed. -/
structure Returned (h h' : Ptr → Option (Blk (Val R M))) (ps : List Ptr) (ls : List (List M)) :
    Prop where
  nodup : ps.Nodup
  fresh : ∀ p ∈ ps, h p = none
  contents : List.Forall₂ (fun p (l : List M) => h' p = some ⟨false, l.map fun m => some (.samp m)⟩)
    ps ls
  rest : ∀ q, q ∉ ps → h' q = h q

/-- The coefficients passed to `idwt_axis` when they are `c`, at `x`. -/
def coefArg (x : Loc) (c : Option (Mem M)) : CoefArg := c.map fun c => (x, c.info)

/-- The arrays of `swt`'s result, in order. -/
def swtArrays {A : Type} : SwtCoeffs A → List A
  | .pairs l => l.flatMap fun r => [r.1, r.2]
  | .trimmed l => l

/-- Since the heap was `h`, a wavelet has been made at `w`: it holds `wl q` in the precision `q`, the blocks
that were there are still as they were, and freeing the wavelet gives `h` again (so that nothing else
has been left behind). -/
def MadeAt (t : ℕ) (orc : ℕ → Bool) (h : Ptr → Option (Blk (Val R M))) (wl : Prec → Wavelet R) (w : Ptr)
    (s' : St (Val R M)) : Prop :=
  (∀ q, WaveletAt s'.heap q w (wl q)) ∧ h w = none ∧ (∀ p b, h p = some b → s'.heap p = some b) ∧
    run t orc (freeWavelet (some w)) s' = .ok ((), ⟨h, s'.next⟩)

/-- The two precisions of a wavelet. -/
def both (w1 w2 : Wavelet R) : Prec → Wavelet R
  | .float => w1
  | .double => w2

/-! ### Calls -/

/-- A call of a compiled transform: where its data are, and what they are. -/
inductive Op (M : Type)
  | dwt (mode : Mode) (x : Loc) (xl : List M)
  | idwt (mode : Mode) (a d : Loc) (al dl : List M)
  | swt (level start_level : ℕ) (x : Loc) (xl : List M)
  | dwtAxis (mode : Mode) (axis : ℕ) (x : Loc) (c : Mem M)
  | idwtAxis (mode : Mode) (axis : ℕ) (xa xd : Loc) (ca cd : Option (Mem M))
  | swtAxis (level start_level axis : ℕ) (x : Loc) (c : Mem M)

/-- A call with the wavelet object at `w`, which is `wl`; `q` is the precision of the data. -/
structure Call (R M : Type) where
  q : Prec
  w : Ptr
  wl : Wavelet R
  op : Op M

/-- The program that is run. -/
def Call.prog (c : Call R M) : Prog (Val R M) Res :=
  match c.op with
  | .dwt mode x xl => dwtSingle c.q (some c.w) mode ⟨x, xl.length⟩
  | .idwt mode a d al dl => idwtSingle c.q (some c.w) mode ⟨a, al.length⟩ ⟨d, dl.length⟩
  | .swt level start_level x xl => swt c.q (some c.w) level start_level ⟨x, xl.length⟩
  | .dwtAxis mode axis x m => dwtAxisPy c.q (some c.w) mode axis x m.info
  | .idwtAxis mode axis xa xd ca cd =>
      idwtAxisPy c.q (some c.w) mode axis (coefArg xa ca) (coefArg xd cd)
  | .swtAxis level start_level axis x m =>
      swtAxisPy c.q (some c.w) level start_level axis x m.info

/-- The memory holds what the call is about: the wavelet, and the arguments.  As the Python functions
above the compiled ones make sure, an axis is one of the array, and `idwt_axis` is given coefficients
of equal shapes from which a non-empty signal is reconstructed. -/
def Call.At (h : Ptr → Option (Blk (Val R M))) (c : Call R M) : Prop :=
  WaveletAt h c.q c.w c.wl ∧ c.wl.Ok ∧
  match c.op with
  | .dwt _ x xl => HoldsM h x xl
  | .idwt _ a d al dl => HoldsM h a al ∧ HoldsM h d dl
  | .swt _ _ x xl => HoldsM h x xl
  | .dwtAxis _ axis x m => MemAt h x m ∧ m.Ok ∧ axis < m.info.ndim
  | .idwtAxis mode axis xa xd ca cd => ∃ shape : List ℕ,
      (∀ m, ca = some m → MemAt h xa m ∧ m.Ok ∧ m.info.shape = shape) ∧
      (∀ m, cd = some m → MemAt h xd m ∧ m.Ok ∧ m.info.shape = shape) ∧
      axis < shape.length ∧ idwtBufferLength (shape.getD axis 0) c.wl.rec_len mode ≠ some 0
  | .swtAxis _ _ axis x m => MemAt h x m ∧ m.Ok ∧ axis < m.info.ndim

/-- What the call should give, according to the functional model (`Verif.Model.Wt`,
`Verif.Model.AxisPy`): the data of the arrays returned, or an exception. -/
def Call.expected (c : Call R M) : Py (List (List M)) :=
  match c.op with
  | .dwt mode _ xl => (Pywt.dwt c.wl mode xl).map fun r => [r.1, r.2]
  | .idwt mode _ _ al dl => (Pywt.idwt c.wl mode (some al) (some dl)).map fun r => [r]
  | .swt level start_level _ xl => (Pywt.swtC c.wl xl level start_level false).map swtArrays
  | .dwtAxis mode axis _ m => (Pywt.dwtAxisMem c.wl mode axis m).map fun r => [r.1.data, r.2.data]
  | .idwtAxis mode axis _ _ ca cd =>
      (Pywt.idwtAxisMem c.wl mode axis ca cd).map fun r => (r.map (·.data)).toList
  | .swtAxis level start_level axis _ m =>
      (Pywt.swtAxisMem c.wl level start_level axis false m).map fun r => (swtArrays r).map (·.data)

/-- The calls that notice a failing allocation: all but `swt_axis` of more than one level. -/
def Call.Checked (c : Call R M) : Prop :=
  match c.op with
  | .swtAxis level start_level _ _ _ => start_level + level ≤ 1
  | _ => True

/-- A thread makes several calls, one after the other; it keeps all results. -/
def script : List (Call R M) → Prog (Val R M) (List Res)
  | [] => pure []
  | c :: cs => do
      let r ← c.prog
      let rs ← script cs
      pure (r :: rs)

/-- The arrays that were returned. -/
def arrays : List Res → List Ptr
  | [] => []
  | .ok ps :: rs => ps ++ arrays rs
  | .error _ :: rs => arrays rs

/-- The result `r` of the call `c` is right: the arrays hold what they should, or the exception is the
right one; when some allocation failed (`bad`) it may also be `MemoryError` or `RuntimeError`. -/
def Right (h : Ptr → Option (Blk (Val R M))) (bad : Prop) (c : Call R M) (r : Res) : Prop :=
  match r with
  | .ok ps => ∃ ls, c.expected = .ok ls ∧
      List.Forall₂ (fun p (l : List M) => h p = some ⟨false, l.map fun m => some (.samp m)⟩) ps ls
  | .error e => c.expected = .error e ∨ bad ∧ (e = .alloc ∨ e = .runtime)

end Pywt.Heap
