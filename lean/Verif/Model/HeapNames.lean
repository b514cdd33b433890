import Verif.Model.HeapWt
import Verif.Model.Builtin

/-!
# Making built-in wavelets on a heap (wavelets.c, _pywt.pyx)

As in `Verif.Model.Builtin`, the coefficients are integers: the decimal literals of the tables, scaled and
rounded to `float` or `double`.
-/

namespace Pywt.Heap

variable {M : Type}

/-- One round of the loops of `discrete_wavelet` that fill the filters (wavelets.c L119-126, L130-137 and
the same for the other families; see `Pywt.fillLoop`).  The values come from constant tables: reading
them is not a memory operation here (`Pywt.fillLoop` checks the bounds). -/
def fillRow (w : Option Ptr) (q : Prec) (f : FillFrom) (i : ℕ) : Prog (Val ℤ M) Unit := do
  setFilter w true false q i (f.b.getD (i + f.n) 0)
  let m ← rdNum w fDecLen
  setFilter w false false q i (f.c.getD (m - 1 - i) 0)
  let m ← rdNum w fDecLen
  setFilter w true true q i (sgn i * f.c.getD (m - 1 - i) 0)
  let m ← rdNum w fDecLen
  setFilter w false true q i (sgn (m - 1 - i) * f.b.getD (i + f.n) 0)

/-- A family of `discrete_wavelet` other than `HAAR` and `RBIO` (wavelets.c L97-350): `f1` says how to
fill the filters for `float`, `f2` for `double`.  The loop bound `w->rec_len` is read once. -/
def fillWavelet (f1 f2 : FillFrom) : Prog (Val ℤ M) (Option Ptr) := do
  let w ← blankWavelet f2.F
  if w = none then pure none
  else
    setField w fBase (.num 1)
    let n ← rdNum w fRecLen
    forN (fillRow w .float f1) n
    let n ← rdNum w fRecLen
    forN (fillRow w .double f2) n
    pure w

/-- The same, `NULL` for an order that does not exist. -/
def fillFamily (name : Family) (order : ℕ) : Prog (Val ℤ M) (Option Ptr) :=
  match fillFrom true name order, fillFrom false name order with
  | some f1, some f2 => fillWavelet f1 f2
  | _, _ => pure none

/-- `SWAP(size_t, w->a, w->b)`. -/
def swapNum (w : Option Ptr) (a b : ℕ) : Prog (Val ℤ M) Unit := do
  let x ← rdNum w a
  let y ← rdNum w b
  setField w a (.num y)
  setField w b (.num x)

/-- `SWAP(float*, w->a, w->b)`. -/
def swapPtr (w : Option Ptr) (a b : ℕ) : Prog (Val ℤ M) Unit := do
  let x ← rdPtr w a
  let y ← rdPtr w b
  setField w a (.ptr y)
  setField w b (.ptr x)

/-- `SWAP(float, w->filter[i], w->filter[j])`. -/
def swapCoef (w : Option Ptr) (rec hi : Bool) (q : Prec) (i j : ℕ) : Prog (Val ℤ M) Unit := do
  let p ← rdPtr w (fFilter rec hi q)
  let x ← rdR ⟨p, 0⟩ i
  let y ← rdR ⟨p, 0⟩ j
  put ⟨p, 0⟩ i (.coef y)
  put ⟨p, 0⟩ j (.coef x)

/-- One round of the loop that reverses the filters (wavelets.c L76-84). -/
def reverseRow (w : Option Ptr) (n i : ℕ) : Prog (Val ℤ M) Unit := do
  swapCoef w true false .float i (n - 1 - i)
  swapCoef w true true .float i (n - 1 - i)
  swapCoef w false false .float i (n - 1 - i)
  swapCoef w false true .float i (n - 1 - i)
  swapCoef w true false .double i (n - 1 - i)
  swapCoef w true true .double i (n - 1 - i)
  swapCoef w false false .double i (n - 1 - i)
  swapCoef w false true .double i (n - 1 - i)

/-- `discrete_wavelet` (wavelets.c L52-353).  For `HAAR` the result of `discrete_wavelet(DB, 1)` is used
without a check for `NULL`.  The loop `for (i = 0, j = rec_len - 1; i < j; i++, j--)` is counted: it has
`rec_len / 2` rounds, and `j` is `rec_len - 1 - i`. -/
def discreteWavelet (name : Family) (order : ℕ) : Prog (Val ℤ M) (Option Ptr) :=
  match name with
  | .haar => do
      let w ← fillFamily .db 1
      setField w fBase (.num 2)
      pure w
  | .rbio => do
      let w ← fillFamily .bior order
      if w = none then pure none
      else
        swapNum w fDecLen fRecLen
        swapPtr w (fFilter true false .float) (fFilter false false .float)
        swapPtr w (fFilter true true .float) (fFilter false true .float)
        swapPtr w (fFilter true false .double) (fFilter false false .double)
        swapPtr w (fFilter true true .double) (fFilter false true .double)
        let n ← rdNum w fRecLen
        forN (reverseRow w n) (n / 2)
        setField w fBase (.num 3)
        pure w
  | _ => fillFamily name order

/-- `Wavelet(name)` (_pywt.pyx L343-365), as `Pywt.waveletNamed`: the pointer to the new wavelet, or the
exception. -/
def waveletNamed (name : String) : Prog (Val ℤ M) (Except PyErr Ptr) :=
  if name = "" then pure (.error .type)
  else
    match wnameLookup name.toLower with
    | .error e => pure (.error e)
    | .ok (fam, number) =>
      if ¬ fam.isDiscrete then pure (.error .value)
      else do
        let w ← discreteWavelet fam number
        match w with
        | none => pure (.error .value)
        | some w => pure (.ok w)

end Pywt.Heap
