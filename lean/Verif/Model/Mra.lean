import Verif.Model.AxisMulti
import Verif.Model.Swt

/-!
# Model of `pywt/_mra.py`: multiresolution analysis

Modelled: `mra` with `transform='dwt'` on n-D arrays and with `transform='swt'` on 1-D arrays, `imra`,
and what `imra`, `imra2`, `imran` do to the arrays they are given.  `mra` with `transform='swt'` on n-D
arrays, `mra2` and `mran` are in `Verif/Model/MraN.lean`.
Not modelled: dtypes; data that is not an array (`mra` reads `data.shape`).
-/

namespace Pywt

variable {R M : Type} [Ring R] [AddCommGroup M] [Module R M]

/-- The loop of `mra` (_mra.py L100-119) over the positions `j`: `tmp` contains zeros except for
entry `j`, which is reconstructed and trimmed; afterwards the zeros are restored. -/
def mraLoop {A : Type} (inverse : List A → Py A) (trim : A → Py A) (zero : A → A) (wav_coeffs : List A) :
    List Nat → List A → List A → Py (List A)
  | [], _, mra_coeffs => pure mra_coeffs
  | j :: js, tmp, mra_coeffs =>
    match wav_coeffs[j]? with
    | none => throw .index
    | some c => do
      let tmp := tmp.set j c
      let r ← inverse tmp
      let r ← trim r
      mraLoop inverse trim zero wav_coeffs js (tmp.set j (zero c)) (mra_coeffs ++ [r])

/-- `inverse(tmp)` for `transform='dwt'`. -/
def mraWaverec (w : Wavelet R) (mode : Mode) (axis : Int) (tmp : List (Arr M)) : Py (Arr M) := do
  match ← waverecA w mode axis (tmp.map some) with
  | none => throw .attr
  | some r => pure r

/-- `if rec.shape != data.shape: rec = rec[tuple([slice(sz) for sz in data.shape])]`
(_mra.py L107-109). -/
def mraTrim (data r : Arr M) : Py (Arr M) :=
  if r.shape ≠ data.shape then r.getSlices (data.shape.map fun s => ⟨0, some s⟩) else pure r

/-- `mra` with `transform='dwt'` (_mra.py L20-120). -/
def mraDwt (w : Wavelet R) (mode : Mode) (level : Option Int) (axis : Int) (data : Arr M) :
    Py (List (Arr M)) := do
  let wav_coeffs ← wavedecA w mode level axis data
  mraLoop (mraWaverec w mode axis) (mraTrim data) Arr.zerosLike wav_coeffs
    (List.range wav_coeffs.length) (wav_coeffs.map Arr.zerosLike) []

/-- `mraTrim` for 1-D data. -/
def mraTrim1 (data r : List M) : Py (List M) :=
  if r.length ≠ data.length then pure (r.take data.length) else pure r

/-- `mra` with `transform='swt'` for 1-D data (_mra.py L20-120).  `s` and `s'` are the factors
`1/sqrt(2)` and `sqrt(2)` that `norm=True` stands for in `swt` and `iswt`.  Any other `mode` than
`'periodization'` is rejected. -/
def mraSwt [Invertible (2 : R)] (w : Wavelet R) (s s' : R) (mode : Mode) (level : Option Int)
    (data : List M) : Py (List (List M)) := do
  if mode ≠ .periodization then throw .value
  match ← swt w level 0 true (some s) data with
  | .pairs _ => throw .type           -- not reachable: `trim_approx=True`
  | .trimmed wav_coeffs =>
      let z := zeros (wav_coeffs.headD []).length
      mraLoop (fun tmp => iswt w (some s') (.trimmed tmp)) (mraTrim1 data) (fun _ => z) wav_coeffs
        (List.range wav_coeffs.length) (List.replicate wav_coeffs.length z) []

/-- `x + y` for arrays.  Simplification: arrays of different shapes are rejected, although NumPy
broadcasts some of them. -/
def Arr.add (a b : Arr M) : Py (Arr M) :=
  if h : a.shape = b.shape then
    .ok ⟨a.shape, List.zipWith (· + ·) a.data b.data, by simp [a.ok, b.ok, h]⟩
  else .error .value

/-- `imra` (_mra.py L123-147): `reduce(lambda x, y: x + y, mra_coeffs)`. -/
def imra (mra_coeffs : List (Arr M)) : Py (Arr M) :=
  match mra_coeffs with
  | [] => throw .type
  | a :: l => l.foldlM Arr.add a

/-! ### The arrays as objects

A heap is a list of arrays, a reference is a position in it. -/

/-- The array a reference points to. -/
def Heap.read (h : List (Arr M)) (r : Nat) : Py (Arr M) :=
  match h[r]? with
  | none => .error .attr
  | some a => .ok a

/-- `x + y` makes a new array. -/
def Heap.add (s : List (Arr M) × Nat) (v : Nat) : Py (List (Arr M) × Nat) := do
  let a ← Heap.read s.1 s.2
  let b ← Heap.read s.1 v
  let c ← a.add b
  pure (s.1 ++ [c], s.1.length)

/-- `rec += v` changes the array that `rec` refers to. -/
def Heap.iadd (r : Nat) (h : List (Arr M)) (v : Nat) : Py (List (Arr M)) := do
  let a ← Heap.read h r
  let b ← Heap.read h v
  let c ← a.add b
  pure (h.set r c)

/-- `imra` (_mra.py L123-147) on references: the heap afterwards and the reference returned. -/
def imraH (h : List (Arr M)) (mra_coeffs : List Nat) : Py (List (Arr M) × Nat) :=
  match mra_coeffs with
  | [] => throw .type
  | a :: l => l.foldlM Heap.add (h, a)

/-- `imra2` (_mra.py L259-287) and `imran` (_mra.py L406-434) on references: `a` is `mra_coeffs[0]`,
`ds` are the detail arrays in the order in which they are added. -/
def imranH (h : List (Arr M)) (a : Nat) (ds : List Nat) : Py (List (Arr M) × Nat) := do
  let h ← ds.foldlM (Heap.iadd a) h
  pure (h, a)

end Pywt
