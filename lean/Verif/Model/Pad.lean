import Verif.Model.Dwt

/-!
# Model of `pad` (`pywt/_dwt.py` L404-516) for 1-D signals
-/

namespace Pywt

variable {M : Type}

/-- The modes of `numpy.pad` that `pad` uses. -/
inductive NpMode
  | constant | edge | wrap | symmetric | reflect | reflectOdd
  deriving DecidableEq

/-- Position `p` of the signal extended by `numpy.pad`, in its documented meaning: zeros, the edge value, the signal
repeated, mirrored at the edges with or without repeating the edge value, or mirrored through the edge value
(`reflect_type='odd'`).  A position beyond an edge is sent back across that edge until it lies in the signal.
NumPy is not part of the code; the fuel bounds the number of crossings. -/
def npAt [AddCommGroup M] (m : NpMode) (x : List M) : ℕ → ℤ → M
  | 0, _ => 0
  | fuel + 1, p =>
    let N : ℤ := x.length
    if 0 ≤ p ∧ p < N then x.getD p.toNat 0
    else match m with
      | .constant => 0
      | .edge => if p < 0 then x.getD 0 0 else x.getD (x.length - 1) 0
      | .wrap => if p < 0 then npAt m x fuel (p + N) else npAt m x fuel (p - N)
      | .symmetric => if p < 0 then npAt m x fuel (-1 - p) else npAt m x fuel (2 * N - 1 - p)
      | .reflect => if p < 0 then npAt m x fuel (-p) else npAt m x fuel (2 * (N - 1) - p)
      | .reflectOdd =>
        if p < 0 then x.getD 0 0 + x.getD 0 0 - npAt m x fuel (-p)
        else x.getD (x.length - 1) 0 + x.getD (x.length - 1) 0 - npAt m x fuel (2 * (N - 1) - p)

/-- `np.pad(x, (l, r), mode)`: an empty signal cannot be extended by anything but zeros, a single sample is repeated
in the mirroring modes. -/
def npPad [AddCommGroup M] (m : NpMode) (x : List M) (l r : ℕ) : Py (List M) :=
  if x.length = 0 ∧ m ≠ .constant ∧ (0 < l ∨ 0 < r) then .error .value
  else
    let m := if x.length = 1 ∧ (m = .symmetric ∨ m = .reflect ∨ m = .reflectOdd) then .edge else m
    .ok ((List.range (l + x.length + r)).map fun i : ℕ => npAt m x (2 * (l + x.length + r) + 2) ((i : ℤ) - l))

/-- `v[i]` for a NumPy vector: negative positions count from the end. -/
def vecGet [Zero M] (v : List M) (i : ℤ) : Py M :=
  if 0 ≤ i ∧ i < v.length then .ok (v.getD i.toNat 0)
  else if i < 0 ∧ 0 ≤ i + v.length then .ok (v.getD (i + v.length).toNat 0)
  else .error .index

/-- `pad_smooth` (_dwt.py L468-480), called by `np.pad` with the signal between zeros.  The slice `vector[-0:]` is the
whole vector, to which nothing of length zero can be assigned. -/
def padSmooth [AddCommGroup M] (vector : List M) (l r : ℕ) : Py (List M) := do
  let left ← vecGet vector l
  let next ← vecGet vector ((l : ℤ) + 1)
  let slope_left := left - next
  let vector := ((List.range l).map fun i => left + (l - i) • slope_left) ++ vector.drop l
  let right ← vecGet vector (-(r : ℤ) - 1)
  let prev ← vecGet vector (-(r : ℤ) - 2)
  let slope_right := right - prev
  if r = 0 then throw .value
  .ok (vector.take (vector.length - r) ++ (List.range r).map fun i => right + (i + 1) • slope_right)

/-- `vp[a:b] *= -1` for non-negative bounds. -/
def negSlice [Neg M] (v : List M) (a b : ℕ) : List M :=
  v.mapIdx fun i y => if a ≤ i ∧ i < b then -y else y

/-- The loop over the segments on the right (_dwt.py L494-501); `e` is `r_edge + 1`. -/
def flipRight [Neg M] (seg : ℕ) : ℕ → ℕ → ℕ → List M → Py (List M)
  | 0, _, _, _ => .error (.c .fuel)
  | fuel + 1, n, e, vp =>
    if e ≤ vp.length + 1 then
      let vp' := if n % 2 = 1 then negSlice vp e (min (e + seg) vp.length) else vp
      flipRight seg fuel (n + 1) (e + seg) vp'
    else .ok vp

/-- The loop over the segments on the left (_dwt.py L503-510); `l_edge` may become negative. -/
def flipLeft [Neg M] (seg : ℕ) : ℕ → ℕ → ℤ → List M → Py (List M)
  | 0, _, _, _ => .error (.c .fuel)
  | fuel + 1, n, e, vp =>
    if 0 ≤ e then
      let vp' := if n % 2 = 1 then negSlice vp (max 0 (e - seg)).toNat e.toNat else vp
      flipLeft seg fuel (n + 1) (e - seg) vp'
    else .ok vp

/-- `vector[l:-r]`: for `r = 0` this is `vector[l:0]`. -/
def sliceInner (v : List M) (l r : ℕ) : List M :=
  if r = 0 then [] else (v.take (v.length - r)).drop l

/-- `pad_antisymmetric` (_dwt.py L482-511), called by `np.pad` with the signal between zeros. -/
def padAntisymmetric [AddCommGroup M] (vector : List M) (l r : ℕ) : Py (List M) := do
  let seg := vector.length - l - r
  let padded ← npPad .symmetric (sliceInner vector l r) l r
  if padded.length ≠ vector.length then throw .value
  let vp ← flipRight seg (vector.length + 3) 1 (l + seg) padded
  flipLeft seg (vector.length + 3) 1 l vp

/-- `np.pad(x, (l, r), function)`: the function is called on the signal between zeros. -/
def npPadWith [Zero M] (f : List M → ℕ → ℕ → Py (List M)) (x : List M) (l r : ℕ) : Py (List M) :=
  f (List.replicate l 0 ++ x ++ List.replicate r 0) l r

/-- The choice by mode (_dwt.py L452-515). -/
def padMode [AddCommGroup M] (x : List M) (l r : ℕ) (mode : String) : Py (List M) :=
  if mode = "symmetric" then npPad .symmetric x l r
  else if mode = "reflect" then npPad .reflect x l r
  else if mode = "periodic" then npPad .wrap x l r
  else if mode = "periodization" then do
    let x ← npPad .edge x 0 (x.length % 2)
    npPad .wrap x l r
  else if mode = "zero" then npPad .constant x l r
  else if mode = "constant" then npPad .edge x l r
  else if mode = "smooth" then npPadWith padSmooth x l r
  else if mode = "antisymmetric" then npPadWith padAntisymmetric x l r
  else if mode = "antireflect" then npPad .reflectOdd x l r
  else .error .value

/-- `pad` (_dwt.py L404-516) for a 1-D signal and the pair of widths that its `pad_widths` argument stands for. -/
def pad [AddCommGroup M] (x : List M) (l r : ℤ) (mode : String) : Py (List M) :=
  if l < 0 ∨ r < 0 then .error .value
  else padMode x l.toNat r.toNat mode

end Pywt
