import Verif.Model.Common
import Mathlib.Analysis.SpecialFunctions.Trigonometric.Basic
import Mathlib.Analysis.SpecialFunctions.Sqrt

/-!
# Model of `pywt/data/_wavelab_signals.py` and `pywt/data/_readers.py`

Vectors are lists of real numbers.  The samples are computed exactly; the number of samples of `np.arange` with a step
that is not an integer is computed with a rounding `fl`, because it depends on it.  NumPy gives NaN or infinity with a
warning where the model divides by zero or takes the root of a negative number (Lean's value is then 0).
-/

namespace Pywt

/-- `np.arange(start, stop, step)` for floats: the length is `ceil((stop - start) / step)`, computed in floating point. -/
noncomputable def arangeF (fl : ℝ → ℝ) (start stop step : ℝ) : List ℝ :=
  (List.range ⌈fl (fl (stop - start) / step)⌉.toNat).map fun i : ℕ => start + i * step

/-- `np.arange(a, b)` for integers. -/
def arangeI (a b : ℤ) : List ℝ := (List.range (b - a).toNat).map fun i : ℕ => ((a + i : ℤ) : ℝ)

/-- A binary operation on two vectors: NumPy repeats a vector of length one. -/
def bop (f : ℝ → ℝ → ℝ) (a b : List ℝ) : Py (List ℝ) :=
  if a.length = b.length then .ok (List.zipWith f a b)
  else if a.length = 1 then .ok (b.map (f (a.getD 0 0)))
  else if b.length = 1 then .ok (a.map fun x => f x (b.getD 0 0))
  else .error .value

/-- `f[a:b] = v` for `a`, `b` not negative: bounds beyond the end are cut, a vector of length one is repeated. -/
def setSlice (f : List ℝ) (a b : ℕ) (v : List ℝ) : Py (List ℝ) :=
  let a := min a f.length
  let b := min b f.length
  if v.length = b - a then .ok (f.take a ++ v ++ f.drop (max a b))
  else if v.length = 1 then .ok (f.take a ++ List.replicate (b - a) (v.getD 0 0) ++ f.drop (max a b))
  else .error .value

/-- The bound of a slice with step `-1`: negative numbers count from the end. -/
def revBound (len : ℕ) (i : ℤ) : ℤ :=
  if i < 0 then max (i + len) (-1) else min i (len - 1)

/-- `f[hi:lo:-1] = v`: the positions `hi, hi-1, …, lo+1`. -/
def setSliceRev (f : List ℝ) (hi lo : ℤ) (v : List ℝ) : Py (List ℝ) :=
  let hi := revBound f.length hi
  let lo := revBound f.length lo
  let v := if v.length = 1 then List.replicate (hi - lo).toNat (v.getD 0 0) else v
  if v.length = (hi - lo).toNat then
    .ok (f.mapIdx fun i y => if lo < i ∧ (i : ℤ) ≤ hi then v.getD (hi - i).toNat 0 else y)
  else .error .value

/-- `f[hi::-1]`. -/
def revFrom (f : List ℝ) (hi : ℤ) : List ℝ := (f.take (revBound f.length hi + 1).toNat).reverse

/-- `f[idx] = v` for a list of positions. -/
def setAt (f : List ℝ) (idx : List ℕ) (v : List ℝ) : Py (List ℝ) :=
  if idx.all (· < f.length) then
    .ok ((idx.zip v).foldl (fun f p => f.set p.1 p.2) f)
  else .error .index

/-- `np.sign`. -/
noncomputable def npSign (t : ℝ) : ℝ := if t < 0 then -1 else if 0 < t then 1 else 0

/-- The signals (_wavelab_signals.py L6-26). -/
inductive Demo
  | blocks | bumps | heavisine | doppler | ramp | hisine | losine | linchirp | twochirp | quadchirp | mishmash
  | wernersorrows | hypchirps | linchirps | chirps | gabor | sineoneoverx | pieceRegular | piecePolynomial | riemann
  deriving DecidableEq

/-- `_implemented_signals` (_wavelab_signals.py L6-26). -/
def demoList : List String :=
  ["Blocks", "Bumps", "HeaviSine", "Doppler", "Ramp", "HiSine", "LoSine", "LinChirp", "TwoChirp", "QuadChirp", "MishMash",
    "WernerSorrows", "HypChirps", "LinChirps", "Chirps", "Gabor", "sineoneoverx", "Piece-Regular", "Piece-Polynomial",
    "Riemann"]

/-- The names compared with in the chain of `if`s (_wavelab_signals.py L97-266). -/
def demoTable : List (String × Demo) :=
  [("blocks", .blocks), ("bumps", .bumps), ("heavisine", .heavisine), ("doppler", .doppler), ("ramp", .ramp),
    ("hisine", .hisine), ("losine", .losine), ("linchirp", .linchirp), ("twochirp", .twochirp), ("quadchirp", .quadchirp),
    ("mishmash", .mishmash), ("wernersorrows", .wernersorrows), ("hypchirps", .hypchirps), ("linchirps", .linchirps),
    ("chirps", .chirps), ("gabor", .gabor), ("sineoneoverx", .sineoneoverx), ("piece-regular", .pieceRegular),
    ("piece-polynomial", .piecePolynomial), ("riemann", .riemann)]

/-- `name.lower()`, for ASCII letters. -/
def lowerName (s : String) : List Char := s.toList.map Char.toLower

/-- The branch taken for a name in lower case. -/
def demoOf (l : List Char) : Option Demo := (demoTable.find? fun p => p.1.toList = l).map (·.2)

/-- The argument `n`: an `int` or a `float`. -/
inductive NArg
  | int (k : ℤ)
  | float (q : ℚ)

/-- Positions of the features of Blocks, Bumps and WernerSorrows (_wavelab_signals.py L98, L104, L134). -/
noncomputable def demoPos : List ℝ :=
  [0.1, 0.13, 0.15, 0.23, 0.25, 0.4, 0.44, 0.65, 0.76, 0.78, 0.81]

/-- Heights of the steps of Blocks (L99). -/
noncomputable def blocksHgt : List ℝ := [4, -5, 3, -4, 5, -4.2, 2.1, 4.3, -3.1, 2.1, -4.2]

/-- Heights of the bumps (L105, L135). -/
noncomputable def bumpsHgt : List ℝ := [4, 5, 3, 4, 5, 4.2, 2.1, 4.3, 3.1, 5.1, 4.2]

/-- Widths of the bumps (L106, L136). -/
noncomputable def bumpsWth : List ℝ := [0.005, 0.005, 0.006, 0.01, 0.01, 0.03, 0.01, 0.01, 0.005, 0.008, 0.005]

/-- One sample of Bumps (L107-109, L137-138). -/
noncomputable def bumpsAt (t : ℝ) : ℝ :=
  ((demoPos.zip (bumpsHgt.zip bumpsWth)).map fun q => q.2.1 / (1 + |(t - q.1) / q.2.2|) ^ 4).sum

open Real in
/-- The signals computed sample by sample from `t` (_wavelab_signals.py L97-138): the sample at `t`.  The
last case is not reached. -/
noncomputable def demoAt (n t : ℝ) : Demo → ℝ
  | .blocks => ((demoPos.zip blocksHgt).map fun q => q.2 * (1 + npSign (t - q.1)) / 2).sum
  | .bumps => bumpsAt t
  | .heavisine => 4 * sin (4 * π * t) - npSign (t - 0.3) - npSign (0.72 - t)
  | .doppler => sqrt (t * (1 - t)) * sin (2 * π * 1.05 / (t + 0.05))
  | .ramp => t - if 0.37 ≤ t then 1 else 0
  | .hisine => sin (π * (n * 0.6902) * t)
  | .losine => sin (π * (n * 0.3333) * t)
  | .linchirp => sin (π * t * (n * 0.500 * t))
  | .twochirp => sin (π * t * (n * t)) + sin (π / 3 * t * (n * t))
  | .quadchirp => sin (π / 3 * t * (n * t ^ 2))
  | .mishmash =>
    sin (π / 3 * t * (n * t ^ 2)) + sin (π * (n * 0.6902) * t) + sin (π * t * (n * 0.125 * t))
  | .wernersorrows =>
    sin (π * t * (n / 2 * t ^ 2)) + sin (π * (n * 0.6902) * t) + sin (π * t * (n * t)) + bumpsAt t
  | _ => 0

/-- `int(np.round(0.65 * n))`: rounding half to even; the product is taken exactly. -/
def round065 (n : ℕ) : ℕ :=
  let q := 13 * n / 20
  let r := 13 * n % 20
  if r < 10 then q else if 10 < r then q + 1 else q + q % 2

/-- `int(np.round(np.sqrt(n)))`: the nearest integer to the root, which never lies in the middle between two. -/
def roundSqrt (n : ℕ) : ℕ := if n ≤ n.sqrt * n.sqrt + n.sqrt then n.sqrt else n.sqrt + 1

open Real in
/-- HypChirps (_wavelab_signals.py L139-156).  `np.arange(1.001, n + .001 + 1)` has `ceil(n + .001 + 1 - 1.001)` elements,
computed in floating point. -/
noncomputable def hypChirps (fl : ℝ → ℝ) (n : ℕ) : Py (List ℝ) := do
  let alpha := 15 * n * π / 1024
  let beta := 5 * n * π / 1024
  let t := (arangeF fl (fl 1.001) (fl (fl (n + fl 0.001) + 1)) 1).map (fun x : ℝ => x / n)
  let f1 := t.map fun t => sin (alpha / (0.8 - t)) * (if 0.1 < t then 1 else 0) * (if t < 0.68 then 1 else 0)
  let f2 := t.map fun t => sin (beta / (0.8 - t)) * (if 0.1 < t then 1 else 0) * (if t < 0.75 then 1 else 0)
  let m := round065 n
  let p := m / 4
  let envelope := List.replicate m 1
  let tmp := (arangeI 1 (p + 1)).map (· - 1)
  let envelope ← setSlice envelope 0 p (tmp.map fun x => (1 + sin (-π / 2 + x / (p - 1) * π)) / 2)
  let envelope ← setSlice envelope (m - p) m (envelope.take p).reverse
  let env := List.replicate n 0
  let c := (n + 9) / 10
  let env ← setSlice env (c - 1) (m + c - 1) (envelope.take m)
  let f ← bop (· + ·) f1 f2
  bop (· * ·) f env

open Real in
/-- LinChirps (_wavelab_signals.py L157-162). -/
noncomputable def linChirps (n : ℕ) : List ℝ :=
  let b := 100 * n * π / 1024
  let a := 250 * n * π / 1024
  let t := (arangeI 1 (n + 1)).map (fun x : ℝ => x / n)
  t.map fun t => sqrt ((t - 1 / n) * (1 - t)) * (cos (a * t ^ 2) + cos (b * t + a * t ^ 2))

open Real in
/-- Chirps (_wavelab_signals.py L163-183). -/
noncomputable def chirps (n : ℕ) : Py (List ℝ) := do
  let t := (arangeI 1 (n + 1)).map fun x => x / n * 10 * π
  let f1 := t.map fun t => cos (t ^ 2 * n / 1024)
  let a : ℝ := 30 * n / 1024
  let t := (arangeI 1 (n + 1)).map fun x => x / n * π
  let f2 := (t.map fun t => cos (a * t ^ 3)).reverse
  let ix := (arangeI (-n) (n + 1)).map fun x : ℝ => x / n * 20
  let g := ix.map fun x => exp (-x ^ 2 * 4 * n / 1024)
  let j := (arangeI 1 (n + 1)).map (fun x : ℝ => x / n)
  let f3 ← bop (· * ·) ((g.drop (n / 2)).take n) (j.map fun j => cos (50 * π * j * n / 1024))
  let f4 ← bop (· * ·) ((g.drop (n / 8)).take n) (j.map fun j => cos (350 * π * j * n / 1024))
  let f ← bop (· + ·) f1 f2
  let f ← bop (· + ·) f f3
  let f ← bop (· + ·) f f4
  let envelope := List.replicate n 1
  let tmp := (arangeI 1 (n / 8 + 1)).map (· - 1)
  let envelope ← setSlice envelope 0 (n / 8) (tmp.map fun x => (1 + sin (-π / 2 + x / (n / 8 - 1) * π)) / 2)
  let envelope ← setSlice envelope (7 * n / 8) n (envelope.take (n / 8)).reverse
  bop (· * ·) f envelope

/-- Gabor (_wavelab_signals.py L184-193), real and imaginary parts; `n = 512`. -/
noncomputable def gabor : List (ℝ × ℝ) :=
  let n := 512
  let t := (arangeI (-n) (n + 1)).map fun x => x * 5 / 512
  let g := t.map fun t => Real.exp (-t ^ 2 * 20)
  let j := (arangeI 1 (n + 1)).map (· / 512)
  let f1 := List.zipWith (fun g j => (3 * g * Real.cos (32 * Real.pi * j), 3 * g * Real.sin (32 * Real.pi * j)))
    ((g.drop 256).take 512) j
  let f2 := List.zipWith (fun g j => (3 * g * Real.cos (128 * Real.pi * j), 3 * g * Real.sin (128 * Real.pi * j)))
    ((g.drop 128).take 512) j
  List.zipWith (· + ·) f1 f2

/-- sineoneoverx (_wavelab_signals.py L194-200); `n = 1024`. -/
noncomputable def sineOneOverX : List ℝ :=
  let i1 := (arangeI (-1024 + 1) (1024 + 1)).map fun i => (if i = 0 then 1 / 100 else i) / (1024 - 1)
  let f := i1.map fun i => Real.sin (1.5 / i)
  (f.drop 512).take (1536 - 512)

/-- Piece-Regular (_wavelab_signals.py L201-231).  `np.fix(n / k)` is the quotient of the integers. -/
noncomputable def pieceRegular (fl : ℝ → ℝ) (n : ℕ) (bumps : List ℝ) : Py (List ℝ) := do
  let f := List.replicate n 0
  let n12 := n / 12
  let n7 := n / 7
  let n5 := n / 5
  let n3 := n / 3
  let n2 := n / 2
  let n20 := n / 20
  let f1 := bumps.map (-15 * ·)
  let t := (arangeI 1 (n12 + 1)).map (fun x : ℝ => x / n12)
  let f2 := t.map fun t => -Real.exp (4 * t)
  let t := (arangeI 1 (n7 + 1)).map (fun x : ℝ => x / n7)
  let f5 := t.map fun t => Real.exp (4 * t) - Real.exp 4
  let t := (arangeI 1 (n3 + 1)).map (fun x : ℝ => x / n3)
  let fma : ℝ := 6 / 40
  let f6 := t.map fun t => -70 * Real.exp (-((t - 0.5) * (t - 0.5)) / (2 * fma ^ 2))
  let f ← setSlice f 0 n7 (f6.take n7)
  let f ← setSlice f n7 n5 (((f6.take n5).drop n7).map (0.5 * ·))
  let f ← setSlice f n5 n3 ((f6.take n3).drop n5)
  let f ← setSlice f n3 n2 ((f1.take n2).drop n3)
  let f ← setSlice f n2 (n2 + n12) f2
  let f ← setSliceRev f (n2 + 2 * n12 - 1) (n2 + n12 - 1) f2
  let f ← setSlice f (n2 + 2 * n12 + n20) (n2 + 2 * n12 + 3 * n20)
    (List.replicate (n2 + 2 * n12 + 3 * n20 - n2 - 2 * n12 - n20) (-1 * 25))
  let k := n2 + 2 * n12 + 3 * n20
  let f ← setSlice f k (k + n7) f5
  let diff : ℤ := n - 5 * n5
  let f ← setSlice f (5 * n5) n (revFrom f (diff - 1))
  let bias := f.sum / n
  pure (f.map (bias - ·))

/-- Piece-Polynomial (_wavelab_signals.py L232-255). -/
noncomputable def piecePolynomial (n : ℕ) : Py (List ℝ) := do
  let f := List.replicate n 0
  let n5 := n / 5
  let n10 := n / 10
  let n20 := n / 20
  let t := (arangeI 1 (n5 + 1)).map (fun x : ℝ => x / n5)
  let f1 := t.map fun t => 20 * (t ^ 3 + t ^ 2 + 4)
  let f3 := t.map fun t => 40 * (2 * t ^ 3 + t) + 100
  let f2 := t.map fun t => 10 * t ^ 3 + 45
  let f4 := t.map fun t => 16 * t ^ 2 + 8 * t + 16
  let f5 := t.map fun t => 20 * (t + 4)
  let f ← setSlice f 0 n5 f1
  let f ← setSliceRev f (2 * n5 - 1) (n5 - 1) f2
  let f ← setSlice f (2 * n5) (3 * n5) f3
  let f ← setSlice f (3 * n5) (4 * n5) f4
  let f ← setSlice f (4 * n5) (5 * n5) (revFrom f5 n5)
  let diff : ℤ := n - 5 * n5
  let f ← setSlice f (5 * n5) n (revFrom f (diff - 1))
  let f ← setSlice f n20 (n20 + n10) (List.replicate n10 10)
  let f ← setSlice f (n - n10) (n + n20 - n10) (List.replicate n20 150)
  let bias := f.sum / n
  pure (f.map (· - bias))

/-- Riemann (_wavelab_signals.py L256-263); `ifft` by its definition. -/
noncomputable def riemann (n : ℕ) (t : List ℝ) : Py (List ℝ) := do
  let sqn := roundSqrt n
  let idx := (List.range sqn).map fun i => (i + 1) * (i + 1)
  let f := t.map fun _ => 0
  let f ← setAt f (idx.map (· - 1)) ((List.range sqn).map fun i : ℕ => 1 / ((i : ℝ) + 1))
  pure ((List.range f.length).map fun j : ℕ =>
    ((List.range f.length).map fun k : ℕ => f.getD k 0 * Real.cos (2 * Real.pi * j * k / f.length)).sum / f.length)

/-- What `demo_signal` returns. -/
inductive DemoOut
  | names (l : List String)
  | real (f : List ℝ)
  | complex (f : List (ℝ × ℝ))

/-- The times `np.arange(1/n, 1 + 1/n, 1/n)` (_wavelab_signals.py L84). -/
noncomputable def demoTimes (fl : ℝ → ℝ) (n : ℕ) : List ℝ :=
  arangeF fl (fl (1 / n)) (fl (1 + fl (1 / n))) (fl (1 / n))

/-- The signal for a valid `n` (_wavelab_signals.py L97-266).  A `float` cannot be the length of `np.zeros` or `np.ones`
nor the bound of a slice. -/
noncomputable def demoBody (fl : ℝ → ℝ) (d : Demo) (isInt : Bool) (n : ℕ) : Py DemoOut :=
  let t := demoTimes fl n
  match d with
  | .hypchirps => if isInt then DemoOut.real <$> hypChirps fl n else .error .type
  | .linchirps => .ok (.real (linChirps n))
  | .chirps => if isInt then DemoOut.real <$> chirps n else .error .type
  | .gabor => .ok (.complex gabor)
  | .sineoneoverx => .ok (.real sineOneOverX)
  | .pieceRegular => if isInt then DemoOut.real <$> pieceRegular fl n (t.map bumpsAt) else .error .type
  | .piecePolynomial => if isInt then DemoOut.real <$> piecePolynomial n else .error .type
  | .riemann => DemoOut.real <$> riemann n t
  | d => .ok (.real (t.map fun t => demoAt n t d))

/-- `n < 1 or (n % 1) != 0` (_wavelab_signals.py L82): the integer and whether it is an `int`. -/
def NArg.check : NArg → Py (Bool × ℕ)
  | .int k => if k < 1 then .error .value else .ok (true, k.toNat)
  | .float q => if q < 1 ∨ q.den ≠ 1 then .error .value else .ok (false, q.num.toNat)

/-- `demo_signal` (_wavelab_signals.py L29-267). -/
noncomputable def demoSignal (fl : ℝ → ℝ) (name : String) (n : Option NArg) : Py DemoOut := do
  let l := lowerName name
  if l = "list".toList then return .names demoList
  let n ← match n with
    | none => pure none
    | some n => some <$> n.check
  let fixed := l = "gabor".toList ∨ l = "sineoneoverx".toList
  if fixed ∧ n.isSome then throw .value
  else if ¬fixed ∧ n.isNone then throw .value
  match demoOf l with
  | none => throw .value
  | some d =>
    match n with
    | none => demoBody fl d true 0
    | some (isInt, n) => demoBody fl d isInt n

/-- The readers (_readers.py). -/
inductive Reader
  | ascent | aero | camera | ecg | nino
  deriving DecidableEq

/-- The cache of `functools.cache` (_readers.py L10, L50, L87, L135, L167): the arrays loaded so far.  The cached object itself is
returned. -/
abbrev ReaderCache (M : Type) := Reader → Option (List M)

/-- What a program does: it calls a reader, or writes to an entry of the array a reader has returned to it. -/
inductive DataOp (M : Type)
  | call (r : Reader)
  | write (r : Reader) (i : ℕ) (v : M)

/-- A call: the cached array, or the array in the file, which is then cached. -/
def readerCall {M : Type} (file : Reader → List M) (c : ReaderCache M) (r : Reader) : List M × ReaderCache M :=
  match c r with
  | some a => (a, c)
  | none => (file r, Function.update c r (some (file r)))

/-- One step; a program that has not called the reader has no array to write to. -/
def dataStep {M : Type} (file : Reader → List M) (c : ReaderCache M) : DataOp M → ReaderCache M
  | .call r => (readerCall file c r).2
  | .write r i v => Function.update c r ((c r).map fun a => a.set i v)

/-- The cache after a history. -/
def dataRun {M : Type} (file : Reader → List M) (h : List (DataOp M)) : ReaderCache M :=
  h.foldl (dataStep file) fun _ => none

end Pywt
