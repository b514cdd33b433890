import Verif.Model.Fs
import Verif.Spec.AxisMulti

/-!
# Specification: the fully separable transform

Along each of its axes the transform replaces every line by the concatenation of the arrays
`[cA_n, cD_n, …, cD_1]` of its 1-D multilevel transform.
-/

namespace Pywt
open Spec

variable {R M : Type} [Ring R] [AddCommGroup M] [Module R M]

/-- One axis of a fully separable transform: the axis number as given by the caller, the level as
given, wavelet and mode; and what they denote: the axis `ax` and the number of levels `n`. -/
structure FsAxis (R : Type) where
  arg : ℤ
  level : Option ℤ
  w : Wavelet R
  mode : Mode
  ax : ℕ
  n : ℕ

/-- The arguments of a call denote the given list of axes of an array of the given shape: no list of
axes means all axes, negative axes count from the end, one level, wavelet or mode is used for all axes,
and no level means the maximal one. -/
def FsResolves (shape : List ℕ) (wavelet : PerAxis (Wavelet R)) (mode : PerAxis Mode)
    (levels : PerAxis (Option ℤ)) (axes : Option (List ℤ)) (ps : List (FsAxis R)) : Prop :=
  (match axes with
    | none => ps.map (·.arg) = (List.range shape.length).map fun k : ℕ => (k : ℤ)
    | some l => ps.map (·.arg) = l) ∧
  (match levels with
    | .one l => ∀ p ∈ ps, p.level = l
    | .many ls => ps.map (·.level) = ls) ∧
  wavelet.expand ps.length = .ok (ps.map (·.w)) ∧
  mode.expand ps.length = .ok (ps.map (·.mode)) ∧
  (∀ p ∈ ps, AxisIs shape.length p.arg p.ax ∧
    match p.level with
    | some l => l = (p.n : ℤ)
    | none => dwtMaxLevel (shape.getD p.ax 0) p.w.dec_len = .ok p.n) ∧
  (ps.map (·.ax)).Nodup

/-- Every axis can be decomposed to its level. -/
def FsOk (shape : List ℕ) (ps : List (FsAxis R)) : Prop :=
  ∀ p ∈ ps, p.w.Ok ∧ LevelsOk p.mode p.w.dec_len (shape.getD p.ax 0) p.n

/-- The lengths of the coefficient arrays `[cA_n, cD_n, …, cD_1]` of a line of `N` samples. -/
def cascadeLens (mode : Mode) (F N n : ℕ) : List ℕ :=
  approxLen mode F N n :: ((List.range n).map fun j => approxLen mode F N (j + 1)).reverse

/-- The concatenation of the coefficient arrays of every line, axis after axis. -/
def Arr.fsTransform (ps : List (FsAxis R)) (x : Arr M) : Arr M :=
  ps.foldl (fun y p => y.along p.ax (cascadeLens p.mode p.w.dec_len (x.shape.getD p.ax 0) p.n).sum
    fun l => (cascade p.mode p.w.dec_lo p.w.dec_hi p.n l).flatten) x

/-- The subband of a key: along each axis only the coefficient array with the given number is kept
(0 is the approximation, `j` is the detail array of level `n - j + 1`). -/
def Arr.fsSubband (ps : List (FsAxis R)) (key : List ℕ) (x : Arr M) : Arr M :=
  (ps.zip key).foldl (fun y q =>
    y.along q.1.ax ((cascadeLens q.1.mode q.1.w.dec_len (x.shape.getD q.1.ax 0) q.1.n).getD q.2 0)
      fun l => (cascade q.1.mode q.1.w.dec_lo q.1.w.dec_hi q.1.n l).getD q.2 []) x

/-- A list cut into pieces of the given lengths. -/
def chunks {α : Type} : List ℕ → List α → List (List α)
  | [], _ => []
  | n :: ns, l => l.take n :: chunks ns (l.drop n)

/-- The inverse multilevel transform of a line that is the concatenation of arrays of the given
lengths. -/
def recombineLine (mode : Mode) (lo hi : List R) (lens : List ℕ) (l : List M) : List M :=
  match chunks lens l with
  | [] => []
  | a :: ds => recombine mode lo hi a ds

/-- The inverse transform of an array of coefficients, axis after axis; `shape` is the shape of the
data that were transformed. -/
def Arr.fsInverse (ps : List (FsAxis R)) (shape : List ℕ) (c : Arr M) : Arr M :=
  ps.foldl (fun y p =>
    y.along p.ax (shape.getD p.ax 0 + if p.n = 0 then 0 else shape.getD p.ax 0 % 2)
      (recombineLine p.mode p.w.rec_lo p.w.rec_hi
        (cascadeLens p.mode p.w.dec_len (shape.getD p.ax 0) p.n))) c

/-- The keys of a transform with the given levels. -/
def FsKey (ps : List (FsAxis R)) (key : List ℕ) : Prop :=
  List.Forall₂ (fun (p : FsAxis R) (l : ℕ) => l ≤ p.n) ps key

/-- The slices that cut a line into arrays of the given lengths. -/
def sliceTable (ns : List ℕ) : List Slice :=
  (List.range ns.length).map fun j => ⟨(ns.take j).sum, some ((ns.take (j + 1)).sum)⟩

/-- The result objects a caller can hold: what `fswavedecn` returned, after any sequence of
assignments to items (`r[key] = v`) and to `r.coeffs`. -/
inductive FsHeld (x : Arr M) (wavelet : PerAxis (Wavelet R)) (mode : PerAxis Mode)
    (levels : PerAxis (Option ℤ)) (axes : Option (List ℤ)) : FsResult R M → Prop
  | result {r} : fswavedecn x wavelet mode levels axes = .ok r → FsHeld x wavelet mode levels axes r
  | item {r r' key v} : FsHeld x wavelet mode levels axes r → r.setItem key v = .ok r' →
      FsHeld x wavelet mode levels axes r'
  | coeffs {r r' c} : FsHeld x wavelet mode levels axes r → r.setCoeffs c = .ok r' →
      FsHeld x wavelet mode levels axes r'

/-- The shape of the item of a key: along each axis the length of the coefficient array with that
number, along the other axes the shape of the data. -/
def fsItemShape (ps : List (FsAxis R)) (shape : List ℕ) (key : List ℕ) : List ℕ :=
  (ps.zip key).foldl (fun s q => s.set q.1.ax
    ((cascadeLens q.1.mode q.1.w.dec_len (shape.getD q.1.ax 0) q.1.n).getD q.2 0)) shape

end Pywt
