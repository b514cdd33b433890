import Verif.Model.Pack
import Verif.Spec.MultilevelN

/-!
# Specification: packing coefficients into one array

A *box* is an array together with the index at which its first element is placed.
-/

namespace Pywt

variable {M : Type}

/-- An array placed at an index. -/
structure Box (M : Type) where
  lo : ℕ → ℕ
  arr : Arr M

/-- The box covers the index. -/
def Box.Covers (b : Box M) (idx : ℕ → ℕ) : Prop :=
  ∀ k < b.arr.shape.length, b.lo k ≤ idx k ∧ idx k < b.lo k + b.arr.shape.getD k 0

/-- Two boxes have no index in common. -/
def Box.Disjoint (b c : Box M) : Prop := ∀ idx, b.Covers idx → ¬ c.Covers idx

/-- Common shape of the arrays of one level. -/
def levelShape (d : List (Key × Arr M)) : List ℕ :=
  match d with
  | [] => []
  | p :: _ => p.2.shape

/-- The shape `cur` extended along the axes `ax` by the extents `d`. -/
def grow (ax cur d : List ℕ) : List ℕ :=
  cur.mapIdx fun j n => if j ∈ ax then n + d.getD j 0 else n

/-- Place of the subband `key` next to a block of shape `cur`: behind the block on the axes with
letter `d`, at the beginning on all others. -/
def boxLo (ax cur : List ℕ) (key : Key) (j : ℕ) : ℕ :=
  if (j, 'd') ∈ ax.zip key then cur.getD j 0 else 0

/-- The boxes of the details `ds`, the coarser coefficients filling a block of shape `cur`. -/
def detailBoxes (ax : List ℕ) : List ℕ → List (List (Key × Arr M)) → List (Box M)
  | _, [] => []
  | cur, d :: ds => (d.map fun p => ⟨boxLo ax cur p.1, p.2⟩) ++
      detailBoxes ax (grow ax cur (levelShape d)) ds

/-- The boxes of all coefficients: the approximation at the origin, then the details. -/
def allBoxes (ax : List ℕ) (a : Arr M) (ds : List (List (Key × Arr M))) : List (Box M) :=
  ⟨fun _ => 0, a⟩ :: detailBoxes ax a.shape ds

/-- Shape of the packed array. -/
def packedShape (ax : List ℕ) : List ℕ → List (List (Key × Arr M)) → List ℕ
  | cur, [] => cur
  | cur, d :: ds => packedShape ax (grow ax cur (levelShape d)) ds

/-- Details that can be packed next to a block of shape `cur`: on every level the keys are distinct
words over `a`, `d`, not all `a`, one of them all `d`; all arrays of the level have one shape, which
on the transformed axes is at most that of the block built so far and on the others equals it. -/
def Packable (ax : List ℕ) : List ℕ → List (List (Key × Arr M)) → Prop
  | _, [] => True
  | cur, d :: ds =>
      (d.map (·.1)).Nodup ∧
      (∀ p ∈ d, p.1 ∈ words ax.length ∧ p.1 ≠ List.replicate ax.length 'a' ∧
        p.2.shape = levelShape d) ∧
      List.replicate ax.length 'd' ∈ d.map (·.1) ∧
      (levelShape d).length = cur.length ∧
      (∀ j < cur.length, if j ∈ ax then (levelShape d).getD j 0 ≤ cur.getD j 0
        else (levelShape d).getD j 0 = cur.getD j 0) ∧
      Packable ax (grow ax cur (levelShape d)) ds

/-- The coefficients fill the packed array without gaps. -/
def TightPacking (ax : List ℕ) (a : Arr M) (ds : List (List (Key × Arr M))) : Prop :=
  (packedShape ax a.shape ds).prod =
    a.data.length + (ds.map fun d => (d.map fun p => p.2.data.length).sum).sum

/-- `ax` are the axes the argument `axes` refers to: distinct axes of the array. -/
def AxesAre (ndim : ℕ) (axes : Option (List ℤ)) (ax : List ℕ) : Prop :=
  (match axes with
    | none => ax = List.range ndim
    | some l => ax.map (fun n : ℕ => (n : ℤ)) =
        l.map fun a : ℤ => if a < 0 then a + (ndim : ℤ) else a) ∧
  ax.Nodup ∧ ∀ j ∈ ax, j < ndim

/-- One detail array per level, as dicts. -/
def single (ds : List (Arr M)) : List (List (Key × Arr M)) := ds.map fun d => [(['d'], d)]

/-- Triples `(da, ad, dd)` as dicts. -/
def triples (ds : List (Arr M × Arr M × Arr M)) : List (List (Key × Arr M)) :=
  ds.map fun t => [(['a', 'd'], t.2.1), (['d', 'a'], t.1), (['d', 'd'], t.2.2)]

/-- A 1-D array. -/
def Arr.ofList (l : List M) : Arr M := ⟨[l.length], l, by simp⟩

/-- The part of `B` of shape `shape` at `lo`. -/
def Arr.box [Zero M] (B : Arr M) (lo : ℕ → ℕ) (shape : List ℕ) : Arr M :=
  Arr.ofFn shape fun idx => B.get fun k => lo k + idx k

/-- The details read from `B` at the places of `ds`. -/
def rereadDetails [Zero M] (B : Arr M) (ax : List ℕ) :
    List ℕ → List (List (Key × Arr M)) → List (List (Key × Arr M))
  | _, [] => []
  | cur, d :: ds => (d.map fun p => (p.1, B.box (boxLo ax cur p.1) p.2.shape)) ::
      rereadDetails B ax (grow ax cur (levelShape d)) ds

end Pywt
