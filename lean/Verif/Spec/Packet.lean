import Verif.Model.Packet

/-!
# Vocabulary for wavelet packets

`PKind.along k x path`: start from `x` and at every token of the path decompose and keep the part that
the token names.  It knows nothing of trees.
-/

namespace Pywt.Spec

/-- The iterated decomposition of `x` along a path. -/
def _root_.Pywt.PKind.along {P D : Type} (k : PKind P D) : D → List P → Py D
  | x, [] => .ok x
  | x, q :: qs =>
    match k.dec x with
    | .error e => .error e
    | .ok c => k.along (c q) qs

/-- All words of length `n`, in lexicographic order. -/
def wordsOf {α : Type} (letters : List α) : ℕ → List (List α)
  | 0 => [[]]
  | n + 1 => letters.flatMap fun q => (wordsOf letters n).map (q :: ·)

/-- An operation that does not assign or delete nodes. -/
def _root_.Pywt.POp.ReadOnly {P D : Type} : POp P D → Prop
  | .set _ _ => False
  | .del _ => False
  | .reconstruct _ update => update = false
  | _ => True

/-- An operation that does not assign or delete nodes, reconstruction with `update=True` allowed. -/
def _root_.Pywt.POp.NoEdit {P D : Type} : POp P D → Prop
  | .set _ _ => False
  | .del _ => False
  | _ => True

/-- A node of the tree that has no subnodes. -/
def Leaf {P D : Type} (t : PTree P D) (r : List P) : Prop := (t r).isSome ∧ ∀ q, t (r ++ [q]) = none

/-- `r` is to the left of `s` in the tree: where the paths part, `r` takes an earlier part. -/
def LeftOf {P : Type} (parts : List P) (r s : List P) : Prop :=
  ∃ c q q' u v, r = c ++ q :: u ∧ s = c ++ q' :: v ∧ [q, q'].Sublist parts

variable {R M : Type} [Ring R] [AddCommGroup M] [Module R M]

/-- Repeated 1-D `dwt` along an axis: `a` keeps the approximation, any other letter the detail. -/
def iterDwt (w : Wavelet R) (mode : Mode) (axis : ℤ) : Arr M → List Char → Py (Arr M)
  | x, [] => .ok x
  | x, c :: cs =>
    match dwtA w mode axis x with
    | .error e => .error e
    | .ok (cA, cD) => iterDwt w mode axis (if c = 'a' then cA else cD) cs

/-- Repeated `dwt2`, keeping the approximation (`a`) or the horizontal, vertical or diagonal detail. -/
def iterDwt2 (w : Wavelet R) (mode : Mode) (axes : List ℤ) : Arr M → List Char → Py (Arr M)
  | x, [] => .ok x
  | x, c :: cs =>
    match dwt2 x (.one w) (.one mode) axes with
    | .error e => .error e
    | .ok (cA, (cH, cV, cD)) =>
      iterDwt2 w mode axes (if c = 'a' then cA else if c = 'h' then cH else if c = 'v' then cV else cD) cs

/-- Repeated `dwtn`, keeping the subband with the given name. -/
def iterDwtn (w : Wavelet R) (mode : Mode) (axes : List ℤ) : Arr M → List Key → Py (Arr M)
  | x, [] => .ok x
  | x, c :: cs =>
    match dwtn x (.one w) (.one mode) (some axes) with
    | .error e => .error e
    | .ok d => iterDwtn w mode axes ((d.lookup c).getD x) cs

/-- Two words that differ in exactly one position. -/
def DifferInOne {α : Type} (u v : List α) : Prop :=
  ∃ pre a b post, u = pre ++ a :: post ∧ v = pre ++ b :: post ∧ a ≠ b

/-- The 2-D node letter for a row filter and a column filter (`l`ow or `h`igh). -/
def joinLetter (row col : Char) : Char :=
  if row = 'h' then (if col = 'h' then 'd' else 'h') else (if col = 'h' then 'v' else 'a')

end Pywt.Spec
