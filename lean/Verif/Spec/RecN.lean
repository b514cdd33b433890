import Verif.Spec.SwtN

/-!
# Specification: the multilevel n-D synthesis for arbitrary coefficients
-/

namespace Pywt

open Spec

variable {R M : Type} [Ring R] [AddCommGroup M] [Module R M]

/-- One level of n-D synthesis from subbands of shape `S`: the sum of the contributions of all
subbands. -/
def Arr.idwtnStep (st : List (Stage R)) (band : List Char → Arr M) (S : List ℕ) : Arr M :=
  Arr.ofFn (synthShape st S) fun idx =>
    ((words st.length).map fun k => ((band k).resynth st k).get idx).sum

/-- The shape of the subbands of one level: that of the details, if there are any; `sh` is the shape of
the approximation. -/
def detailShape (d : List (List Char × Arr M)) (sh : List ℕ) : List ℕ :=
  match d with
  | [] => sh
  | p :: _ => p.2.shape

/-- Multilevel synthesis from an approximation and dicts of details listed from the coarsest level on:
at every level the approximation is cut to the shape of the details. -/
def waverecnCascade (st : List (Stage R)) : List (List (List Char × Arr M)) → Arr M → Arr M
  | [], a => a
  | d :: ds, a =>
      waverecnCascade st ds (Arr.idwtnStep st
        (bandOf d (a.crop (detailShape d a.shape)) st.length) (detailShape d a.shape))

/-- Extents that agree or exceed by one. -/
def Near (a b : List ℕ) : Prop :=
  a.length = b.length ∧ ∀ j < b.length, a.getD j 0 = b.getD j 0 ∨ a.getD j 0 = b.getD j 0 + 1

/-- The dicts fit together: at every level all details have one shape, the approximation exceeds it by at
most one in every direction, and there are enough coefficients for the wavelets. -/
def RecnFits (st : List (Stage R)) : List (List (List Char × Arr M)) → List ℕ → Prop
  | [], _ => True
  | d :: ds, sh =>
      DictOk d st.length (detailShape d sh) ∧ Near sh (detailShape d sh) ∧
        SynthFits st (detailShape d sh) ∧ RecnFits st ds (synthShape st (detailShape d sh))

/-- The positions of the arrays of `[a] + ds`: `none` for the approximation, `some (j, k)` for the array
with key `k` in dict number `j`. -/
def coefPos (ds : List (List (List Char × Arr M))) : List (Option (ℕ × List Char)) :=
  none :: (List.range ds.length).flatMap fun j => ((ds.getD j []).map (·.1)).map fun k => some (j, k)

/-- The approximation, replaced by zeros unless it is the array at position `i`. -/
def onlyA (a : Arr M) (i : Option (ℕ × List Char)) : Arr M := if i = none then a else Arr.zero a.shape

/-- The dicts of details, all arrays replaced by zeros except the one at position `i`. -/
def onlyD (ds : List (List (List Char × Arr M))) (i : Option (ℕ × List Char)) :
    List (List (List Char × Arr M)) :=
  ds.mapIdx fun j d => d.map fun p => (p.1, if i = some (j, p.1) then p.2 else Arr.zero p.2.shape)

/-- The same for triples `(cH, cV, cD)` of details, whose keys are `da`, `ad` and `dd`. -/
def onlyP (ps : List (Arr M × Arr M × Arr M)) (i : Option (ℕ × List Char)) : List (Arr M × Arr M × Arr M) :=
  let keep (j : ℕ) (k : List Char) (a : Arr M) : Arr M := if i = some (j, k) then a else Arr.zero a.shape
  ps.mapIdx fun j p => (keep j ['d', 'a'] p.1, keep j ['a', 'd'] p.2.1, keep j ['d', 'd'] p.2.2)

/-- `[cH, cV, cD]` -/
def tripleList (p : Arr M × Arr M × Arr M) : List (Arr M) := [p.1, p.2.1, p.2.2]

/-- The array at position `i` of `[a] + ds`. -/
def arrayAt (a : Arr M) (ds : List (List (List Char × Arr M))) : Option (ℕ × List Char) → Option (Arr M)
  | none => some a
  | some (j, k) => (ds.getD j []).lookup k

/-- The keys of every dict. -/
def dictKeys (ds : List (List (List Char × Arr M))) : List (List (List Char)) := ds.map fun d => d.map (·.1)

/-- All arrays of `[a] + ds`, in order. -/
def allArrays (a : Arr M) (ds : List (List (List Char × Arr M))) : List (Arr M) :=
  a :: ds.flatMap fun d => d.map (·.2)

end Pywt
