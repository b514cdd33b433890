import Verif.Spec.Pad
import Verif.Model.Arr
import Verif.Spec.MultiDim

/-!
# Specification: extended n-D arrays

An extended array is a function of integer coordinates, one for each axis (coordinates with numbers beyond the dimension
are irrelevant).  Along every line parallel to an axis it obeys the laws of the extension mode of that axis.
-/

namespace Pywt
namespace Spec

variable {M : Type}

/-- `e` extends the array `x`, in mode `modes k` along axis `k`. -/
def ExtLawsN [AddCommGroup M] (modes : ℕ → Mode) (x : Arr M) (e : (ℕ → ℤ) → M) : Prop :=
  (∀ p q : ℕ → ℤ, (∀ k < x.shape.length, p k = q k) → e p = e q) ∧
  (∀ idx, InB x.shape idx → e (fun k => (idx k : ℤ)) = x.get idx) ∧
  ∀ k < x.shape.length, ∀ p : ℕ → ℤ,
    ExtLaws (modes k) ((List.range (x.shape.getD k 0)).map fun i : ℕ => e (Function.update p k i))
      (fun t => e (Function.update p k t))

/-- Every axis is long enough for its mode. -/
def ShapeOk (modes : ℕ → Mode) (shape : List ℕ) : Prop := ∀ k < shape.length, LenOk (modes k) (shape.getD k 0)

/-- The array of the values of `e` at the coordinates `-l k, …, len k - l k - 1` of axis `k`. -/
def windowN (e : (ℕ → ℤ) → M) (l : ℕ → ℕ) (len : List ℕ) : Arr M :=
  Arr.ofFn len fun idx => e fun k => (idx k : ℤ) - l k

variable {R : Type} [Ring R] [AddCommGroup M] [Module R M]

/-- The position of the filtered signal that becomes coefficient number `o`. -/
def tapPos (mode : Mode) (F : ℕ) (o : ℤ) : ℤ :=
  match mode with
  | .periodization => ((F / 2 : ℕ) : ℤ) + 2 * o
  | _ => 2 * o + 1

/-- Filtering and downsampling along one axis: low-pass for the letter `a`, high-pass for any other letter. -/
def filterAlong (s : Stage R) (c : Char) (e : (ℕ → ℤ) → M) (p : ℕ → ℤ) : M :=
  ∑ j ∈ Finset.range s.2.1.dec_len,
    (s.2.1.decFilter c).getD j 0 • e (Function.update p s.1 (tapPos s.2.2 s.2.1.dec_len (p s.1) - j))

/-- Filtering and downsampling along the axes of all stages. -/
def filterN : List (Stage R) → List Char → ((ℕ → ℤ) → M) → (ℕ → ℤ) → M
  | s :: st, c :: key, e => filterN st key (filterAlong s c e)
  | _, _, e => e

end Spec
end Pywt
