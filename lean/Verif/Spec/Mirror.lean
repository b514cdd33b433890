import Verif.Spec.Ext
import Verif.Model.Objects

/-!
# Words used by property C85
-/

namespace Pywt.Spec

variable {R : Type} [CommRing R]

/-- The filter is its own mirror image about position `s/2`, up to the factor `σ`: `f[s-j] = σ·f[j]`, where the filter is zero
outside of the list. -/
def SymAbout (f : List R) (s : ℕ) (σ : R) : Prop :=
  (∀ j < f.length, s < j → f.getD j 0 = 0) ∧ ∀ j < s + 1, f.getD (s - j) 0 = σ * f.getD j 0

instance [DecidableEq R] (f : List R) (s : ℕ) (σ : R) : Decidable (SymAbout f s σ) := by
  unfold SymAbout; infer_instance

/-- Linear phase of the first kind: the low-pass filter is symmetric and the high-pass filter antisymmetric about the middle of
the list. -/
def HalfSample (w : Wavelet R) : Prop :=
  SymAbout w.dec_lo (w.dec_len - 1) 1 ∧ SymAbout w.dec_hi (w.dec_len - 1) (-1)

/-- Linear phase of the second kind: the low-pass filter is symmetric about half a sample after the middle of the list, the
high-pass filter about half a sample before it. -/
def WholeSample (w : Wavelet R) : Prop :=
  SymAbout w.dec_lo w.dec_len 1 ∧ SymAbout w.dec_hi (w.dec_len - 2) 1

instance [DecidableEq R] (w : Wavelet R) : Decidable (HalfSample w) := by unfold HalfSample; infer_instance
instance [DecidableEq R] (w : Wavelet R) : Decidable (WholeSample w) := by unfold WholeSample; infer_instance

end Pywt.Spec
