import Verif.Model.NormWarn
import Verif.Spec.Builtin

/-!
# Words used by property C75
-/

namespace Pywt.Spec

/-- A built-in wavelet with its filters as real numbers. -/
noncomputable def realObj (o : WaveletObj ℤ) : WaveletObj ℝ :=
  ⟨o.name, o.number, realBank o.w, o.orthogonal, o.biorthogonal, o.symmetry, o.familyName, o.shortName, o.vmPsi, o.vmPhi⟩

/-- The signal `[1, 0, …, 0]` of `N` samples. -/
def impulse (N : ℕ) : List ℝ := (List.range N).map fun k => if k = 0 then 1 else 0

end Pywt.Spec
