import Verif.Spec.NearOrth
import Verif.Spec.MultiDim

/-!
# Words used by property C79
-/

namespace Pywt.Spec

/-- The stages use periodization and banks orthogonal up to `ε`, on distinct axes whose extents are positive multiples of `m`. -/
def NearStages (ε : ℝ) (st : List (Stage ℝ)) (shape : List ℕ) (m : ℕ) : Prop :=
  (st.map (·.1)).Nodup ∧ ∀ s ∈ st, s.2.2 = .periodization ∧ NearOrthogonal ε s.2.1 ∧ s.1 < shape.length ∧
    1 ≤ shape.getD s.1 0 ∧ m ∣ shape.getD s.1 0

end Pywt.Spec
