import Verif.Spec.Packet

/-!
# Vocabulary for C70: choices of packet nodes that cover the tree once
-/

namespace Pywt.Spec

/-- A list of paths that covers the packet tree once, from left to right (a "basis" of the packet): the root
alone, or for every part such a list below the subnode of that part. -/
inductive Cut {P : Type} (parts : List P) : List (List P) → Prop
  | root : Cut parts [[]]
  | split (L : P → List (List P)) : (∀ q ∈ parts, Cut parts (L q)) →
      Cut parts (parts.flatMap fun q => (L q).map (q :: ·))

end Pywt.Spec
