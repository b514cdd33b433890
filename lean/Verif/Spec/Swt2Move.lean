import Verif.Spec.SwtTranspose

/-!
# Words used by property C91
-/

namespace Pywt.Spec

variable {M : Type} [AddCommGroup M]

/-- Details `(cH, cV, cD)` with every array changed by `f`. -/
def mapTriple (f : Arr M → Arr M) (p : Arr M × Arr M × Arr M) : Arr M × Arr M × Arr M := (f p.1, f p.2.1, f p.2.2)

/-- Details `(cH, cV, cD)` with every array changed by `f` and the first two exchanged. -/
def flipTriple (f : Arr M → Arr M) (p : Arr M × Arr M × Arr M) : Arr M × Arr M × Arr M := (f p.2.1, f p.1, f p.2.2)

/-- A result of `swt2` with the approximations changed by `f` and the details by `g`. -/
def mapSwt2 (f : Arr M → Arr M) (g : Arr M × Arr M × Arr M → Arr M × Arr M × Arr M) : Swt2 M → Swt2 M
  | .pairs l => .pairs (l.map fun p => (f p.1, g p.2))
  | .trimmed a l => .trimmed (f a) (l.map g)

end Pywt.Spec
