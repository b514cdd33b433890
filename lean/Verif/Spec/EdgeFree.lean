import Verif.Model.Multilevel

/-!
# Vocabulary for C73: coefficients without edge effects
-/

namespace Pywt.Spec

/-- Entry `k` of the approximation and of the detail of level `j` of a signal of `n` samples is free of edge effects: it exists
and is the same in all extension modes but periodization (which places its filters differently), for every signal. -/
def EdgeFree {R : Type} (M : Type) [Ring R] [AddCommGroup M] [Module R M] (w : Wavelet R) (n j k : ℕ) : Prop :=
  ∀ (x : List M) (m1 m2 : Mode) (cs ds : List (List M)), x.length = n → m1 ≠ .periodization → m2 ≠ .periodization →
    wavedec w m1 (some (j : ℤ)) x = .ok cs → wavedec w m2 (some (j : ℤ)) x = .ok ds →
    ∃ (a d : M), (cs.getD 0 [])[k]? = some a ∧ (ds.getD 0 [])[k]? = some a ∧
      (cs.getD 1 [])[k]? = some d ∧ (ds.getD 1 [])[k]? = some d

end Pywt.Spec
