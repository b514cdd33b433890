import Verif.Model.Heap

/-!
# Vocabulary for threads
-/

namespace Pywt.Heap

variable {V α : Type}

/-- The shared memory is constant: all blocks that exist are shared, and none of them may be written. -/
def ConstMem (h0 : Ptr → Option (Blk V)) : Prop :=
  ∀ p b, h0 p = some b → p.1 = 0 ∧ b.const = true

/-- No block of thread `t` has a number from `n` on: the allocator can hand them out. -/
def Unused (t : ℕ) (h : Ptr → Option (Blk V)) (n : ℕ) : Prop :=
  ∀ k, n ≤ k → h (t, k) = none

/-- The block that the next operation of a program touches, and whether it changes the block (writes to it
or frees it). -/
def Prog.access : Prog V α → Option (Ptr × Bool)
  | .read (some p) _ _ => some (p, false)
  | .write (some p) _ _ _ => some (p, true)
  | .free (some p) _ => some (p, true)
  | _ => none

/-- The threads with the programs `P`, and the memory, at the beginning. -/
def Cfg.init (h0 : Ptr → Option (Blk V)) (P : ℕ → Prog V α) : Cfg V α := ⟨h0, fun t => ⟨P t, 0⟩⟩

end Pywt.Heap
