import Verif.Model.Axis
import Mathlib.Logic.Function.Basic

/-!
# A memory model for the C code: allocation, NULL, uninitialised memory, threads

The other files model the C functions as functions on lists of samples.  Here they are programs that
work on a heap.  A program (`Prog`) is a tree of memory operations; one operation is one step, so
that programs can be interleaved.  What C leaves undefined is an error value (`MErr`): using NULL or
freed memory, accesses outside a block, reading memory that was never written, writing through a
pointer to `const`, freeing twice.

An allocation succeeds or fails as an arbitrary *oracle* says: `orc k` tells whether the `k`-th
allocation of the thread succeeds.

Simplifications: a block is a list of cells, one value each (no byte representation).  Blocks are
named by their owner and a serial number, so a freed block is never handed out again.  Steps of
different threads are interleaved (sequential consistency); theorem `C59_no_data_race` is what
makes this faithful to hardware with weaker memory.
-/

namespace Pywt.Heap

/-- Ways in which a C program can go wrong. -/
inductive MErr
  | null | dead | oob | const | uninit | type | underflow | fuel
  deriving DecidableEq, Repr

/-- The name of a block of memory: its owner (`0` for memory shared by all threads, `t + 1` for
thread `t`) and a serial number. -/
abbrev Ptr := ℕ × ℕ

/-- The contents of a cell: a filter coefficient, a sample, a pointer or a number. -/
inductive Val (R M : Type)
  | coef (r : R)
  | samp (m : M)
  | ptr (p : Option Ptr)
  | num (n : ℕ)

/-- C programs as trees of memory operations.  `p = none` is NULL. -/
inductive Prog (V α : Type) : Type
  | ret (a : α)
  | fail (e : MErr)
  | read (p : Option Ptr) (i : ℤ) (k : V → Prog V α)
  | write (p : Option Ptr) (i : ℤ) (v : V) (k : Prog V α)
  | malloc (cells : List (Option V)) (k : Option Ptr → Prog V α)
  | free (p : Option Ptr) (k : Prog V α)

/-- Sequential composition. -/
def Prog.bind {V α β : Type} : Prog V α → (α → Prog V β) → Prog V β
  | .ret a, f => f a
  | .fail e, _ => .fail e
  | .read p i k, f => .read p i fun v => (k v).bind f
  | .write p i v k, f => .write p i v (k.bind f)
  | .malloc c k, f => .malloc c fun p => (k p).bind f
  | .free p k, f => .free p (k.bind f)

instance {V : Type} : Monad (Prog V) where
  pure := Prog.ret
  bind := Prog.bind

/-- A block of memory; a cell that was never written is `none`.  `const` blocks are those that are
visible to several threads (arrays of the caller, wavelet objects); the C functions receive them as
pointers to `const`. -/
structure Blk (V : Type) where
  const : Bool
  cells : List (Option V)

/-- The memory as one thread sees it, and the number of allocations the thread has tried. -/
structure St (V : Type) where
  heap : Ptr → Option (Blk V)
  next : ℕ

/-- Reading cell `i` of a block. -/
def load {V : Type} (h : Ptr → Option (Blk V)) (p : Option Ptr) (i : ℤ) : Except MErr V :=
  match p with
  | none => .error .null
  | some p => match h p with
    | none => .error .dead
    | some b =>
      if 0 ≤ i then
        match b.cells[i.toNat]? with
        | none => .error .oob
        | some none => .error .uninit
        | some (some v) => .ok v
      else .error .oob

/-- Writing cell `i` of a block. -/
def store {V : Type} (h : Ptr → Option (Blk V)) (p : Option Ptr) (i : ℤ) (v : V) :
    Except MErr (Ptr → Option (Blk V)) :=
  match p with
  | none => .error .null
  | some p => match h p with
    | none => .error .dead
    | some b =>
      if b.const then .error .const
      else if 0 ≤ i ∧ i.toNat < b.cells.length then
        .ok (Function.update h p (some ⟨false, b.cells.set i.toNat (some v)⟩))
      else .error .oob

/-- `free(p)`; freeing NULL does nothing. -/
def release {V : Type} (h : Ptr → Option (Blk V)) (p : Option Ptr) :
    Except MErr (Ptr → Option (Blk V)) :=
  match p with
  | none => .ok h
  | some p => match h p with
    | none => .error .dead
    | some b => if b.const then .error .const else .ok (Function.update h p none)

/-- One step of the thread with owner number `t`. -/
def step {V α : Type} (t : ℕ) (orc : ℕ → Bool) : Prog V α → St V → Except MErr (Prog V α × St V)
  | .ret a, s => .ok (.ret a, s)
  | .fail e, _ => .error e
  | .read p i k, s => do
      let v ← load s.heap p i
      .ok (k v, s)
  | .write p i v k, s => do
      let h ← store s.heap p i v
      .ok (k, { s with heap := h })
  | .malloc c k, s =>
      if orc s.next then
        .ok (k (some (t, s.next)),
          ⟨Function.update s.heap (t, s.next) (some ⟨false, c⟩), s.next + 1⟩)
      else .ok (k none, { s with next := s.next + 1 })
  | .free p k, s => do
      let h ← release s.heap p
      .ok (k, { s with heap := h })

/-- A program running alone from start to end. -/
def run {V α : Type} (t : ℕ) (orc : ℕ → Bool) : Prog V α → St V → Except MErr (α × St V)
  | .ret a, s => .ok (a, s)
  | .fail e, _ => .error e
  | .read p i k, s =>
      match load s.heap p i with
      | .ok v => run t orc (k v) s
      | .error e => .error e
  | .write p i v k, s =>
      match store s.heap p i v with
      | .ok h => run t orc k { s with heap := h }
      | .error e => .error e
  | .malloc c k, s =>
      if orc s.next then
        run t orc (k (some (t, s.next)))
          ⟨Function.update s.heap (t, s.next) (some ⟨false, c⟩), s.next + 1⟩
      else run t orc (k none) { s with next := s.next + 1 }
  | .free p k, s =>
      match release s.heap p with
      | .ok h => run t orc k { s with heap := h }
      | .error e => .error e

/-! ### Threads -/

/-- A thread: what it still has to do, and the number of allocations it has tried. -/
structure Thread (V α : Type) where
  prog : Prog V α
  next : ℕ

/-- Several threads and their common memory. -/
structure Cfg (V α : Type) where
  heap : Ptr → Option (Blk V)
  threads : ℕ → Thread V α

/-- Thread number `t` makes a step (none if it has finished). -/
def Cfg.step {V α : Type} (orc : ℕ → ℕ → Bool) (t : ℕ) (c : Cfg V α) : Except MErr (Cfg V α) := do
  let r ← Heap.step (t + 1) (orc t) (c.threads t).prog ⟨c.heap, (c.threads t).next⟩
  .ok ⟨r.2.heap, Function.update c.threads t ⟨r.1, r.2.next⟩⟩

/-- The threads run as the schedule says: a list of thread numbers. -/
def Cfg.exec {V α : Type} (orc : ℕ → ℕ → Bool) : List ℕ → Cfg V α → Except MErr (Cfg V α)
  | [], c => .ok c
  | t :: ts, c => do
      let c ← c.step orc t
      Cfg.exec orc ts c

/-! ### The operations C programs are written with -/

/-- A pointer into a block: `p + off`. -/
structure Loc where
  blk : Option Ptr
  off : ℤ

/-- `p + i` on pointers. -/
def Loc.add (l : Loc) (i : ℤ) : Loc := ⟨l.blk, l.off + i⟩

variable {R M : Type}

/-- `p[i]` as a sample. -/
def rdM (p : Loc) (i : ℤ) : Prog (Val R M) M :=
  .read p.blk (p.off + i) fun v => match v with
    | .samp m => .ret m
    | _ => .fail .type

/-- `p[i]` as a filter coefficient. -/
def rdR (p : Loc) (i : ℤ) : Prog (Val R M) R :=
  .read p.blk (p.off + i) fun v => match v with
    | .coef r => .ret r
    | _ => .fail .type

/-- `p->field` as a number. -/
def rdNum (p : Option Ptr) (i : ℕ) : Prog (Val R M) ℕ :=
  .read p i fun v => match v with
    | .num n => .ret n
    | _ => .fail .type

/-- `p->field` as a pointer. -/
def rdPtr (p : Option Ptr) (i : ℕ) : Prog (Val R M) (Option Ptr) :=
  .read p i fun v => match v with
    | .ptr q => .ret q
    | _ => .fail .type

/-- `p[i] = v`. -/
def put (p : Loc) (i : ℤ) (v : Val R M) : Prog (Val R M) Unit :=
  .write p.blk (p.off + i) v (.ret ())

/-- `malloc(n * size)`: `n` cells without contents. -/
def malloc (n : ℕ) : Prog (Val R M) (Option Ptr) := .malloc (List.replicate n none) .ret

/-- `calloc(n, size)` for filter coefficients. -/
def callocR [Zero R] (n : ℕ) : Prog (Val R M) (Option Ptr) :=
  .malloc (List.replicate n (some (.coef 0))) .ret

/-- `np.zeros(n)` for samples: like `calloc`. -/
def callocM [Zero M] (n : ℕ) : Prog (Val R M) (Option Ptr) :=
  .malloc (List.replicate n (some (.samp 0))) .ret

/-- `free(p)`. -/
def free (p : Option Ptr) : Prog (Val R M) Unit := .free p (.ret ())

/-- `a - b` on `size_t`, an error when the true difference is negative (as `Pywt.sub`). -/
def sub {V : Type} (a b : ℕ) : Prog V ℕ := if b ≤ a then .ret (a - b) else .fail .underflow

/-- `while (cond) body`, with fuel (as `Pywt.loop`). -/
def loop {V σ : Type} (cond : σ → Prog V Bool) (body : σ → Prog V σ) : ℕ → σ → Prog V σ
  | 0, _ => .fail .fuel
  | n + 1, s => do
      if ← cond s then
        let s' ← body s
        loop cond body n s'
      else
        pure s

/-- `for (i = 0; i < n; ++i) body(i)`. -/
def forN {V : Type} (body : ℕ → Prog V Unit) : ℕ → Prog V Unit
  | 0 => .ret ()
  | n + 1 => do
      forN body n
      body n

end Pywt.Heap
