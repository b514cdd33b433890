import Verif.Proof.HeapScript

/-!
# C59: transforms running at the same time in several threads

`pywt/tests/test_concurrent.py` runs transforms in a pool of threads.  The compiled functions release the
interpreter lock (`with nogil`), so their memory operations interleave in any order.
-/

set_option autoImplicit false
set_option linter.unusedSectionVars false

namespace Pywt.Heap

section
variable {R M : Type} [Ring R] [AddCommGroup M] [Module R M] [Nontrivial M]

theorem script_alone {orc : ℕ → ℕ → Bool} {h0 : Ptr → Option (Blk (Val R M))} (hc : ConstMem h0)
    {calls : ℕ → List (Call R M)} (hat : ∀ t, ∀ c ∈ calls t, c.At h0)
    (hok : ∀ t, (∀ c ∈ calls t, c.Checked) ∨ ∀ k, orc t k = true) (t : ℕ) :
    ∃ rs s', run (t + 1) (orc t) (script (calls t)) ⟨h0, 0⟩ = .ok (rs, s') ∧
      List.Forall₂ (Right s'.heap (∃ k, orc t k = false)) (calls t) rs ∧
      (arrays rs).Nodup ∧ (∀ p ∈ arrays rs, h0 p = none ∧ s'.heap p ≠ none) ∧
      (∀ p, p ∉ arrays rs → s'.heap p = h0 p) ∧ ∀ p ∈ arrays rs, p.1 = t + 1 := by
  have hu : Unused (t + 1) h0 0 := by
    intro k _
    cases h : h0 (t + 1, k) with
    | none => rfl
    | some b => exact absurd (hc _ _ h).1 (by simp)
  obtain ⟨rs, s', h1, -, -, h2, h3, h4, h5⟩ := run_script (t := t + 1) (orc := orc t) (calls t) ⟨h0, 0⟩ hu
    (hat t) ((hok t).imp_right fun h k _ => h k)
  refine ⟨rs, s', h1, h2.imp fun c r hr => hr.mono (Ext.refl _) (fun ⟨k, _, hk⟩ => ⟨k, hk⟩), h3, h4, h5, ?_⟩
  intro p hp
  exact ((mine_of_fresh _ _ _ _ h1).2 p (h4 p hp).1 (h4 p hp).2).1

/-- **Transforms in parallel give the results they give alone.**  Threads `0, 1, 2, …` each make a sequence
of calls of compiled transforms on wavelet objects and arrays that they share (and nobody writes to).
However their steps are interleaved (`ts`) and whatever allocations fail in each of them (`orc`): nothing
undefined happens, the shared memory is not changed, and in a thread that has finished every call has given the
result of the functional model (or, when some allocation of this thread failed, `MemoryError` or
`RuntimeError`).  The arrays it returned are its own, all different, and no other memory of the thread is
left. -/
theorem C59_concurrent_calls {orc : ℕ → ℕ → Bool} {h0 : Ptr → Option (Blk (Val R M))} (hc : ConstMem h0)
    {calls : ℕ → List (Call R M)} (hat : ∀ t, ∀ c ∈ calls t, c.At h0)
    (hok : ∀ t, (∀ c ∈ calls t, c.Checked) ∨ ∀ k, orc t k = true) (ts : List ℕ) :
    ∃ cfg, (Cfg.init h0 fun t => script (calls t)).exec orc ts = .ok cfg ∧
      (∀ k, cfg.heap (0, k) = h0 (0, k)) ∧
      ∀ t rs, (cfg.threads t).prog = .ret rs →
        List.Forall₂ (Right cfg.heap (∃ k, orc t k = false)) (calls t) rs ∧
        (arrays rs).Nodup ∧ (∀ p ∈ arrays rs, p.1 = t + 1) ∧
        ∀ k, cfg.heap (t + 1, k) ≠ none ↔ (t + 1, k) ∈ arrays rs := by
  have hrun := script_alone (orc := orc) hc hat hok
  obtain ⟨cfg, h1, h2, h3, -⟩ := exec_alone (orc := orc) (P := fun t => script (calls t)) (ts := ts) hc
    fun t => by
      obtain ⟨rs, s', h, -⟩ := hrun t
      exact ⟨_, h⟩
  refine ⟨cfg, h1, h2, ?_⟩
  intro t rs hrs
  obtain ⟨s', e1, e2⟩ := h3 t rs hrs
  obtain ⟨rs', s'', e1', f1, f2, f3, f4, f5⟩ := hrun t
  rw [e1] at e1'
  cases e1'
  refine ⟨?_, f2, f5, ?_⟩
  · -- the arrays of the results are in the thread's own memory
    have key : ∀ (cs : List (Call R M)) (rs : List Res), (∀ p ∈ arrays rs, p.1 = t + 1) →
        List.Forall₂ (Right s'.heap (∃ k, orc t k = false)) cs rs →
        List.Forall₂ (Right cfg.heap (∃ k, orc t k = false)) cs rs := by
      intro cs rs hp h
      induction h with
      | nil => exact .nil
      | @cons c r cs rs hr _ ih =>
        cases r with
        | error e => exact .cons hr (ih hp)
        | ok ps =>
          simp only [arrays, List.mem_append] at hp
          refine .cons ?_ (ih fun p hp' => hp p (Or.inr hp'))
          obtain ⟨ls, g1, g2⟩ := hr
          refine ⟨ls, g1, ?_⟩
          have : ∀ (ps : List Ptr) (ls : List (List M)), (∀ p ∈ ps, p.1 = t + 1) →
              List.Forall₂ (fun p (l : List M) => s'.heap p = some ⟨false, l.map fun m => some (.samp m)⟩)
                ps ls →
              List.Forall₂ (fun p (l : List M) => cfg.heap p = some ⟨false, l.map fun m => some (.samp m)⟩)
                ps ls := by
            intro ps ls hp h
            induction h with
            | nil => exact .nil
            | @cons p l ps ls hpl _ ih =>
              refine .cons ?_ (ih fun p hp' => hp p (List.mem_cons_of_mem _ hp'))
              have := hp p List.mem_cons_self
              obtain ⟨o, k⟩ := p
              simp only at this
              subst this
              rw [e2 k, hpl]
          exact this ps ls (fun p hp' => hp p (Or.inl hp')) g2
    exact key _ _ f5 f1
  · intro k
    rw [e2 k]
    constructor
    · intro h
      by_contra hn
      rw [f4 _ hn] at h
      cases hb : h0 (t + 1, k) with
      | none => exact h hb
      | some b => exact absurd (hc _ _ hb).1 (by simp)
    · intro h
      exact (f3 _ h).2

/-- **Nobody waits for others**: for every thread there is a number of steps after which it has finished, no
matter what the other threads did in between. -/
theorem C59_progress {orc : ℕ → ℕ → Bool} {h0 : Ptr → Option (Blk (Val R M))} (hc : ConstMem h0)
    {calls : ℕ → List (Call R M)} (hat : ∀ t, ∀ c ∈ calls t, c.At h0)
    (hok : ∀ t, (∀ c ∈ calls t, c.Checked) ∨ ∀ k, orc t k = true) :
    ∃ steps : ℕ → ℕ, ∀ (ts : List ℕ) (t : ℕ), steps t ≤ ts.count t →
      ∃ cfg rs, (Cfg.init h0 fun t => script (calls t)).exec orc ts = .ok cfg ∧
        (cfg.threads t).prog = .ret rs := by
  have hrun := script_alone (orc := orc) hc hat hok
  refine ⟨fun t => steps (t + 1) (orc t) (script (calls t)) ⟨h0, 0⟩, fun ts t ht => ?_⟩
  obtain ⟨cfg, h1, -, -, h4, -⟩ := exec_alone (orc := orc) (P := fun t => script (calls t)) (ts := ts) hc
    fun t => by
      obtain ⟨rs, s', h, -⟩ := hrun t
      exact ⟨_, h⟩
  obtain ⟨rs, hrs⟩ := h4 t ht
  exact ⟨cfg, rs, h1, hrs⟩

/-- **No data races**: whenever the next steps of two threads touch the same block of memory, both only
read it. -/
theorem C59_no_data_race {orc : ℕ → ℕ → Bool} {h0 : Ptr → Option (Blk (Val R M))} (hc : ConstMem h0)
    {calls : ℕ → List (Call R M)} (hat : ∀ t, ∀ c ∈ calls t, c.At h0)
    (hok : ∀ t, (∀ c ∈ calls t, c.Checked) ∨ ∀ k, orc t k = true) (ts : List ℕ)
    {cfg : Cfg (Val R M) (List Res)} (hex : (Cfg.init h0 fun t => script (calls t)).exec orc ts = .ok cfg)
    {t t' : ℕ} (hne : t ≠ t') {p : Ptr} {changes changes' : Bool}
    (h : (cfg.threads t).prog.access = some (p, changes))
    (h' : (cfg.threads t').prog.access = some (p, changes')) : changes = false ∧ changes' = false := by
  have hrun := script_alone (orc := orc) hc hat hok
  obtain ⟨cfg', h1, -, -, -, h5⟩ := exec_alone (orc := orc) (P := fun t => script (calls t)) (ts := ts) hc
    fun t => by
      obtain ⟨rs, s', h, -⟩ := hrun t
      exact ⟨_, h⟩
  rw [hex] at h1
  cases h1
  exact h5 t t' p changes changes' hne h h'

end

/-- **The reason, for any programs at all**: threads that share constant memory only and run well alone do
under every schedule what they do alone. -/
theorem C59_isolation {V α : Type} {orc : ℕ → ℕ → Bool} {h0 : Ptr → Option (Blk V)} (hc : ConstMem h0)
    {P : ℕ → Prog V α} (halone : ∀ t, ∃ r, run (t + 1) (orc t) (P t) ⟨h0, 0⟩ = .ok r) (ts : List ℕ) :
    ∃ cfg, (Cfg.init h0 P).exec orc ts = .ok cfg ∧ (∀ k, cfg.heap (0, k) = h0 (0, k)) ∧
      ∀ t a, (cfg.threads t).prog = .ret a → ∃ s', run (t + 1) (orc t) (P t) ⟨h0, 0⟩ = .ok (a, s') ∧
        ∀ k, cfg.heap (t + 1, k) = s'.heap (t + 1, k) := by
  obtain ⟨cfg, h1, h2, h3, -⟩ := exec_alone (orc := orc) (P := P) (ts := ts) hc halone
  exact ⟨cfg, h1, h2, h3⟩

/-! ### An example: two threads with one wavelet object and one array -/

/-- The blocks of the example: a wavelet structure, its four filters of type `double`, four samples. -/
def exCells : List (List (Option (Val ℤ ℤ))) :=
  [[some (.num 2), some (.num 2), some (.ptr (some (0, 1))), some (.ptr (some (0, 2))),
    some (.ptr (some (0, 3))), some (.ptr (some (0, 4)))],
   [some (.coef 1), some (.coef 1)], [some (.coef (-1)), some (.coef 1)],
   [some (.coef 1), some (.coef 1)], [some (.coef 1), some (.coef (-1))],
   [some (.samp 5), some (.samp 7), some (.samp 1), some (.samp 2)]]

/-- Memory with these blocks, shared and constant. -/
def exHeap : Ptr → Option (Blk (Val ℤ ℤ)) := fun p =>
  if p.1 = 0 then (exCells[p.2]?).map fun c => ⟨true, c⟩ else none

/-- The wavelet of the example (the Haar wavelet but for a factor). -/
def exWavelet : Wavelet ℤ := ⟨[1, 1], [-1, 1], [1, 1], [1, -1]⟩

theorem exHeap_const : ConstMem exHeap := by
  intro p b h
  unfold exHeap at h
  split_ifs at h with h1
  simp only [Option.map_eq_some_iff] at h
  obtain ⟨c, -, rfl⟩ := h
  exact ⟨h1, rfl⟩

theorem exWavelet_at : WaveletAt exHeap .double (0, 0) exWavelet :=
  ⟨true, _, rfl, rfl, rfl, ⟨_, rfl, true, rfl⟩, ⟨_, rfl, true, rfl⟩, ⟨_, rfl, true, rfl⟩,
    ⟨_, rfl, true, rfl⟩⟩

theorem exWavelet_ok : exWavelet.Ok := by
  refine ⟨?_, ?_, ?_, ?_, ?_⟩ <;> decide

/-- The samples seen as a 2×2 array in Fortran order. -/
def exMem : Mem ℤ := ⟨[5, 7, 1, 2], 0, ⟨[2, 2], [1, 2]⟩⟩

/-- Thread 0 calls `dwt` and `swt`, thread 1 calls `dwt` along an axis, the others do nothing. -/
def exCalls : ℕ → List (Call ℤ ℤ)
  | 0 => [⟨.double, (0, 0), exWavelet, .dwt .symmetric ⟨some (0, 5), 0⟩ [5, 7, 1, 2]⟩,
      ⟨.double, (0, 0), exWavelet, .swt 2 0 ⟨some (0, 5), 0⟩ [5, 7, 1, 2]⟩]
  | 1 => [⟨.double, (0, 0), exWavelet, .dwtAxis .zero 0 ⟨some (0, 5), 0⟩ exMem⟩]
  | _ => []

theorem exHolds : HoldsM exHeap ⟨some (0, 5), 0⟩ ([5, 7, 1, 2] : List ℤ) := by
  intro i hi
  simp only [List.length_cons, List.length_nil] at hi
  obtain rfl | rfl | rfl | rfl : i = 0 ∨ i = 1 ∨ i = 2 ∨ i = 3 := by omega
  all_goals rfl

theorem exCalls_at : ∀ t, ∀ c ∈ exCalls t, c.At exHeap := by
  intro t c hc
  match t with
  | 0 =>
    simp only [exCalls, List.mem_cons, List.not_mem_nil, or_false] at hc
    rcases hc with rfl | rfl
    · exact ⟨exWavelet_at, exWavelet_ok, exHolds⟩
    · exact ⟨exWavelet_at, exWavelet_ok, exHolds⟩
  | 1 =>
    simp only [exCalls, List.mem_cons, List.not_mem_nil, or_false] at hc
    subst hc
    refine ⟨exWavelet_at, exWavelet_ok, ⟨(0, 5), rfl, true, rfl⟩, ?_, by decide⟩
    intro idx h
    have h0 := h 0 (by decide)
    have h1 := h 1 (by decide)
    simp [exMem, dot, Info.ndim, Finset.sum_range_succ] at h0 h1 ⊢
    omega
  | t + 2 => simp [exCalls] at hc

theorem exCalls_checked : ∀ t, ∀ c ∈ exCalls t, c.Checked := by
  intro t c hc
  match t with
  | 0 =>
    simp only [exCalls, List.mem_cons, List.not_mem_nil, or_false] at hc
    rcases hc with rfl | rfl <;> exact trivial
  | 1 =>
    simp only [exCalls, List.mem_cons, List.not_mem_nil, or_false] at hc
    subst hc; exact trivial
  | t + 2 => simp [exCalls] at hc

/-- The hypotheses hold for the example, under every schedule and whatever allocations fail; with all of them
succeeding the first call of thread 0 gives the coefficients `[12, 3]` and `[-2, -1]`. -/
example (ts : List ℕ) (orc : ℕ → ℕ → Bool) : ∃ cfg,
    (Cfg.init exHeap fun t => script (exCalls t)).exec orc ts = .ok cfg :=
  (C59_concurrent_calls exHeap_const exCalls_at (fun t => Or.inl (exCalls_checked t)) ts).imp fun _ h => h.1

example : ((exCalls 0).map Call.expected).head? = some (.ok [[12, 3], [-2, -1]]) := by decide +kernel

/-- A data race, for comparison: two threads that write to the same block (which is then not constant). -/
example : ∃ (h0 : Ptr → Option (Blk ℕ)) (P : ℕ → Prog ℕ Unit), ¬ ConstMem h0 ∧
    (∀ t, ∃ r, run (t + 1) (fun _ => true) (P t) ⟨h0, 0⟩ = .ok r) ∧
    ∃ p, ((Cfg.init h0 P).threads 0).prog.access = some (p, true) ∧
      ((Cfg.init h0 P).threads 1).prog.access = some (p, true) := by
  refine ⟨fun p => if p = (0, 0) then some ⟨false, [none]⟩ else none,
    fun t => .write (some (0, 0)) 0 t (.ret ()), ?_, ?_, (0, 0), rfl, rfl⟩
  · intro h
    have := (h (0, 0) ⟨false, [none]⟩ (if_pos rfl)).2
    cases this
  · intro t
    exact ⟨_, rfl⟩

end Pywt.Heap
