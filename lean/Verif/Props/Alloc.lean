import Verif.Props.Threads
import Verif.Proof.HeapAlloc3

/-!
# C60: when memory runs out

Every allocation of the C code may fail: `orc k` says whether the `k`-th one succeeds.
-/

set_option autoImplicit false
set_option linter.unusedSectionVars false

namespace Pywt.Heap

open Spec

section
variable {R M : Type} [Ring R] [AddCommGroup M] [Module R M]

/-- **A transform either succeeds or raises, and leaves nothing behind.**  A sequence of calls, from any
state of the memory that holds their arguments, whatever allocations fail: no undefined behaviour, every call
returns what it should or raises the exception it should, or `MemoryError` or `RuntimeError` when an
allocation failed; and afterwards the memory is what it was, plus the arrays that were returned: no
temporary buffer is leaked and nothing is freed that was there before.

The calls are those that check their allocations: `Call.Checked` excludes `swt_axis` with more than one
level, see `C60_swt_axis_unchecked`.  (When no allocation fails it is included: second alternative.) -/
theorem C60_transforms [Nontrivial M] {t : ℕ} {orc : ℕ → Bool} (cs : List (Call R M)) (s : St (Val R M))
    (hu : Unused t s.heap s.next) (hat : ∀ c ∈ cs, c.At s.heap)
    (hok : (∀ c ∈ cs, c.Checked) ∨ ∀ k, s.next ≤ k → orc k = true) :
    ∃ rs s', run t orc (script cs) s = .ok (rs, s') ∧
      List.Forall₂ (Right s'.heap (∃ k, s.next ≤ k ∧ orc k = false)) cs rs ∧
      (arrays rs).Nodup ∧ (∀ p ∈ arrays rs, s.heap p = none ∧ s'.heap p ≠ none) ∧
      (∀ p, p ∉ arrays rs → s'.heap p = s.heap p) := by
  obtain ⟨rs, s', h1, -, -, h2⟩ := run_script (t := t) (orc := orc) cs s hu hat hok
  exact ⟨rs, s', h1, h2⟩

/-- Non-vacuity: the memory of the example of C59, thread 0's calls. -/
example (orc : ℕ → Bool) : ∃ rs s', run 1 orc (script (exCalls 0)) ⟨exHeap, 0⟩ = .ok (rs, s') := by
  obtain ⟨rs, s', h, -⟩ := C60_transforms (t := 1) (orc := orc) (exCalls 0) ⟨exHeap, 0⟩ (fun k _ => rfl)
    (exCalls_at 0) (Or.inl (exCalls_checked 0))
  exact ⟨rs, s', h⟩

/-- **Making a wavelet from filters**: `Wavelet(name, filter_bank)` returns a wavelet holding these filters
(brought to even length), in both precisions, or raises `MemoryError` and only if an allocation failed.
The memory is otherwise unchanged, and deallocating the wavelet (`free_discrete_wavelet`) restores it. -/
theorem C60_custom_wavelet {t : ℕ} {orc : ℕ → Bool} (s : St (Val R M)) (hu : Unused t s.heap s.next)
    {bk : Wavelet R} (hn : 0 < bk.dec_lo.length) (l2 : bk.dec_hi.length = bk.dec_lo.length)
    (l3 : bk.rec_lo.length = bk.dec_lo.length) (l4 : bk.rec_hi.length = bk.dec_lo.length) :
    ∃ r s', run t orc (waveletOfBank bk) s = .ok (r, s') ∧
      match r with
      | .ok w => MadeAt t orc s.heap (fun _ => ⟨padEven bk.dec_lo, padEven bk.dec_hi, padEven bk.rec_lo,
          padEven bk.rec_hi⟩) w s'
      | .error e => e = .alloc ∧ s'.heap = s.heap ∧ ∃ k, s.next ≤ k ∧ orc k = false := by
  obtain ⟨r, s', h1, -, ⟨rfl, h3, k, h4, -, h5⟩ | ⟨w, rfl, -, h3, h4, h5, h6⟩⟩ :=
    run_waveletOfBank (orc := orc) s hu hn l2 l3 l4
  · exact ⟨_, s', h1, rfl, h3, k, h4, h5⟩
  · exact ⟨_, s', h1, h3, h4, h5, h6⟩

/-- Non-vacuity: three taps, padded to four; the fifth allocation fails in the second example. -/
example : 0 < (⟨[1, 2, 3], [1, 0, 0], [4, 5, 6], [0, 1, 0]⟩ : Wavelet ℤ).dec_lo.length := by decide

example : (match run 1 (fun k => k != 4) (waveletOfBank ⟨[1, 2, 3], [1, 0, 0], [4, 5, 6], [0, 1, 0]⟩)
    (⟨fun _ => none, 0⟩ : St (Val ℤ ℤ)) with
    | .ok (.error e, s') => e == .alloc && (List.range 20).all fun k => (s'.heap (1, k)).isNone
    | _ => false) = true := by decide +kernel

end

section
variable {M : Type} [AddCommGroup M]

/-- **Making a wavelet by name**: `Wavelet(name)` for any string.  It returns a wavelet holding the filters of the
functional model in both precisions (so it is the wavelet C20 and others are about), or it raises the
exception it should, or `ValueError` when an allocation failed.  The memory is otherwise unchanged, and
deallocating the wavelet restores it.

`haar` is excluded unless all allocations succeed: see `C60_haar_null`. -/
theorem C60_builtin_wavelet {t : ℕ} {orc : ℕ → Bool} (s : St (Val ℤ M)) (hu : Unused t s.heap s.next)
    (name : String) (hname : name.toLower ≠ "haar" ∨ ∀ k, s.next ≤ k → orc k = true) :
    ∃ r s', run t orc (waveletNamed name) s = .ok (r, s') ∧
      match r with
      | .ok w => ∃ o1 o2, Pywt.waveletNamed true name = .ok o1 ∧ Pywt.waveletNamed false name = .ok o2 ∧
          MadeAt t orc s.heap (both o1.w o2.w) w s'
      | .error e => s'.heap = s.heap ∧ ((∀ single, Pywt.waveletNamed single name = .error e) ∨
          e = .value ∧ (∃ o1 o2, Pywt.waveletNamed true name = .ok o1 ∧
            Pywt.waveletNamed false name = .ok o2) ∧ ∃ k, s.next ≤ k ∧ orc k = false) := by
  obtain ⟨r, s', h1, -, h2⟩ := run_waveletNamed (orc := orc) s hu name hname
  exact ⟨r, s', h1, h2⟩

/-- Non-vacuity: both alternatives for the names. -/
example : "rbio3.1".toLower ≠ "haar" := by decide +kernel

/-- **A wrong exception**: the name of a wavelet that exists, in any spelling of its letters, but the first
allocation fails: `ValueError("Invalid wavelet name.")` instead of `MemoryError`. -/
theorem C60_wrong_exception {t : ℕ} {orc : ℕ → Bool} (s : St (Val ℤ M)) (h : orc s.next = false)
    (name : String) (hname : name.toLower ≠ "haar") {o : WaveletObj ℤ}
    (ho : Pywt.waveletNamed false name = .ok o) :
    run t orc (waveletNamed name) s = .ok (.error .value, { s with next := s.next + 1 }) :=
  run_waveletNamed_fail s h name hname ho

example : "db2".toLower ≠ "haar" ∧ ∃ o, Pywt.waveletNamed false "db2" = .ok o := by
  refine ⟨by decide +kernel, ?_⟩
  obtain ⟨o, h, -⟩ := builtin_ok (single := false) (name := "db2") (fam := .db) (order := 2)
    (by decide +kernel) rfl
  exact ⟨o, h⟩

/-- **A crash**: `Wavelet('haar')` dereferences a NULL pointer when its first allocation fails
(`discrete_wavelet` uses the result of `discrete_wavelet(DB, 1)` without a check). -/
theorem C60_haar_null {t : ℕ} {orc : ℕ → Bool} (s : St (Val ℤ M)) (h : orc s.next = false)
    {name : String} (hname : name.toLower = "haar") :
    run t orc (waveletNamed name) s = .error .null := run_haar s h hname

example : "Haar".toLower = "haar" := by decide +kernel

end

/-- **Garbage instead of an error**: `swt_axis` of two levels of the array `[5, 7, 1, 2]` when one allocation
fails, that of the filter with inserted zeros for the approximation of level 2.  The return code of the
convolution is ignored: the call returns four arrays as if nothing had happened, and the first of them (the
approximation at level 2) was never written.  -/
theorem C60_swt_axis_unchecked : ∃ rs s',
    run 1 (fun k => k != 4) (Call.prog ⟨.double, (0, 0), exWavelet, .swtAxis 2 0 0 ⟨some (0, 5), 0⟩
      ⟨[5, 7, 1, 2], 0, ⟨[4], [1]⟩⟩⟩) ⟨exHeap, 0⟩ = .ok (.ok rs, s') ∧ rs.length = 4 ∧
      ∃ p ∈ rs, s'.heap p = some ⟨false, [none, none, none, none]⟩ := by
  have h : (match run 1 (fun k => k != 4) (Call.prog ⟨.double, (0, 0), exWavelet, .swtAxis 2 0 0
      ⟨some (0, 5), 0⟩ ⟨[5, 7, 1, 2], 0, ⟨[4], [1]⟩⟩⟩) ⟨exHeap, 0⟩ with
      | .ok (.ok rs, s') => decide (rs.length = 4) && (decide ((1, 2) ∈ rs) && (match s'.heap (1, 2) with
          | some ⟨false, [none, none, none, none]⟩ => true
          | _ => false))
      | _ => false) = true := by decide +kernel
  split at h
  · next rs s' hr =>
    simp only [Bool.and_eq_true, decide_eq_true_eq] at h
    obtain ⟨h1, h2, h3⟩ := h
    split at h3
    · next hb => exact ⟨rs, s', hr, h1, _, h2, hb⟩
    · cases h3
  · cases h

end Pywt.Heap
