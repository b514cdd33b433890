import Verif.Proof.Objects
import Verif.Proof.MultilevelN
import Verif.Proof.Examples
import Verif.Model.Fs
import Verif.Model.Shapes

/-!
# C37, C38, C39: per-axis arguments, mode names, wavelets from filter banks
-/

set_option autoImplicit false

namespace Pywt

open Spec

variable {R M : Type} [Ring R] [AddCommGroup M] [Module R M]

/-! ### C37 -/

/-- **C37.** What a transform makes of a sequence of wavelets or modes: it is accepted exactly when it has
one item, used for all axes, or one item per axis. -/
theorem C37_expand {α : Type} (n : ℕ) :
    (∀ a : α, (PerAxis.one a).expand n = .ok (List.replicate n a)) ∧
    (∀ l r : List α, (PerAxis.many l).expand n = .ok r ↔ UsedFor l n r) ∧
    (∀ l : List α, l.length ≠ 1 → l.length ≠ n → (PerAxis.many l).expand n = .error .value) :=
  ⟨fun _ => rfl, fun l r => expand_usedFor l n r, fun _ h1 h2 => expand_wrong h1 h2⟩

/-- **C37 (modes).** `_modes_per_axis` resolves every mode and uses it as `C37_expand` says; the second
resolution of names changes nothing.  `dunder` is any set of further attribute names. -/
theorem C37_modes (dunder : List String) (n : ℕ) :
    (∀ m z, modesFromObject dunder m = .ok (.num z) →
      modesPerAxis dunder (.one m) n = .ok (List.replicate n (.num z))) ∧
    (∀ (l : List ModeArg) (zs : List ℤ) (r : List ModeObj),
      List.Forall₂ (fun m z => modesFromObject dunder m = .ok (.num z)) l zs →
      (modesPerAxis dunder (.many l) n = .ok r ↔ UsedFor (zs.map ModeObj.num) n r)) ∧
    (∀ l : List ModeArg, l.length ≠ 1 → l.length ≠ n →
      modesPerAxis dunder (.many l) n = .error .value) := by
  refine ⟨fun m z h => ?_, fun l zs r h => ?_, fun l h1 h2 => ?_⟩
  · cases m with
    | other => cases h
    | int y => simp only [modesPerAxis, h, Py_bind_ok]; rfl
    | str s => simp only [modesPerAxis, h, Py_bind_ok]; rfl
  · have hlen := h.length_eq
    rw [← expand_usedFor]
    by_cases h1 : l.length = 1
    · match l, zs, h with
      | [m], [z], .cons hm .nil =>
        have e : modesPerAxis dunder (.many [m]) n = .ok (List.replicate n (.num z)) := by
          simp only [modesPerAxis, hm, Py_bind_ok]
          apply mapM_py_ok
          rw [List.forall₂_iff_get]
          refine ⟨rfl, fun i h1 h2 => ?_⟩
          simp only [List.get_eq_getElem, List.getElem_replicate]
          exact modesFromObject_int dunder (modesFromObject_num hm)
        rw [e]
        rfl
    · rw [modesPerAxis_many _ _ h1, expand_many n (by simpa [← hlen] using h1)]
      simp only [List.length_map, ← hlen]
      by_cases h2 : l.length = n
      · rw [if_neg (by simpa using h2), if_neg (by simpa using h2)]
        have hm : l.mapM (modesFromObject dunder) = .ok (zs.map ModeObj.num) := by
          apply mapM_py_ok
          clear hlen h1 h2
          induction h with
          | nil => exact .nil
          | cons h1 _ ih => exact .cons h1 ih
        rw [hm]
      · rw [if_pos h2, if_pos h2]
  · rw [modesPerAxis_many _ _ h1, if_pos h2]

/-- **C37 (modes).** What is rejected, and how: something that is neither a number, a name nor an iterable is
a `ValueError`; otherwise the error is that of the first mode that cannot be resolved. -/
theorem C37_modes_rejected (dunder : List String) (n : ℕ) :
    modesPerAxis dunder (.one .other) n = .error .value ∧
    (∀ m e, m ≠ .other → modesFromObject dunder m = .error e →
      modesPerAxis dunder (.one m) n = .error e) ∧
    (∀ (pre : List ModeArg) (os : List ModeObj) (m : ModeArg) (rest : List ModeArg) (e : PyErr),
      List.Forall₂ (fun m o => modesFromObject dunder m = .ok o) pre os →
      modesFromObject dunder m = .error e →
      (pre ++ m :: rest).length = 1 ∨ (pre ++ m :: rest).length = n →
      modesPerAxis dunder (.many (pre ++ m :: rest)) n = .error e) := by
  refine ⟨rfl, fun m e hm h => ?_, fun pre os m rest e hpre h hlen => ?_⟩
  · cases m with
    | other => exact absurd rfl hm
    | int y => simp only [modesPerAxis, h]; rfl
    | str s => simp only [modesPerAxis, h]; rfl
  · by_cases h1 : (pre ++ m :: rest).length = 1
    · have e1 : pre = [] := by
        cases pre with
        | nil => rfl
        | cons a l => simp at h1
      have e2 : rest = [] := by
        cases rest with
        | nil => rfl
        | cons a l => simp [e1] at h1
      subst e1 e2
      simp only [List.nil_append, modesPerAxis, h]
      rfl
    · rw [modesPerAxis_many _ _ h1, if_neg (by simpa using hlen.resolve_left h1)]
      clear hlen h1
      induction hpre with
      | nil => rw [List.nil_append, List.mapM_cons, h]; rfl
      | cons h2 _ ih => rw [List.cons_append, List.mapM_cons, h2, Py_bind_ok, ih]; rfl

/-- The second of three modes is unknown. -/
example : modesPerAxis [] (.many [.str "zero", .str "nothing", .other]) 3 = .error .value ∧
    modesPerAxis [] (.many [.str "zero", .other, .str "nothing"]) 3 = .error .type := by decide +kernel

/-- **C37 (wavelets).** The same for `_wavelets_per_axis`: names are resolved, continuous wavelets are
rejected. -/
theorem C37_wavelets (named : String → Py (NamedWavelet R)) (n : ℕ) :
    (∀ w : Wavelet R, waveletsPerAxis named (.one (.obj w)) n = .ok (List.replicate n w)) ∧
    (∀ s w, s ≠ "" → named s = .ok (.discrete w) →
      waveletsPerAxis named (.one (.name s)) n = .ok (List.replicate n w)) ∧
    (∀ s, s ≠ "" → named s = .ok .continuous →
      waveletsPerAxis named (.one (.name s)) n = .error .value) ∧
    (∀ (l : List (WaveletArg R)) (ws r : List (Wavelet R)),
      List.Forall₂ (fun a w => asWavelet named a = .ok w) l ws →
      (waveletsPerAxis named (.many l) n = .ok r ↔ UsedFor ws n r)) ∧
    (∀ l : List (WaveletArg R), l.length ≠ 1 → l.length ≠ n →
      waveletsPerAxis named (.many l) n = .error .value) := by
  refine ⟨fun w => rfl, fun s w hs h => ?_, fun s hs h => ?_, fun l ws r h => ?_, fun l h1 h2 => ?_⟩
  · simp only [waveletsPerAxis, asWavelet, if_neg hs, h, Py_bind_ok]; rfl
  · simp only [waveletsPerAxis, asWavelet, if_neg hs, h, Py_bind_error]
  · have hlen := h.length_eq
    rw [← expand_usedFor]
    by_cases h1 : l.length = 1
    · match l, ws, h with
      | [m], [z], .cons hm .nil =>
        simp only [waveletsPerAxis, hm, Py_bind_ok]
        rfl
    · rw [waveletsPerAxis_many _ _ h1, expand_many n (by simpa [← hlen] using h1), ← hlen, mapM_py_ok h]
  · rw [waveletsPerAxis_many _ _ h1, if_pos h2]

/-- **C37 (transforms reject).** `dwtn` and `dwt2` with a sequence of wavelets or of modes of the wrong
length raise `ValueError`, whatever the data. -/
theorem C37_dwtn_rejects (x : Arr M) (wavelet : PerAxis (Wavelet R)) (mode : PerAxis Mode)
    (axes : Option (List Int))
    (h : (∃ l : List (Wavelet R), wavelet = .many l ∧ l.length ≠ 1 ∧ l.length ≠ axesCount x.ndim axes) ∨
      (∃ l : List Mode, mode = .many l ∧ l.length ≠ 1 ∧ l.length ≠ axesCount x.ndim axes)) :
    dwtn x wavelet mode axes = .error .value := by
  have hl : (normAxes x.ndim (axes.getD (rangeAxes x.ndim))).length = axesCount x.ndim axes := by
    unfold normAxes axesCount rangeAxes
    cases axes <;> simp
  unfold dwtn
  by_cases h0 : x.ndim < 1
  · rw [if_pos h0]; rfl
  rw [if_neg h0]
  simp only [hl]
  rcases h with ⟨l, rfl, h1, h2⟩ | ⟨l, rfl, h1, h2⟩
  · cases hm : mode.expand (axesCount x.ndim axes) with
    | error e =>
      have : e = .value := by
        cases mode with
        | one a => cases hm
        | many m =>
          by_cases hm1 : m.length = 1
          · match m with
            | [a] => cases hm
          · rw [expand_many _ hm1] at hm
            split_ifs at hm
            · injection hm with hm; exact hm.symm
      subst this
      rfl
    | ok ms =>
      simp only [expand_wrong h1 h2, Py_bind_ok, Py_bind_error]
  · simp only [expand_wrong h1 h2, Py_bind_error]

/-- **C37 (transforms reject).** `wavedecn`, `wavedecn_shapes`, `dwtn_max_level` never return when the
sequence of wavelets has the wrong length. -/
theorem C37_wavedecn_rejects (x : Arr M) (l : List (Wavelet R)) (mode : PerAxis Mode)
    (level : Option Int) (axes : Option (List Int)) (h1 : l.length ≠ 1)
    (h2 : l.length ≠ axesCount x.ndim axes) :
    (∃ e, wavedecn x (.many l) mode level axes = .error e) ∧
    (∃ e, wavedecnShapes x.shape (.many l) mode level axes = .error e) ∧
    (∃ e, dwtnMaxLevel x.shape (.many l) axes = .error e) := by
  unfold wavedecn wavedecnShapes dwtnMaxLevel
  cases h : prepAxes x.shape axes with
  | error e => exact ⟨⟨e, rfl⟩, ⟨e, rfl⟩, ⟨e, rfl⟩⟩
  | ok r =>
    have hr := prepAxes_count h
    have he : (PerAxis.many l).expand r.1.length = .error .value :=
      expand_wrong h1 (by rw [hr]; exact h2)
    simp only [Py_bind_ok, he, Py_bind_error]
    exact ⟨⟨_, rfl⟩, ⟨_, rfl⟩, ⟨_, rfl⟩⟩

/-- `fswavedecn` never returns when the sequence of wavelets, of modes or of levels has the wrong length
(levels: even a single-element sequence must match). -/
theorem C37_fswavedecn_rejects (x : Arr M) (wavelet : PerAxis (Wavelet R)) (mode : PerAxis Mode)
    (levels : PerAxis (Option Int)) (axes : Option (List Int))
    (h : (∃ l : List (Wavelet R), wavelet = .many l ∧ l.length ≠ 1 ∧ l.length ≠ axesCount x.ndim axes) ∨
      (∃ l : List Mode, mode = .many l ∧ l.length ≠ 1 ∧ l.length ≠ axesCount x.ndim axes) ∨
      (∃ l : List (Option Int), levels = .many l ∧ l.length ≠ axesCount x.ndim axes)) :
    ∃ e, fswavedecn x wavelet mode levels axes = .error e := by
  have hl : (axes.getD (rangeAxes x.ndim)).length = axesCount x.ndim axes := by
    unfold axesCount rangeAxes
    cases axes <;> simp
  unfold fswavedecn
  simp only [hl]
  cases hc : checkFsAxes x.shape (axes.getD (rangeAxes x.ndim)) with
  | error e => exact ⟨e, rfl⟩
  | ok u =>
    simp only [Py_bind_ok]
    rcases h with ⟨l, rfl, h1, h2⟩ | ⟨l, rfl, h1, h2⟩ | ⟨l, rfl, h2⟩
    · cases hv : fsLevels levels (axesCount x.ndim axes) with
      | error e => exact ⟨e, rfl⟩
      | ok lv =>
        simp only [Py_bind_ok]
        cases hm : mode.expand (axesCount x.ndim axes) with
        | error e => exact ⟨e, rfl⟩
        | ok ms => simp only [Py_bind_ok, expand_wrong h1 h2, Py_bind_error]; exact ⟨_, rfl⟩
    · cases hv : fsLevels levels (axesCount x.ndim axes) with
      | error e => exact ⟨e, rfl⟩
      | ok lv => simp only [Py_bind_ok, expand_wrong h1 h2, Py_bind_error]; exact ⟨_, rfl⟩
    · have : fsLevels (.many l) (axesCount x.ndim axes) = .error .value := by
        simp only [fsLevels]; rw [if_pos h2]; rfl
      simp only [this, Py_bind_error]
      exact ⟨_, rfl⟩

/-- The hypotheses can be met: three wavelets for two axes; and two modes for two axes are used each. -/
example : axesCount 2 none = 2 ∧ [haarQ, legallQ, haarQ].length ≠ 1 ∧ [haarQ, legallQ, haarQ].length ≠ 2 ∧
    modesPerAxis [] (.many [.str "zero", .int 3]) 2 = .ok [.num 0, .num 3] ∧
    modesPerAxis [] (.many [.str "sym"]) 2 = .ok [.num 1, .num 1] ∧
    modesPerAxis [] (.one (.str "smooth")) 3 = .ok [.num 3, .num 3, .num 3] := by decide +kernel

/-! ### C38 -/

/-- **C38 (names).** Each documented name gives the number of its mode, different modes have different
names and different numbers, and the numbers in use are exactly `0 … 8`. -/
theorem C38_names (dunder : List String) :
    (∀ m : Mode, modesFromObject dunder (.str (Mode.docName m)) = .ok (.num m.code)) ∧
    Function.Injective Mode.docName ∧ Function.Injective Mode.code ∧
    (∀ z : ℤ, (∃ m : Mode, m.code = z) ↔ 0 ≤ z ∧ z < 9) := by
  refine ⟨fun m => by cases m <;> rfl, ?_, ?_, fun z => ⟨?_, fun h => ?_⟩⟩
  · intro a b h
    cases a <;> cases b <;> first | rfl | exact absurd h (by decide)
  · intro a b h
    cases a <;> cases b <;> first | rfl | exact absurd h (by decide)
  · rintro ⟨m, rfl⟩
    exact code_range m
  · obtain ⟨h0, h9⟩ := h
    have : z = 0 ∨ z = 1 ∨ z = 2 ∨ z = 3 ∨ z = 4 ∨ z = 5 ∨ z = 6 ∨ z = 7 ∨ z = 8 := by omega
    rcases this with rfl | rfl | rfl | rfl | rfl | rfl | rfl | rfl | rfl
    exacts [⟨.zero, rfl⟩, ⟨.symmetric, rfl⟩, ⟨.constant, rfl⟩, ⟨.smooth, rfl⟩, ⟨.periodic, rfl⟩,
      ⟨.periodization, rfl⟩, ⟨.reflect, rfl⟩, ⟨.antisymmetric, rfl⟩, ⟨.antireflect, rfl⟩]

/-- **C38 (numbers).** A number is accepted, and returned unchanged, exactly when it is in range. -/
theorem C38_numbers (dunder : List String) (z : ℤ) :
    (0 ≤ z ∧ z < 9 → modesFromObject dunder (.int z) = .ok (.num z)) ∧
    (¬ (0 ≤ z ∧ z < 9) → modesFromObject dunder (.int z) = .error .value) := by
  refine ⟨modesFromObject_int dunder, fun h => ?_⟩
  have h1 : z ≤ modeInvalid ∨ z ≥ modeMax := by unfold modeInvalid modeMax; omega
  simp only [modesFromObject, if_pos h1]

/-- **C38 (aliases).** A deprecated name gives the number of the mode it stood for, provided no Python
object has an attribute of that name. -/
theorem C38_aliases (dunder : List String) (m : Mode) (s : String) (h : Mode.oldName m = some s)
    (hd : s ∉ dunder) : modesFromObject dunder (.str s) = .ok (.num m.code) := by
  cases m <;> simp only [Mode.oldName, Option.some.injEq, reduceCtorEq] at h <;> subst h <;>
    · unfold modesFromObject modesGetattr modesAttribute
      simp only [modeAttrs, List.lookup, hd, or_false]
      rfl

/-- **C38 (unknown names).** Every other name that is not an attribute of the object is rejected. -/
theorem C38_unknown (dunder : List String) (s : String) (h1 : ∀ m : Mode, s ≠ Mode.docName m)
    (h2 : ∀ m : Mode, Mode.oldName m ≠ some s) (h3 : s ≠ "modes" ∧ s ≠ "from_object" ∧ s ∉ dunder) :
    modesFromObject dunder (.str s) = .error .value := by
  have e : modesAttribute dunder s = none := by
    unfold modesAttribute
    have : modeAttrs.lookup s = none := by
      simp only [modeAttrs, List.lookup]
      have a1 := h1 .zero
      have a2 := h1 .constant
      have a3 := h1 .symmetric
      have a4 := h1 .reflect
      have a5 := h1 .periodic
      have a6 := h1 .smooth
      have a7 := h1 .periodization
      have a8 := h1 .antisymmetric
      have a9 := h1 .antireflect
      simp only [Mode.docName] at a1 a2 a3 a4 a5 a6 a7 a8 a9
      simp only [beq_eq_false_iff_ne.2 a1, beq_eq_false_iff_ne.2 a2, beq_eq_false_iff_ne.2 a3,
        beq_eq_false_iff_ne.2 a4, beq_eq_false_iff_ne.2 a5, beq_eq_false_iff_ne.2 a6,
        beq_eq_false_iff_ne.2 a7, beq_eq_false_iff_ne.2 a8, beq_eq_false_iff_ne.2 a9]
    rw [this]
    simp only
    rw [if_neg (by tauto)]
  have o : s ∉ oldModes := by
    intro ho
    simp only [oldModes, List.mem_cons, List.not_mem_nil, or_false] at ho
    rcases ho with rfl | rfl | rfl | rfl | rfl | rfl
    · exact h2 .zero rfl
    · exact h2 .constant rfl
    · exact h2 .symmetric rfl
    · exact h2 .periodic rfl
    · exact h2 .smooth rfl
    · exact h2 .periodization rfl
  simp only [modesFromObject, modesGetattr, e, if_neg o]

/-- **C38 (the result is a mode).** Resolving a result again changes nothing. -/
theorem C38_idempotent (dunder : List String) (a : ModeArg) (z : ℤ)
    (h : modesFromObject dunder a = .ok (.num z)) :
    (∃ m : Mode, m.code = z) ∧ modesFromObject dunder (.int z) = .ok (.num z) :=
  ⟨((C38_names dunder).2.2.2 z).2 (modesFromObject_num h), modesFromObject_int dunder (modesFromObject_num h)⟩

/-- **C38 fails for attribute names:** the names `"modes"` and `"from_object"`, and the name of any
attribute all Python objects have, are accepted although they name no mode. -/
theorem C38_attribute_accepted (dunder : List String) (s : String)
    (h : s = "modes" ∨ s = "from_object" ∨ s ∈ dunder) (h1 : ∀ m : Mode, s ≠ Mode.docName m) :
    modesFromObject dunder (.str s) = .ok (.attr s) := by
  have : modeAttrs.lookup s = none := by
    rw [List.lookup_eq_none_iff]
    intro p hp
    simp only [modeAttrs, List.mem_cons, List.not_mem_nil, or_false] at hp
    rw [bne_iff_ne]
    rcases hp with rfl | rfl | rfl | rfl | rfl | rfl | rfl | rfl | rfl
    · exact h1 .zero
    · exact h1 .constant
    · exact h1 .symmetric
    · exact h1 .reflect
    · exact h1 .periodic
    · exact h1 .smooth
    · exact h1 .periodization
    · exact h1 .antisymmetric
    · exact h1 .antireflect
  simp only [modesFromObject, modesGetattr, modesAttribute, this, if_pos h]

example : (∀ m : Mode, "foo" ≠ Mode.docName m) ∧ (∀ m : Mode, Mode.oldName m ≠ some "foo") ∧
    (∀ m : Mode, "modes" ≠ Mode.docName m) := by
  refine ⟨fun m => ?_, fun m => ?_, fun m => ?_⟩ <;> cases m <;> decide

/-! ### C39 -/

/-- **C39 (what is accepted).** `Wavelet(filter_bank=l)` accepts exactly the lists of four 1-D filters of
one positive length and stores them padded to even length. -/
theorem C39_accepts (l : List (Arr R)) (w : Wavelet R) :
    waveletOfBank l = .ok w ↔
      ∃ a b c d : Arr R, l = [a, b, c, d] ∧ a.ndim = 1 ∧ b.ndim = 1 ∧ c.ndim = 1 ∧ d.ndim = 1 ∧
        0 < a.data.length ∧ b.data.length = a.data.length ∧ c.data.length = a.data.length ∧
        d.data.length = a.data.length ∧
        w = ⟨padEven a.data, padEven b.data, padEven c.data, padEven d.data⟩ := by
  constructor
  · intro h
    match l with
    | [a, b, c, d] =>
      by_cases hg : (a.ndim = 1 ∧ b.ndim = 1 ∧ c.ndim = 1 ∧ d.ndim = 1) ∧
        (0 < a.data.length ∧ b.data.length = a.data.length ∧ c.data.length = a.data.length ∧
        d.data.length = a.data.length)
      · rw [waveletOfBank_four a b c d hg.1 hg.2] at h
        injection h with h
        exact ⟨a, b, c, d, rfl, hg.1.1, hg.1.2.1, hg.1.2.2.1, hg.1.2.2.2, hg.2.1, hg.2.2.1, hg.2.2.2.1,
          hg.2.2.2.2, h.symm⟩
      · rw [waveletOfBank_bad a b c d hg] at h
        cases h
    | [] => cases h
    | [_] => cases h
    | [_, _] => cases h
    | [_, _, _] => cases h
    | _ :: _ :: _ :: _ :: _ :: _ => cases h
  · rintro ⟨a, b, c, d, rfl, h1, h2, h3, h4, h5, h6, h7, h8, rfl⟩
    exact waveletOfBank_four a b c d ⟨h1, h2, h3, h4⟩ ⟨h5, h6, h7, h8⟩

/-- Everything else is a `ValueError`; in particular no write ever leaves the buffers. -/
theorem C39_rejects (l : List (Arr R)) :
    (∃ w, waveletOfBank l = .ok w) ∨ waveletOfBank l = .error .value := by
  by_cases h4 : l.length = 4
  · match l with
    | [a, b, c, d] =>
      by_cases hg : (a.ndim = 1 ∧ b.ndim = 1 ∧ c.ndim = 1 ∧ d.ndim = 1) ∧
        (0 < a.data.length ∧ b.data.length = a.data.length ∧ c.data.length = a.data.length ∧
        d.data.length = a.data.length)
      · exact .inl ⟨_, waveletOfBank_four a b c d hg.1 hg.2⟩
      · exact .inr (waveletOfBank_bad a b c d hg)
  · exact .inr (waveletOfBank_count l h4)

/-- **C39 (well-formed).** The stored wavelet has four filters of one positive even length: every theorem
about transforms with a well-formed wavelet applies to it. -/
theorem C39_wellformed (l : List (Arr R)) (w : Wavelet R) (h : waveletOfBank l = .ok w) : w.Ok := by
  obtain ⟨a, b, c, d, -, -, -, -, -, h5, h6, h7, h8, rfl⟩ := (C39_accepts l w).1 h
  have hl : ∀ f : List R, f.length = a.data.length → (padEven f).length = (padEven a.data).length := by
    intro f hf
    unfold padEven
    rw [hf]
    split_ifs <;> simp [hf]
  exact ⟨(padEven_length h5).1, (padEven_length h5).2, hl _ h6, hl _ h7, hl _ h8⟩

/-- **C39 (round trip).** Building a wavelet from the `filter_bank` of a wavelet gives its filters back. -/
theorem C39_roundtrip (w : Wavelet R) (hw : w.Ok) : waveletOfBank w.filterBank = .ok w := by
  obtain ⟨h1, h2, h3, h4, h5⟩ := hw
  have := waveletOfBank_four (Arr.of1 w.dec_lo) (Arr.of1 w.dec_hi) (Arr.of1 w.rec_lo) (Arr.of1 w.rec_hi)
    ⟨rfl, rfl, rfl, rfl⟩ ⟨by change 0 < w.dec_lo.length; omega, h3, h4, h5⟩
  unfold Wavelet.filterBank
  rw [this]
  congr 1
  simp only [Arr.of1]
  rw [padEven_even h2, padEven_even (h3 ▸ h2), padEven_even (h4 ▸ h2), padEven_even (h5 ▸ h2)]

/-- **C39 (pickling, copying).** Name and filters survive. -/
theorem C39_pickle (o : WaveletObj R) (hw : o.w.Ok) :
    ∃ o', o.unpickle = .ok o' ∧ o'.name = o.name ∧ o'.w = o.w := by
  unfold WaveletObj.unpickle waveletObjOfBank
  rw [C39_roundtrip o.w hw]
  exact ⟨_, rfl, rfl, rfl⟩

/-- **C39 fails for the other properties:** after pickling, a wavelet is never orthogonal or biorthogonal,
and its symmetry and family are unknown. -/
theorem C39_pickle_loses_properties (o o' : WaveletObj R) (h : o.unpickle = .ok o') :
    o'.orthogonal = false ∧ o'.biorthogonal = false ∧ o'.symmetry = .unknown ∧ o'.familyName = "" ∧
      o'.vmPsi = 0 ∧ o'.vmPhi = 0 := by
  unfold WaveletObj.unpickle waveletObjOfBank at h
  cases hw : waveletOfBank o.w.filterBank with
  | error e => rw [hw] at h; cases h
  | ok w =>
    rw [hw] at h
    injection h with h
    subst h
    exact ⟨rfl, rfl, rfl, rfl, rfl, rfl⟩

/-- An odd-length bank is padded, a bank with a filter too few or of another length is rejected. -/
example : (waveletOfBank [Arr.of1 ([1, 2, 3] : List ℤ), Arr.of1 [4, 5, 6], Arr.of1 [7, 8, 9],
      Arr.of1 [1, 1, 1]] = .ok ⟨[1, 2, 3, 0], [4, 5, 6, 0], [7, 8, 9, 0], [1, 1, 1, 0]⟩) ∧
    (waveletOfBank [Arr.of1 ([1, 2] : List ℤ), Arr.of1 [4, 5, 6], Arr.of1 [7, 8], Arr.of1 [1, 1]] =
      .error .value) ∧ (waveletOfBank ([] : List (Arr ℤ)) = .error .value) ∧ haarQ.Ok := by
  decide +kernel

end Pywt
