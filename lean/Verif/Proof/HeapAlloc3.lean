import Verif.Proof.HeapAlloc2
import Verif.Proof.BuiltinTop

/-!
# Built-in wavelets on the heap
-/

set_option linter.unusedSectionVars false
set_option linter.unusedVariables false

namespace Pywt.Heap

open Spec

variable {M : Type} [AddCommGroup M]
variable {t : ℕ} {orc : ℕ → Bool}

/-- Exchanging two numbers. -/
def sw (x y k : ℕ) : ℕ := if k = x then y else if k = y then x else k

section
variable {h0 : Ptr → Option (Blk (Val ℤ M))} {s : St (Val ℤ M)} {w : Ptr} {n : ℕ} {p : ℕ → Ptr}
  {G : ℕ → List ℤ} {b : Val ℤ M}

theorem WS.congr {G' : ℕ → List ℤ} (a : WS t h0 s w n p G b) (h : ∀ k < 8, G k = G' k) :
    WS t h0 s w n p G' b :=
  ⟨a.held, a.struct, fun k hk => by rw [a.blocks k hk, h k hk]⟩

/-- Writing a cell of the structure. -/
theorem run_field {c : List (Option (Val ℤ M))} (h : s.heap w = some ⟨false, c⟩) {i : ℕ}
    (hi : i < c.length) (v : Val ℤ M) :
    run t orc (setField (some w) i v) s = .ok ((), s.setCells w (c.set i (some v))) := by
  have hr := run_putCell (t := t) (orc := orc) (s := s) (p := w) h (o := 0) (i := (i : ℕ))
    (by simp) (by simpa using hi) v
  rw [show ((0 : ℤ) + (i : ℤ)).toNat = i by simp] at hr
  exact hr

theorem WS.swapNum (a : WS t h0 s w n p G b) :
    ∃ s', run t orc (swapNum (some w) fDecLen fRecLen) s = .ok ((), s') ∧ s'.next = s.next ∧
      WS t h0 s' w n p G b := by
  unfold Heap.swapNum
  rw [run_bind_ok a.decLen, run_bind_ok a.recLen, run_bind_ok (run_field a.struct (by simp [fDecLen]) _),
    run_field setCells_self (by simp [fRecLen]), setCells_setCells]
  refine ⟨_, rfl, rfl, a.held.setCells (by simp) _, ?_, ?_⟩
  · rw [setCells_self]; rfl
  · intro k hk
    rw [setCells_ne (a.ne hk), a.blocks k hk]

theorem WS.swapPtr (a : WS t h0 s w n p G b) {x y : ℕ}
    (h : (x, y) ∈ [(6, 4), (7, 5), (2, 0), (3, 1)]) :
    ∃ s', run t orc (swapPtr (some w) (x + 2) (y + 2)) s = .ok ((), s') ∧ s'.next = s.next ∧
      WS t h0 s' w n (fun k => p (sw x y k)) (fun k => G (sw x y k)) b := by
  have hx : x < 8 ∧ y < 8 := by
    simp only [List.mem_cons, Prod.mk.injEq, List.not_mem_nil, or_false] at h
    omega
  have e1 : run t orc (rdPtr (some w) (x + 2)) s = .ok (some (p x), s) := by
    refine run_rdPtr a.struct ?_
    simp only [List.mem_cons, Prod.mk.injEq, List.not_mem_nil, or_false] at h
    rcases h with ⟨rfl, rfl⟩ | ⟨rfl, rfl⟩ | ⟨rfl, rfl⟩ | ⟨rfl, rfl⟩ <;> rfl
  have e2 : run t orc (rdPtr (some w) (y + 2)) s = .ok (some (p y), s) := by
    refine run_rdPtr a.struct ?_
    simp only [List.mem_cons, Prod.mk.injEq, List.not_mem_nil, or_false] at h
    rcases h with ⟨rfl, rfl⟩ | ⟨rfl, rfl⟩ | ⟨rfl, rfl⟩ | ⟨rfl, rfl⟩ <;> rfl
  unfold Heap.swapPtr
  rw [run_bind_ok e1, run_bind_ok e2, run_bind_ok (run_field a.struct (by simp; omega) _),
    run_field setCells_self (by simp; omega), setCells_setCells]
  refine ⟨_, rfl, rfl, (a.held.setCells (by simp) _).perm (List.Perm.cons w ?_), ?_, ?_⟩
  · show List.Perm [p 0, p 1, p 2, p 3, p 4, p 5, p 6, p 7]
      [p (sw x y 0), p (sw x y 1), p (sw x y 2), p (sw x y 3), p (sw x y 4), p (sw x y 5),
        p (sw x y 6), p (sw x y 7)]
    rw [List.perm_iff_count]
    intro z
    simp only [List.mem_cons, Prod.mk.injEq, List.not_mem_nil, or_false] at h
    rcases h with ⟨rfl, rfl⟩ | ⟨rfl, rfl⟩ | ⟨rfl, rfl⟩ | ⟨rfl, rfl⟩ <;>
    · simp only [sw, List.count_cons, List.count_nil, Nat.reduceEqDiff, if_true, if_false,
        OfNat.ofNat_ne_zero, OfNat.ofNat_ne_one, OfNat.zero_ne_ofNat, OfNat.one_ne_ofNat]
      omega
  · rw [setCells_self]
    simp only [List.mem_cons, Prod.mk.injEq, List.not_mem_nil, or_false] at h
    rcases h with ⟨rfl, rfl⟩ | ⟨rfl, rfl⟩ | ⟨rfl, rfl⟩ | ⟨rfl, rfl⟩ <;> rfl
  · intro k hk
    have : sw x y k < 8 := by unfold sw; split_ifs <;> omega
    rw [setCells_ne (a.ne this), a.blocks _ this]

theorem WS.get (a : WS t h0 s w n p G b) {k i : ℕ} (hk : k < 8) (hi : i < (G k).length) :
    run t orc (rdR ⟨some (p k), 0⟩ i) s = .ok ((G k).getD i 0, s) := by
  simp only [rdR, run, load, a.blocks k hk]
  simp [hi, run]

/-- The list with two entries exchanged. -/
def swapAt (l : List ℤ) (i j : ℕ) : List ℤ := (l.set i (l.getD j 0)).set j (l.getD i 0)

theorem WS.swapCoef (a : WS t h0 s w n p G b) (rec hi : Bool) (q : Prec) {i j : ℕ}
    (h1 : i < (G (slot rec hi q)).length) (h2 : j < (G (slot rec hi q)).length) :
    ∃ s', run t orc (swapCoef (some w) rec hi q i j) s = .ok ((), s') ∧ s'.next = s.next ∧
      WS t h0 s' w n p (Function.update G (slot rec hi q) (swapAt (G (slot rec hi q)) i j)) b := by
  obtain ⟨s1, r1, n1, a1⟩ := a.put (orc := orc) (slot_lt rec hi q) h1
    ((G (slot rec hi q)).getD j 0)
  obtain ⟨s2, r2, n2, a2⟩ := a1.put (orc := orc) (slot_lt rec hi q) (i := j) (by
    rw [Function.update_self, List.length_set]; exact h2) ((G (slot rec hi q)).getD i 0)
  refine ⟨s2, ?_, by omega, ?_⟩
  · unfold Heap.swapCoef
    rw [run_bind_ok (a.field rec hi q), run_bind_ok (a.get (slot_lt _ _ _) h1),
      run_bind_ok (a.get (slot_lt _ _ _) h2), run_bind_ok r1]
    exact r2
  · rw [Function.update_self, Function.update_idem] at a2
    exact a2

theorem swapAt_length (l : List ℤ) (i j : ℕ) : (swapAt l i j).length = l.length := by
  simp [swapAt]

/-- One round of the reversal. -/
theorem WS.reverseRow (a : WS t h0 s w n p G b) (hl : ∀ k < 8, (G k).length = n) {i : ℕ}
    (hi : i < n / 2) :
    ∃ s', run t orc (reverseRow (some w) n i) s = .ok ((), s') ∧ s'.next = s.next ∧
      WS t h0 s' w n p (fun k => swapAt (G k) i (n - 1 - i)) b := by
  have L : ∀ k < 8, i < (G k).length ∧ n - 1 - i < (G k).length := by
    intro k hk; rw [hl k hk]; omega
  have L' : ∀ k, k < 8 → ∀ l, l < 8 → ∀ H : ℕ → List ℤ, (∀ k < 8, (H k).length = n) →
      ∀ k < 8, (Function.update H l (swapAt (H l) i (n - 1 - i)) k).length = n := by
    intro _ _ l hl' H hH k hk
    by_cases e : k = l
    · subst e; rw [Function.update_self, swapAt_length, hH k hk]
    · rw [Function.update_of_ne e, hH k hk]
  have B : ∀ {H : ℕ → List ℤ}, (∀ k < 8, (H k).length = n) → ∀ rec hi' q,
      i < (H (slot rec hi' q)).length ∧ n - 1 - i < (H (slot rec hi' q)).length := by
    intro H hH rec hi' q
    rw [hH _ (slot_lt _ _ _)]; omega
  have U : ∀ {H : ℕ → List ℤ}, (∀ k < 8, (H k).length = n) → ∀ rec hi' q, ∀ k < 8,
      (Function.update H (slot rec hi' q) (swapAt (H (slot rec hi' q)) i (n - 1 - i)) k).length = n :=
    fun hH rec hi' q => L' 0 (by omega) _ (slot_lt _ _ _) _ hH
  obtain ⟨s1, r1, n1, a1⟩ := a.swapCoef (orc := orc) true false .float (B hl _ _ _).1 (B hl _ _ _).2
  have l1 := U hl true false .float
  obtain ⟨s2, r2, n2, a2⟩ := a1.swapCoef (orc := orc) true true .float (B l1 _ _ _).1 (B l1 _ _ _).2
  have l2 := U l1 true true .float
  obtain ⟨s3, r3, n3, a3⟩ := a2.swapCoef (orc := orc) false false .float (B l2 _ _ _).1 (B l2 _ _ _).2
  have l3 := U l2 false false .float
  obtain ⟨s4, r4, n4, a4⟩ := a3.swapCoef (orc := orc) false true .float (B l3 _ _ _).1 (B l3 _ _ _).2
  have l4 := U l3 false true .float
  obtain ⟨s5, r5, n5, a5⟩ := a4.swapCoef (orc := orc) true false .double (B l4 _ _ _).1 (B l4 _ _ _).2
  have l5 := U l4 true false .double
  obtain ⟨s6, r6, n6, a6⟩ := a5.swapCoef (orc := orc) true true .double (B l5 _ _ _).1 (B l5 _ _ _).2
  have l6 := U l5 true true .double
  obtain ⟨s7, r7, n7, a7⟩ := a6.swapCoef (orc := orc) false false .double (B l6 _ _ _).1 (B l6 _ _ _).2
  have l7 := U l6 false false .double
  obtain ⟨s8, r8, n8, a8⟩ := a7.swapCoef (orc := orc) false true .double (B l7 _ _ _).1 (B l7 _ _ _).2
  refine ⟨s8, ?_, by omega, a8.congr ?_⟩
  · unfold Heap.reverseRow
    rw [run_bind_ok r1, run_bind_ok r2, run_bind_ok r3, run_bind_ok r4, run_bind_ok r5, run_bind_ok r6,
      run_bind_ok r7]
    exact r8
  · intro k hk
    obtain rfl | rfl | rfl | rfl | rfl | rfl | rfl | rfl : k = 0 ∨ k = 1 ∨ k = 2 ∨ k = 3 ∨ k = 4 ∨
      k = 5 ∨ k = 6 ∨ k = 7 := by omega
    all_goals rfl

/-- `l'` is `l` with the first `i` and the last `i` entries exchanged. -/
def RevTo (i : ℕ) (l l' : List ℤ) : Prop :=
  l'.length = l.length ∧ ∀ j < l.length, l'.getD j 0 =
    if j < i ∨ l.length - 1 - j < i then l.getD (l.length - 1 - j) 0 else l.getD j 0

theorem RevTo.step {i : ℕ} {l l' : List ℤ} (h : RevTo i l l') (hi : i < l.length / 2) :
    RevTo (i + 1) l (swapAt l' i (l.length - 1 - i)) := by
  obtain ⟨h1, h2⟩ := h
  refine ⟨by rw [swapAt_length, h1], ?_⟩
  intro j hj
  unfold swapAt
  rw [set_getD _ _ _ _ (by rw [List.length_set, h1]; omega), set_getD _ _ _ _ (by rw [h1]; omega)]
  by_cases e1 : j = l.length - 1 - i
  · rw [if_pos e1, if_pos (by omega), h2 i (by omega), if_neg (by omega)]
    congr 1
    omega
  · rw [if_neg e1]
    by_cases e2 : j = i
    · rw [if_pos e2, if_pos (by omega), h2 _ (by omega), if_neg (by omega), e2]
    · rw [if_neg e2, h2 j hj]
      by_cases e3 : j < i ∨ l.length - 1 - j < i
      · rw [if_pos e3, if_pos (by omega)]
      · rw [if_neg e3, if_neg (by omega)]

theorem RevTo.done {l l' : List ℤ} (h : RevTo (l.length / 2) l l') (he : l.length % 2 = 0) :
    l' = l.reverse := by
  obtain ⟨h1, h2⟩ := h
  refine List.ext_getElem (by simp [h1]) ?_
  intro j g1 g2
  have := h2 j (by omega)
  rw [if_pos (by omega), List.getD_eq_getElem _ _ g1, List.getD_eq_getElem _ _ (by omega)] at this
  rw [this, List.getElem_reverse]

theorem WS.reverseAll (a : WS t h0 s w n p G b) (hl : ∀ k < 8, (G k).length = n) (hn : n % 2 = 0) :
    ∃ s', run t orc (forN (Heap.reverseRow (some w) n) (n / 2)) s = .ok ((), s') ∧ s'.next = s.next ∧
      WS t h0 s' w n p (fun k => (G k).reverse) b := by
  have key : ∀ i < n / 2, ∀ s1 : St (Val ℤ M), (s1.next = s.next ∧ ∃ H,
      WS t h0 s1 w n p H b ∧ ∀ k < 8, RevTo i (G k) (H k)) →
      ∃ s2, run t orc (Heap.reverseRow (some w) n i) s1 = .ok ((), s2) ∧ s2.next = s.next ∧ ∃ H,
        WS t h0 s2 w n p H b ∧ ∀ k < 8, RevTo (i + 1) (G k) (H k) := by
    rintro i hi s1 ⟨n1, H, a1, e1⟩
    obtain ⟨s2, r2, n2, a2⟩ := a1.reverseRow (orc := orc) (fun k hk => (e1 k hk).1.trans (hl k hk)) hi
    refine ⟨s2, r2, by omega, _, a2, fun k hk => ?_⟩
    have := (e1 k hk).step (by rw [hl k hk]; exact hi)
    rw [hl k hk] at this
    exact this
  obtain ⟨s', h1, h2, H, h3, h4⟩ := forN_spec (t := t) (orc := orc) (n := n / 2)
    (I := fun i s' => s'.next = s.next ∧ ∃ H, WS t h0 s' w n p H b ∧ ∀ k < 8, RevTo i (G k) (H k))
    (s := s) (body := Heap.reverseRow (some w) n)
    ⟨rfl, G, a, fun k hk => ⟨rfl, fun j hj => by rw [if_neg (by omega)]⟩⟩ key
  refine ⟨s', h1, h2, h3.congr fun k hk => ?_⟩
  exact RevTo.done (by rw [hl k hk]; exact h4 k hk) (by rw [hl k hk]; exact hn)

end

/-! ### `discrete_wavelet` -/

theorem fillLoop_length {b c : List ℤ} {n F : ℕ} : ∀ (k i : ℕ) (w w' : Wavelet ℤ),
    fillLoop b c n F i k w = .ok w' → w'.rec_lo.length = w.rec_lo.length ∧
      w'.dec_lo.length = w.dec_lo.length ∧ w'.rec_hi.length = w.rec_hi.length ∧
      w'.dec_hi.length = w.dec_hi.length := by
  intro k
  induction k with
  | zero => intro i w w' h; cases h; exact ⟨rfl, rfl, rfl, rfl⟩
  | succ k ih =>
    intro i w w' h
    unfold fillLoop at h
    cases r1 : rd b (i + n) with
    | error e => rw [r1] at h; cases h
    | ok bi =>
    rw [r1] at h
    simp only [C_bind_ok] at h
    cases r2 : Pywt.sub (F - 1) i with
    | error e => rw [r2] at h; cases h
    | ok j =>
    rw [r2] at h
    simp only [C_bind_ok] at h
    cases r3 : rd c j with
    | error e => rw [r3] at h; cases h
    | ok cj =>
    rw [r3] at h
    simp only [C_bind_ok] at h
    unfold wr at h
    by_cases g1 : i < w.rec_lo.length
    swap
    · rw [if_neg g1] at h; cases h
    by_cases g2 : i < w.dec_lo.length
    swap
    · rw [if_pos g1, if_neg g2] at h; cases h
    by_cases g3 : i < w.rec_hi.length
    swap
    · rw [if_pos g1, if_pos g2, if_neg g3] at h; cases h
    by_cases g4 : i < w.dec_hi.length
    swap
    · rw [if_pos g1, if_pos g2, if_pos g3, if_neg g4] at h; cases h
    rw [if_pos g1, if_pos g2, if_pos g3, if_pos g4] at h
    simp only [C_bind_ok] at h
    have := ih _ _ _ h
    simpa using this

theorem fillBank_length {b c : List ℤ} {n F : ℕ} {w : Wavelet ℤ} (h : fillBank b c n F = .ok w) :
    w.rec_lo.length = F ∧ w.dec_lo.length = F ∧ w.rec_hi.length = F ∧ w.dec_hi.length = F := by
  have := fillLoop_length _ _ _ _ h
  simpa using this

theorem orthFrom_shape {single : Bool} {ts : List (List Tables.Lit)} {order first F : ℕ} {f : FillFrom}
    (h : orthFrom single ts order first F = some f) : f.F = F ∧ first ≤ order := by
  unfold orthFrom at h
  split_ifs at h with h1
  split at h
  · cases h
  · cases h; exact ⟨rfl, by omega⟩

theorem fillFrom_shape {single : Bool} {name : Family} {order : ℕ} {f : FillFrom}
    (h : fillFrom single name order = some f) : 0 < f.F ∧ f.F % 2 = 0 := by
  cases name <;> simp only [fillFrom] at h
  case db => obtain ⟨h1, h2⟩ := orthFrom_shape h; omega
  case sym => obtain ⟨h1, h2⟩ := orthFrom_shape h; omega
  case coif =>
    simp only [Option.map_eq_some_iff] at h
    obtain ⟨g, h1, rfl⟩ := h
    obtain ⟨h1, h2⟩ := orthFrom_shape h1
    simp only; omega
  case bior =>
    split at h
    · cases h
    · next a b hb =>
      cases h
      simp only
      split_ifs with hN
      · rw [hN] at hb
        unfold biorIndex at hb
        simp only at hb
        split_ifs at hb with h1
        omega
      · omega
  case dmey => cases h; simp
  all_goals cases h

theorem fillFrom_F {name : Family} {order : ℕ} {f1 f2 : FillFrom}
    (h1 : fillFrom true name order = some f1) (h2 : fillFrom false name order = some f2) :
    f1.F = f2.F := by
  cases name <;> simp only [fillFrom] at h1 h2
  case db => rw [(orthFrom_shape h1).1, (orthFrom_shape h2).1]
  case sym => rw [(orthFrom_shape h1).1, (orthFrom_shape h2).1]
  case coif =>
    simp only [Option.map_eq_some_iff] at h1 h2
    obtain ⟨g1, h1, rfl⟩ := h1
    obtain ⟨g2, h2, rfl⟩ := h2
    simp only
    rw [(orthFrom_shape h1).1, (orthFrom_shape h2).1]
  case bior =>
    split at h1
    · cases h1
    · next a b hb =>
      rw [hb] at h2
      cases h1; cases h2; rfl
  case dmey => cases h1; cases h2; rfl
  all_goals cases h1

theorem fillWith_some {o : Option FillFrom} {w : Wavelet ℤ} (h : fillWith o = .ok (some w)) :
    ∃ f, o = some f ∧ fillBank f.b f.c f.n f.F = .ok w := by
  cases o with
  | none => cases h
  | some f =>
    refine ⟨f, rfl, ?_⟩
    simp only [fillWith] at h
    cases hb : fillBank f.b f.c f.n f.F with
    | error e => rw [hb] at h; cases h
    | ok v => rw [hb] at h; cases h; rfl

theorem run_fillFamily (s : St (Val ℤ M)) (hu : Unused t s.heap s.next) {name : Family} {order : ℕ}
    {w1 w2 : Wavelet ℤ} (h1 : fillWith (fillFrom true name order) = .ok (some w1))
    (h2 : fillWith (fillFrom false name order) = .ok (some w2)) :
    ∃ n r s', run t orc (fillFamily name order) s = .ok (r, s') ∧ s.next ≤ s'.next ∧
      0 < n ∧ n % 2 = 0 ∧
      (w1.dec_lo.length = n ∧ w1.dec_hi.length = n ∧ w1.rec_lo.length = n ∧ w1.rec_hi.length = n) ∧
      (w2.dec_lo.length = n ∧ w2.dec_hi.length = n ∧ w2.rec_lo.length = n ∧ w2.rec_hi.length = n) ∧
      MadeWS t orc s.heap s.next n (both w1 w2) r s' := by
  obtain ⟨f1, e1, b1⟩ := fillWith_some h1
  obtain ⟨f2, e2, b2⟩ := fillWith_some h2
  obtain ⟨g1, g2⟩ := fillFrom_shape e2
  have hF := fillFrom_F e1 e2
  obtain ⟨r, s', hr, hn, hm⟩ := run_fillWavelet (orc := orc) s hu hF g1 g2 b1 b2
  have l1 := fillBank_length b1
  have l2 := fillBank_length b2
  rw [hF] at l1
  refine ⟨f2.F, r, s', ?_, hn, g1, g2, ⟨l1.2.1, l1.2.2.2, l1.1, l1.2.2.1⟩,
    ⟨l2.2.1, l2.2.2.2, l2.1, l2.2.2.1⟩, ?_⟩
  · unfold fillFamily
    rw [e1, e2]
    exact hr
  · have : both w1 w2 = fun q => match q with | .float => w1 | .double => w2 := by
      funext q; cases q <;> rfl
    rw [this]
    exact hm

theorem slot_cases {k : ℕ} (hk : k < 8) : ∃ rec hi q, k = slot rec hi q := by
  obtain rfl | rfl | rfl | rfl | rfl | rfl | rfl | rfl : k = 0 ∨ k = 1 ∨ k = 2 ∨ k = 3 ∨ k = 4 ∨
      k = 5 ∨ k = 6 ∨ k = 7 := by omega
  · exact ⟨false, false, .double, rfl⟩
  · exact ⟨false, true, .double, rfl⟩
  · exact ⟨true, false, .double, rfl⟩
  · exact ⟨true, true, .double, rfl⟩
  · exact ⟨false, false, .float, rfl⟩
  · exact ⟨false, true, .float, rfl⟩
  · exact ⟨true, false, .float, rfl⟩
  · exact ⟨true, true, .float, rfl⟩

/-- `discrete_wavelet` for every family but `HAAR`, whatever allocations fail. -/
theorem run_discreteWavelet (s : St (Val ℤ M)) (hu : Unused t s.heap s.next) {name : Family} {order : ℕ}
    (hname : name ≠ .haar ∨ ∀ k, s.next ≤ k → orc k = true) {w1 w2 : Wavelet ℤ}
    (h1 : Pywt.discreteWavelet true name order = .ok (some w1))
    (h2 : Pywt.discreteWavelet false name order = .ok (some w2)) :
    ∃ n r s', run t orc (discreteWavelet name order) s = .ok (r, s') ∧ s.next ≤ s'.next ∧ 0 < n ∧
      (w1.dec_len = n ∧ w1.rec_len = n) ∧ (w2.dec_len = n ∧ w2.rec_len = n) ∧
      MadeWS t orc s.heap s.next n (both w1 w2) r s' := by
  have other : ∀ name' order', fillWith (fillFrom true name' order') = .ok (some w1) →
      fillWith (fillFrom false name' order') = .ok (some w2) →
      ∃ n r s', run t orc (fillFamily name' order') s = .ok (r, s') ∧ s.next ≤ s'.next ∧ 0 < n ∧
        (w1.dec_len = n ∧ w1.rec_len = n) ∧ (w2.dec_len = n ∧ w2.rec_len = n) ∧
        MadeWS t orc s.heap s.next n (both w1 w2) r s' := by
    intro name' order' h1 h2
    obtain ⟨n, r, s', hr, hn, hn0, hn2, l1, l2, hm⟩ := run_fillFamily (orc := orc) s hu h1 h2
    exact ⟨n, r, s', hr, hn, hn0, ⟨l1.1, l1.2.2.1⟩, ⟨l2.1, l2.2.2.1⟩, hm⟩
  cases name
  case haar =>
    obtain ⟨n, r, s', hr, hn, hn0, l1, l2, hm⟩ := other .db 1 h1 h2
    rcases hm with ⟨rfl, e1, k, e2, e3, e4⟩ | ⟨w, p, G, b, rfl, e1, e2, e3⟩
    · rcases hname with h | h
      · exact absurd rfl h
      · rw [h k e2] at e4; cases e4
    · obtain ⟨s2, r2, n2, a2⟩ := e2.setBase (orc := orc) (.num 2)
      refine ⟨n, some w, s2, ?_, by omega, hn0, l1, l2, Or.inr ⟨w, p, G, _, rfl, ?_, a2, e3⟩⟩
      · show run t orc (fillFamily .db 1 >>= fun w => setField w fBase (.num 2) >>= fun _ => pure w) s = _
        rw [run_bind_ok hr, run_bind_ok r2]
        rfl
      · rw [n2]; exact e1
  case rbio =>
    simp only [Pywt.discreteWavelet] at h1 h2
    cases g1 : fillWith (fillFrom true .bior order) with
    | error e => rw [g1] at h1; cases h1
    | ok v1 =>
    cases g2 : fillWith (fillFrom false .bior order) with
    | error e => rw [g2] at h2; cases h2
    | ok v2 =>
    rw [g1] at h1
    rw [g2] at h2
    cases v1 with
    | none => cases h1
    | some v1 =>
    cases v2 with
    | none => cases h2
    | some v2 =>
    cases h1; cases h2
    obtain ⟨n, r, s', hr, hn, hn0, hn2, l1, l2, hm⟩ := run_fillFamily (orc := orc) s hu g1 g2
    have lens : ((swapReverse v1).dec_len = n ∧ (swapReverse v1).rec_len = n) ∧
        ((swapReverse v2).dec_len = n ∧ (swapReverse v2).rec_len = n) := by
      simp only [swapReverse, Wavelet.dec_len, Wavelet.rec_len, List.length_reverse]
      exact ⟨⟨l1.2.2.1, l1.1⟩, ⟨l2.2.2.1, l2.1⟩⟩
    rcases hm with ⟨rfl, e1, e2⟩ | ⟨w, p, G, b, rfl, e1, a, q1, q2, q3, q4⟩
    · refine ⟨n, none, s', ?_, hn, hn0, lens.1, lens.2, Or.inl ⟨rfl, e1, e2⟩⟩
      unfold discreteWavelet
      simp only
      rw [run_bind_ok hr]
      rfl
    · have hl : ∀ k < 8, (G k).length = n := by
        intro k hk
        obtain ⟨rec, hi, q, rfl⟩ := slot_cases hk
        cases rec <;> cases hi
        · rw [q1]; cases q
          · exact l2.1
          · exact l1.1
        · rw [q2]; cases q
          · exact l2.2.1
          · exact l1.2.1
        · rw [q3]; cases q
          · exact l2.2.2.1
          · exact l1.2.2.1
        · rw [q4]; cases q
          · exact l2.2.2.2
          · exact l1.2.2.2
      obtain ⟨s1, r1, n1, a1⟩ := a.swapNum (orc := orc)
      obtain ⟨s2, r2, n2, a2⟩ := a1.swapPtr (orc := orc) (x := 6) (y := 4) (by simp)
      obtain ⟨s3, r3, n3, a3⟩ := a2.swapPtr (orc := orc) (x := 7) (y := 5) (by simp)
      obtain ⟨s4, r4, n4, a4⟩ := a3.swapPtr (orc := orc) (x := 2) (y := 0) (by simp)
      obtain ⟨s5, r5, n5, a5⟩ := a4.swapPtr (orc := orc) (x := 3) (y := 1) (by simp)
      have hsw : ∀ x y k, (x, y) ∈ [(6, 4), (7, 5), (2, 0), (3, 1)] → k < 8 → sw x y k < 8 := by
        intro x y k h hk
        simp only [List.mem_cons, Prod.mk.injEq, List.not_mem_nil, or_false] at h
        unfold sw
        split_ifs <;> omega
      obtain ⟨s6, r6, n6, a6⟩ := a5.reverseAll (orc := orc) (fun k hk => hl _
        (hsw _ _ _ (by simp) (hsw _ _ _ (by simp) (hsw _ _ _ (by simp) (hsw _ _ _ (by simp) hk))))) hn2
      obtain ⟨s7, r7, n7, a7⟩ := a6.setBase (orc := orc) (.num 3)
      refine ⟨n, some w, s7, ?_, by omega, hn0, lens.1, lens.2,
        Or.inr ⟨w, _, _, _, rfl, ?_, a7, ?_, ?_, ?_, ?_⟩⟩
      · unfold discreteWavelet
        simp only
        rw [run_bind_ok hr, if_neg (by simp), run_bind_ok r1]
        rw [show fFilter true false .float = 6 + 2 from rfl, show fFilter false false .float = 4 + 2 from rfl,
          show fFilter true true .float = 7 + 2 from rfl, show fFilter false true .float = 5 + 2 from rfl,
          show fFilter true false .double = 2 + 2 from rfl, show fFilter false false .double = 0 + 2 from rfl,
          show fFilter true true .double = 3 + 2 from rfl, show fFilter false true .double = 1 + 2 from rfl,
          run_bind_ok r2, run_bind_ok r3, run_bind_ok r4, run_bind_ok r5, run_bind_ok a5.recLen,
          run_bind_ok r6, run_bind_ok r7]
        rfl
      · rw [show s7.next = s'.next by omega]; exact e1
      · intro q
        cases q
        · exact congrArg List.reverse (q3 .double)
        · exact congrArg List.reverse (q3 .float)
      · intro q
        cases q
        · exact congrArg List.reverse (q4 .double)
        · exact congrArg List.reverse (q4 .float)
      · intro q
        cases q
        · exact congrArg List.reverse (q1 .double)
        · exact congrArg List.reverse (q1 .float)
      · intro q
        cases q
        · exact congrArg List.reverse (q2 .double)
        · exact congrArg List.reverse (q2 .float)
  all_goals
    simp only [Pywt.discreteWavelet] at h1 h2
    exact other _ _ h1 h2

theorem MadeWS.at {h0 : Ptr → Option (Blk (Val ℤ M))} {n0 n : ℕ} {wl : Prec → Wavelet ℤ} {r : Option Ptr}
    {s' : St (Val ℤ M)} (h : MadeWS t orc h0 n0 n wl r s') (hn : 0 < n) (h1 : ∀ q, (wl q).dec_len = n)
    (h2 : ∀ q, (wl q).rec_len = n) :
    (r = none ∧ s'.heap = h0 ∧ ∃ k, n0 ≤ k ∧ orc k = false) ∨
    ∃ w, r = some w ∧ MadeAt t orc h0 wl w s' := by
  rcases h with ⟨e1, e2, k, e3, e4, e5⟩ | ⟨w, p, G, b, rfl, e1, a, q1, q2, q3, q4⟩
  · exact Or.inl ⟨e1, e2, k, e3, e5⟩
  · rcases a.made hn e1 h1 h2 q1 q2 q3 q4 .value with ⟨h, -⟩ | ⟨w', h, -, g1, g2, g3, g4⟩
    · cases h
    · cases h
      exact Or.inr ⟨w, rfl, g1, g2, g3, g4⟩

/-- `Wavelet(name)`. -/
theorem run_waveletNamed (s : St (Val ℤ M)) (hu : Unused t s.heap s.next) (name : String)
    (hname : name.toLower ≠ "haar" ∨ ∀ k, s.next ≤ k → orc k = true) :
    ∃ r s', run t orc (waveletNamed name) s = .ok (r, s') ∧ s.next ≤ s'.next ∧
      match r with
      | .ok w => ∃ o1 o2, Pywt.waveletNamed true name = .ok o1 ∧ Pywt.waveletNamed false name = .ok o2 ∧
          MadeAt t orc s.heap (both o1.w o2.w) w s'
      | .error e => s'.heap = s.heap ∧ ((∀ single, Pywt.waveletNamed single name = .error e) ∨
          e = .value ∧ (∃ o1 o2, Pywt.waveletNamed true name = .ok o1 ∧
            Pywt.waveletNamed false name = .ok o2) ∧ ∃ k, s.next ≤ k ∧ orc k = false) := by
  by_cases hn : name = ""
  · refine ⟨.error .type, s, ?_, le_rfl, rfl, Or.inl ?_⟩
    · unfold waveletNamed
      rw [if_pos hn]
      rfl
    · intro single
      unfold Pywt.waveletNamed
      rw [if_pos hn]
      rfl
  by_cases hl : ∃ fam order, wnameLookup name.toLower = .ok (fam, order) ∧ fam.isDiscrete = true
  swap
  · refine ⟨.error .value, s, ?_, le_rfl, rfl, Or.inl fun single => waveletNamed_err hn hl⟩
    unfold waveletNamed
    rw [if_neg hn]
    cases e : wnameLookup name.toLower with
    | error x =>
      have : x = .value := by
        unfold wnameLookup at e
        simp only at e
        split at e <;> simp at e
        exact e.symm
      rw [this]
      rfl
    | ok c =>
      obtain ⟨fam, order⟩ := c
      have hd : ¬ fam.isDiscrete = true := fun hd => hl ⟨fam, order, e, hd⟩
      simp only [if_pos hd]
      rfl
  · obtain ⟨fam, order, hl, hd⟩ := hl
    have hmem := wnameLookup_discrete hl hd
    obtain ⟨w1, d1, -⟩ := entryCheck_ok (entryCheck_of_orderOk (single := true) (table_orderOk _ hmem hd))
    obtain ⟨w2, d2, -⟩ := entryCheck_ok (entryCheck_of_orderOk (single := false) (table_orderOk _ hmem hd))
    have o1 := waveletNamed_ok hn hl hd d1
    have o2 := waveletNamed_ok hn hl hd d2
    have hfam : fam ≠ .haar ∨ ∀ k, s.next ≤ k → orc k = true := by
      refine hname.imp_left fun h hf => h ?_
      have : ∀ e ∈ wnameToCode, e.2.1 = .haar → e.1 = "haar" := by decide +kernel
      exact this _ hmem hf
    obtain ⟨n, r, s', hr, hle, hn0, l1, l2, hm⟩ := run_discreteWavelet (orc := orc) s hu hfam d1 d2
    have hm' := hm.at hn0 (fun q => by cases q; exacts [l2.1, l1.1]) (fun q => by cases q; exacts [l2.2, l1.2])
    have hrun : ∀ x : Except PyErr Ptr, (r = none ∧ x = .error .value ∨ ∃ w, r = some w ∧ x = .ok w) →
        run t orc (waveletNamed name) s = .ok (x, s') := by
      intro x hx
      unfold waveletNamed
      rw [if_neg hn, hl]
      simp only
      rw [if_neg (by rw [hd]; simp), run_bind_ok hr]
      rcases hx with ⟨h1, rfl⟩ | ⟨w, h1, rfl⟩
      · rw [h1]; rfl
      · rw [h1]; rfl
    rcases hm' with ⟨rfl, e1, e2⟩ | ⟨w, rfl, e1⟩
    · exact ⟨.error .value, s', hrun _ (Or.inl ⟨rfl, rfl⟩), hle, e1, Or.inr ⟨rfl, ⟨_, _, o1, o2⟩, e2⟩⟩
    · exact ⟨.ok w, s', hrun _ (Or.inr ⟨w, rfl, rfl⟩), hle, _, _, o1, o2, e1⟩

/-- When the first allocation fails. -/
theorem run_fillFamily_fail (s : St (Val ℤ M)) (h : orc s.next = false) {name : Family} {order : ℕ}
    {w1 w2 : Wavelet ℤ} (h1 : fillWith (fillFrom true name order) = .ok (some w1))
    (h2 : fillWith (fillFrom false name order) = .ok (some w2)) :
    run t orc (fillFamily name order : Prog (Val ℤ M) _) s = .ok (none, { s with next := s.next + 1 }) := by
  obtain ⟨f1, e1, -⟩ := fillWith_some h1
  obtain ⟨f2, e2, -⟩ := fillWith_some h2
  unfold fillFamily
  rw [e1, e2]
  simp only
  unfold fillWavelet blankWavelet malloc
  simp [bind, Prog.bind, run, h, pure]

theorem run_discreteWavelet_fail (s : St (Val ℤ M)) (h : orc s.next = false) {name : Family} {order : ℕ}
    (hname : name ≠ .haar) {w1 w2 : Wavelet ℤ}
    (h1 : Pywt.discreteWavelet true name order = .ok (some w1))
    (h2 : Pywt.discreteWavelet false name order = .ok (some w2)) :
    run t orc (discreteWavelet name order : Prog (Val ℤ M) _) s =
      .ok (none, { s with next := s.next + 1 }) := by
  cases name
  case haar => exact absurd rfl hname
  case rbio =>
    simp only [Pywt.discreteWavelet] at h1 h2
    cases g1 : fillWith (fillFrom true .bior order) with
    | error e => rw [g1] at h1; cases h1
    | ok v1 =>
    cases g2 : fillWith (fillFrom false .bior order) with
    | error e => rw [g2] at h2; cases h2
    | ok v2 =>
    rw [g1] at h1
    rw [g2] at h2
    cases v1 with
    | none => cases h1
    | some v1 =>
    cases v2 with
    | none => cases h2
    | some v2 =>
    unfold discreteWavelet
    simp only
    rw [run_bind_ok (run_fillFamily_fail s h g1 g2)]
    rfl
  all_goals
    simp only [Pywt.discreteWavelet] at h1 h2
    unfold discreteWavelet
    simp only
    exact run_fillFamily_fail s h h1 h2

theorem run_waveletNamed_fail (s : St (Val ℤ M)) (h : orc s.next = false)
    (name : String) (hname : name.toLower ≠ "haar") {o : WaveletObj ℤ}
    (ho : Pywt.waveletNamed false name = .ok o) :
    run t orc (waveletNamed name) s = .ok (.error .value, { s with next := s.next + 1 }) := by
  by_cases hn : name = ""
  · unfold Pywt.waveletNamed at ho
    rw [if_pos hn] at ho
    cases ho
  by_cases hl : ∃ fam order, wnameLookup name.toLower = .ok (fam, order) ∧ fam.isDiscrete = true
  swap
  · rw [waveletNamed_err hn hl] at ho
    cases ho
  obtain ⟨fam, order, hl, hd⟩ := hl
  have hmem := wnameLookup_discrete hl hd
  obtain ⟨w1, d1, -⟩ := entryCheck_ok (entryCheck_of_orderOk (single := true) (table_orderOk _ hmem hd))
  obtain ⟨w2, d2, -⟩ := entryCheck_ok (entryCheck_of_orderOk (single := false) (table_orderOk _ hmem hd))
  have hfam : fam ≠ .haar := by
    intro hf
    have : ∀ e ∈ wnameToCode, e.2.1 = .haar → e.1 = "haar" := by decide +kernel
    exact hname (this _ hmem hf)
  unfold waveletNamed
  rw [if_neg hn, hl]
  simp only
  rw [if_neg (by rw [hd]; simp), run_bind_ok (run_discreteWavelet_fail s h hfam d1 d2)]
  rfl

/-- `Wavelet('haar')` when its first allocation fails. -/
theorem run_haar (s : St (Val ℤ M)) (h : orc s.next = false) {name : String} (hname : name.toLower = "haar") :
    run t orc (waveletNamed name) s = .error .null := by
  have hn : name ≠ "" := by
    rintro rfl
    have : "".toLower ≠ "haar" := by decide +kernel
    exact this hname
  have hl : wnameLookup "haar" = .ok (.haar, 0) := by decide +kernel
  unfold waveletNamed
  rw [if_neg hn, hname, hl]
  simp only
  rw [if_neg (by decide)]
  have hb : run t orc (fillFamily .db 1 : Prog (Val ℤ M) _) s = .ok (none, { s with next := s.next + 1 }) := by
    obtain ⟨w1, d1, -⟩ := entryCheck_ok (entryCheck_of_orderOk (single := true) (fam := .db) (order := 1) rfl)
    obtain ⟨w2, d2, -⟩ := entryCheck_ok (entryCheck_of_orderOk (single := false) (fam := .db) (order := 1) rfl)
    simp only [Pywt.discreteWavelet] at d1 d2
    exact run_fillFamily_fail s h d1 d2
  have : run t orc (discreteWavelet .haar 0 : Prog (Val ℤ M) _) s = .error .null := by
    show run t orc (fillFamily .db 1 >>= fun w => setField w fBase (.num 2) >>= fun _ => pure w) s = _
    rw [run_bind_ok hb]
    rfl
  refine (run_bind _ _ _).trans ?_
  rw [this]

end Pywt.Heap
