import Verif.Proof.BuiltinTable

/-! Consequences of the table check for `discrete_wavelet` and `Wavelet(name)`. -/

namespace Pywt

open Finset Spec

set_option linter.unusedSectionVars false

/-- The orders `discrete_wavelet` accepts. -/
def orderOk (fam : Family) (order : ℕ) : Bool :=
  match fam with
  | .haar | .dmey => true
  | .db => decide (1 ≤ order ∧ order ≤ 38)
  | .sym => decide (2 ≤ order ∧ order ≤ 20)
  | .coif => decide (1 ≤ order ∧ order ≤ 17)
  | .bior | .rbio => decide (order ∈ biorOrders)
  | _ => false

theorem orderOk_iff {fam : Family} {order : ℕ} : orderOk fam order = true ↔ OrderExists fam order := by
  cases fam <;> simp [orderOk, OrderExists, biorOrders]

theorem orthFrom_none {single : Bool} {ts : List (List Tables.Lit)} {order first F : ℕ}
    (h : order < first ∨ first + ts.length ≤ order) : orthFrom single ts order first F = none := by
  unfold orthFrom
  by_cases h1 : order < first
  · rw [if_pos h1]
  · rw [if_neg h1, List.getElem?_eq_none (by omega)]

theorem biorIndex_none {order : ℕ} (h : order ∉ biorOrders) : biorIndex (order / 10) (order % 10) = none := by
  by_cases ho : order < 70
  · have : ∀ order < 70, order ∉ biorOrders → biorIndex (order / 10) (order % 10) = none := by
      decide +kernel
    exact this order ho h
  · unfold biorIndex
    split <;> first | omega | rfl

theorem entryCheck_of_orderOk {single : Bool} {fam : Family} {order : ℕ} (h : orderOk fam order = true) :
    entryCheck single fam order = true := by
  have hbior : ∀ k ∈ biorOrders, entryCheck single .bior k = true ∧ entryCheck single .rbio k = true := by
    intro k hk
    cases single
    · have := List.all_eq_true.mp bior_double k hk
      simpa using this
    · have := List.all_eq_true.mp bior_single k hk
      simpa using this
  cases fam <;> simp only [orderOk, decide_eq_true_eq, reduceCtorEq] at h
  case haar =>
    cases single
    · exact haar_double
    · exact haar_single
  case dmey =>
    cases single
    · exact dmey_double
    · exact dmey_single
  case db =>
    obtain ⟨k, rfl⟩ : ∃ k, order = k + 1 := ⟨order - 1, by omega⟩
    cases single
    · exact List.all_eq_true.mp db_double k (by simp; omega)
    · exact List.all_eq_true.mp db_single k (by simp; omega)
  case sym =>
    obtain ⟨k, rfl⟩ : ∃ k, order = k + 2 := ⟨order - 2, by omega⟩
    cases single
    · exact List.all_eq_true.mp sym_double k (by simp; omega)
    · exact List.all_eq_true.mp sym_single k (by simp; omega)
  case coif =>
    obtain ⟨k, rfl⟩ : ∃ k, order = k + 1 := ⟨order - 1, by omega⟩
    cases single
    · exact List.all_eq_true.mp coif_double k (by simp; omega)
    · exact List.all_eq_true.mp coif_single k (by simp; omega)
  case bior => exact (hbior order h).1
  case rbio => exact (hbior order h).2

theorem discreteWavelet_none {single : Bool} {fam : Family} {order : ℕ} (h : orderOk fam order = false) :
    discreteWavelet single fam order = .ok none := by
  cases fam <;> simp only [orderOk, decide_eq_false_iff_not, reduceCtorEq] at h
  case db =>
    have : fillFrom single .db order = none := orthFrom_none (by
      have : Tables.db.length = 38 := rfl
      omega)
    simp only [discreteWavelet, this]; rfl
  case sym =>
    have : fillFrom single .sym order = none := orthFrom_none (by
      have : Tables.sym.length = 19 := rfl
      omega)
    simp only [discreteWavelet, this]; rfl
  case coif =>
    have h0 : orthFrom single Tables.coif order 1 (6 * order) = none := orthFrom_none (by
      have : Tables.coif.length = 17 := rfl
      omega)
    have : fillFrom single .coif order = none := by simp only [fillFrom, h0]; rfl
    simp only [discreteWavelet, this]; rfl
  case bior =>
    have : fillFrom single .bior order = none := by simp only [fillFrom, biorIndex_none h]
    simp only [discreteWavelet, this]; rfl
  case rbio =>
    have : fillFrom single .bior order = none := by simp only [fillFrom, biorIndex_none h]
    simp only [discreteWavelet, this]; rfl
  all_goals rfl

/-- Every discrete wavelet in the table of names has an order that exists. -/
theorem table_orderOk : ∀ e ∈ wnameToCode, e.2.1.isDiscrete = true → orderOk e.2.1 e.2.2 = true := by
  decide +kernel

/-- The lookup of the names in the table themselves. -/
theorem table_lookup : ∀ e ∈ wnameToCode, e.1 ≠ "" ∧ e.1.toLower = e.1 ∧ wnameLookup e.1 = .ok e.2 := by
  decide +kernel

theorem lookup_mem {α β : Type} [BEq α] [LawfulBEq α] {l : List (α × β)} {a : α} {b : β}
    (h : l.lookup a = some b) : (a, b) ∈ l := by
  induction l with
  | nil => simp at h
  | cons p l ih =>
    obtain ⟨x, y⟩ := p
    rw [List.lookup_cons] at h
    by_cases hx : a == x
    · rw [hx] at h
      simp only [Option.some.injEq] at h
      rw [eq_of_beq hx, h]
      exact List.mem_cons_self
    · rw [Bool.not_eq_true] at hx
      rw [hx] at h
      exact List.mem_cons_of_mem _ (ih h)

theorem waveletNamed_ok {single : Bool} {name : String} {fam : Family} {order : ℕ} (h0 : name ≠ "")
    (hl : wnameLookup name.toLower = .ok (fam, order)) (hd : fam.isDiscrete = true) {w : Wavelet ℤ}
    (hw : discreteWavelet single fam order = .ok (some w)) :
    waveletNamed single name = .ok ⟨name.toLower, order, w, (discreteInfo fam order).1,
      (discreteInfo fam order).2.1, (discreteInfo fam order).2.2.1, (discreteInfo fam order).2.2.2.1,
      (discreteInfo fam order).2.2.2.2.1, (discreteInfo fam order).2.2.2.2.2.1,
      (discreteInfo fam order).2.2.2.2.2.2⟩ := by
  unfold waveletNamed
  simp only [if_neg h0, hl, Py_bind_ok, hd, hw, liftC]
  rfl

theorem waveletNamed_err {single : Bool} {name : String} (h0 : name ≠ "")
    (h : ¬ ∃ fam order, wnameLookup name.toLower = .ok (fam, order) ∧ fam.isDiscrete = true) :
    waveletNamed single name = .error .value := by
  unfold waveletNamed
  simp only [if_neg h0]
  cases hl : wnameLookup name.toLower with
  | error e =>
    have : e = .value := by
      unfold wnameLookup at hl
      simp only at hl
      split at hl <;> simp at hl
      exact hl.symm
    rw [this]; rfl
  | ok c =>
    obtain ⟨fam, order⟩ := c
    have hd : fam.isDiscrete = false := by
      by_contra hd
      exact h ⟨fam, order, hl, by simpa using hd⟩
    simp only [Py_bind_ok, hd]
    rfl

theorem wnameLookup_discrete {name : String} {fam : Family} {order : ℕ}
    (h : wnameLookup name = .ok (fam, order)) (hd : fam.isDiscrete = true) : (name, fam, order) ∈ wnameToCode := by
  unfold wnameLookup at h
  simp only at h
  split at h
  · rename_i c hc
    simp only [Except.ok.injEq] at h
    subst h
    have hmem := lookup_mem hc
    split_ifs at hc hmem with hcond
    · exfalso
      have hcont : ∀ s ∈ ["cmor", "shan", "fbsp"], ∀ e ∈ wnameToCode, e.1 = s → e.2.1.isDiscrete = false := by
        decide +kernel
      have := hcont _ hcond.2 _ hmem rfl
      simp only at this
      rw [hd] at this
      simp at this
    · exact hmem
  · simp at h

theorem realBank_ok {w : Wavelet ℤ} (h : w.Ok) : (realBank w).Ok := by
  obtain ⟨h1, h2, h3, h4, h5⟩ := h
  unfold realBank
  exact ⟨by simpa using h1, by simpa using h2, by simpa using h3, by simpa using h4, by simpa using h5⟩

theorem builtin_ok {single : Bool} {name : String} {fam : Family} {order : ℕ}
    (h : (name, fam, order) ∈ wnameToCode) (hd : fam.isDiscrete = true) :
    ∃ o, waveletNamed single name = .ok o ∧ discreteWavelet single fam order = .ok (some o.w) ∧ o.w.Ok ∧
      o.name = name ∧ o.number = order ∧ o.orthogonal = (discreteInfo fam order).1 ∧
      PRWithin (((tolerance single fam).1 : ℝ) / (tolerance single fam).2) (realBank o.w).dec_lo
        (realBank o.w).dec_hi (realBank o.w).rec_lo (realBank o.w).rec_hi := by
  obtain ⟨w, hw, hok, hpr⟩ := entryCheck_ok (entryCheck_of_orderOk (single := single) (table_orderOk _ h hd))
  obtain ⟨h0, hlow, hl⟩ := table_lookup _ h
  simp only at h0 hlow hl hd hw hpr
  have := waveletNamed_ok h0 (by rw [hlow]; exact hl) hd hw
  exact ⟨_, this, hw, hok, hlow, rfl, rfl, hpr⟩

/-- Tables of the orthogonal families: both low-pass filters come from the same table. -/
theorem fillFrom_same {single : Bool} {fam : Family} (hb : fam ≠ .bior) {order : ℕ} {f : FillFrom}
    (h : fillFrom single fam order = some f) : f.c = f.b ∧ f.n = 0 := by
  have ho : ∀ {ts first F} {f : FillFrom}, orthFrom single ts order first F = some f → f.c = f.b ∧ f.n = 0 := by
    intro ts first F f h
    unfold orthFrom at h
    split_ifs at h
    split at h
    · simp at h
    · simp only [Option.some.injEq] at h
      subst h
      exact ⟨rfl, rfl⟩
  cases fam <;> simp only [fillFrom, reduceCtorEq] at h
  case bior => exact absurd rfl hb
  case coif =>
    cases ho' : orthFrom single Tables.coif order 1 (6 * order) with
    | none => rw [ho'] at h; simp at h
    | some g =>
      rw [ho'] at h
      simp only [Option.map_some, Option.some.injEq] at h
      subst h
      exact ⟨rfl, rfl⟩
  case db => exact ho h
  case sym => exact ho h
  case dmey =>
    simp only [Option.some.injEq] at h
    subst h
    exact ⟨rfl, rfl⟩

theorem FromPair.mirror {w : Wavelet ℤ} {b : List ℤ} (h : FromPair w b b) :
    w.dec_lo = w.rec_lo.reverse ∧ w.dec_hi = w.rec_hi.reverse := by
  refine ⟨by rw [h.dl, h.rl], ?_⟩
  apply List.ext_getElem
  · rw [h.dhl, List.length_reverse, h.rhl]
  · intro i h1 h2
    rw [h.dhl] at h1
    rw [← List.getD_eq_getElem _ 0, h.dh i h1, List.getElem_reverse, ← List.getD_eq_getElem _ 0, h.rhl,
      h.rh _ (by omega)]
    congr 2
    omega

theorem orth_mirror {single : Bool} {fam : Family} {order : ℕ} (h1 : fam ≠ .bior) (h2 : fam ≠ .rbio)
    {w : Wavelet ℤ} (hw : discreteWavelet single fam order = .ok (some w)) :
    w.dec_lo = w.rec_lo.reverse ∧ w.dec_hi = w.rec_hi.reverse := by
  have hok : orderOk fam order = true := by
    by_contra hn
    rw [discreteWavelet_none (by simpa using hn)] at hw
    simp at hw
  have hc := entryCheck_of_orderOk (single := single) hok
  have main : ∀ (fam' : Family) (tol : ℕ × ℕ) (o' : ℕ), fam' ≠ .bior →
      fillCheck false tol (fillFrom single fam' o') = true → fillWith (fillFrom single fam' o') = .ok (some w) →
      w.dec_lo = w.rec_lo.reverse ∧ w.dec_hi = w.rec_hi.reverse := by
    intro fam' tol o' hf hchk hfill
    cases hff : fillFrom single fam' o' with
    | none => rw [hff] at hfill; simp [fillWith] at hfill
    | some f =>
      obtain ⟨hcb, hn⟩ := fillFrom_same hf hff
      rw [hff] at hchk hfill
      simp only [fillCheck, Bool.and_eq_true, decide_eq_true_eq] at hchk
      obtain ⟨⟨⟨⟨g1, g2⟩, g3⟩, g4⟩, -⟩ := hchk
      obtain ⟨w', hw', hpair⟩ := fillBank_ok g1 g2 g3 g4
      have : w' = w := by
        simp only [fillWith, hw'] at hfill
        have : (Except.ok (some w') : C (Option (Wavelet ℤ))) = .ok (some w) := hfill
        simpa using this
      subst this
      rw [hn, List.drop_zero, ← hcb, ← g4, List.take_length] at hpair
      exact hpair.mirror
  by_cases hh : fam = .haar
  · subst hh
    exact main .db _ 1 (by decide) hc hw
  · have e1 : entryCheck single fam order = fillCheck false (tolerance single fam) (fillFrom single fam order) := by
      cases fam <;> first | rfl | exact absurd rfl hh | exact absurd rfl h2
    have e2 : discreteWavelet single fam order = fillWith (fillFrom single fam order) := by
      cases fam <;> first | rfl | exact absurd rfl hh | exact absurd rfl h2
    rw [e1] at hc
    rw [e2] at hw
    exact main fam _ order h1 hc hw

/-! ### Accuracy of the literals -/

theorem roundDiv_error (n : ℕ) {d : ℕ} (hd : 0 < d) :
    2 * (roundDiv n d * d) ≤ 2 * n + d ∧ 2 * n ≤ 2 * (roundDiv n d * d) + d := by
  have h := Nat.div_add_mod n d
  have hlt := Nat.mod_lt n hd
  have hc : n / d * d = d * (n / d) := mul_comm _ _
  unfold roundDiv
  simp only
  split_ifs <;> (try rw [add_mul, one_mul]) <;> rw [hc] <;> omega

theorem roundBits_error {p n d : ℕ} (hp : 1 ≤ p) (hd : 0 < d) (h : 2 ^ (p - 1) ≤ n / d) :
    2 ^ p * (roundBits p n d * d) ≤ 2 ^ p * n + n ∧ 2 ^ p * n ≤ 2 ^ p * (roundBits p n d * d) + n := by
  have h0 : n / d ≠ 0 := by
    have : 0 < 2 ^ (p - 1) := by positivity
    omega
  have hL : p - 1 ≤ Nat.log2 (n / d) := (Nat.le_log2 h0).mpr h
  unfold roundBits
  simp only
  set sh := Nat.log2 (n / d) + 1 - p with hsh
  obtain ⟨e1, e2⟩ := roundDiv_error n (show 0 < d * 2 ^ sh by positivity)
  set r := roundDiv n (d * 2 ^ sh)
  have hpow : 2 ^ p * 2 ^ sh = 2 * 2 ^ Nat.log2 (n / d) := by
    rw [← pow_add, ← pow_succ']; congr 1; omega
  have hle : d * 2 ^ Nat.log2 (n / d) ≤ n :=
    le_trans (Nat.mul_le_mul_left d (Nat.log2_self_le h0)) (Nat.mul_div_le n d)
  have e3 : 2 ^ p * (r * 2 ^ sh * d) = 2 ^ p * (r * (d * 2 ^ sh)) := by ring
  have e4 : 2 ^ p * (d * 2 ^ sh) ≤ 2 * n := by
    calc 2 ^ p * (d * 2 ^ sh) = d * (2 ^ p * 2 ^ sh) := by ring
      _ = 2 * (d * 2 ^ Nat.log2 (n / d)) := by rw [hpow]; ring
      _ ≤ 2 * n := by omega
  rw [e3]
  have f1 := Nat.mul_le_mul_left (2 ^ p) e1
  have f2 := Nat.mul_le_mul_left (2 ^ p) e2
  rw [mul_add] at f1 f2
  constructor <;> nlinarith

theorem withSign_abs (s : ℤ) (n : ℕ) (q : ℚ) (d : ℚ) (h : (s : ℚ) / d = (if s < 0 then -q else q)) :
    |((withSign s n : ℤ) : ℚ) / 2 ^ fxBits - s / d| = |(n : ℚ) / 2 ^ fxBits - q| := by
  rw [h]
  unfold withSign
  split_ifs
  · push_cast
    rw [← abs_neg]
    congr 1
    ring
  · push_cast; rfl

theorem litDouble_error (l : Tables.Lit) (h : 2 ^ 52 * 10 ^ l.2 ≤ l.1.natAbs * 2 ^ fxBits) :
    |fxVal (litDouble l) - l.1 / 10 ^ l.2| ≤ |(l.1 : ℚ) / 10 ^ l.2| / 2 ^ 53 := by
  obtain ⟨z, k⟩ := l
  simp only at h ⊢
  have hk : (0 : ℚ) < 10 ^ k := by positivity
  have hE : (0 : ℚ) < 2 ^ fxBits := by positivity
  have habs : |(z : ℚ) / 10 ^ k| = (z.natAbs : ℚ) / 10 ^ k := by
    rw [abs_div, abs_of_pos hk]
    congr 1
    rw [Nat.cast_natAbs]; push_cast; rfl
  rw [habs]
  unfold fxVal litDouble
  simp only
  rw [withSign_abs z _ ((z.natAbs : ℚ) / 10 ^ k) (10 ^ k)]
  · obtain ⟨e1, e2⟩ := roundBits_error (p := 53) (n := z.natAbs * 2 ^ fxBits) (d := 10 ^ k) (by norm_num)
      (by positivity) ((Nat.le_div_iff_mul_le (by positivity)).mpr h)
    set r := roundBits 53 (z.natAbs * 2 ^ fxBits) (10 ^ k)
    have e1' : (2 : ℚ) ^ 53 * (r * 10 ^ k) ≤ 2 ^ 53 * (z.natAbs * 2 ^ fxBits) + z.natAbs * 2 ^ fxBits := by exact_mod_cast e1
    have e2' : (2 : ℚ) ^ 53 * (z.natAbs * 2 ^ fxBits) ≤ 2 ^ 53 * (r * 10 ^ k) + z.natAbs * 2 ^ fxBits := by exact_mod_cast e2
    have hd : (r : ℚ) / 2 ^ fxBits - z.natAbs / 10 ^ k = (r * 10 ^ k - z.natAbs * 2 ^ fxBits) / (2 ^ fxBits * 10 ^ k) := by
      field_simp
    have hr : (z.natAbs : ℚ) / 10 ^ k / 2 ^ 53 = (z.natAbs * 2 ^ fxBits / 2 ^ 53) / (2 ^ fxBits * 10 ^ k) := by
      field_simp
    rw [hd, hr, abs_div, abs_of_pos (show (0 : ℚ) < 2 ^ fxBits * 10 ^ k by positivity)]
    apply div_le_div_of_nonneg_right _ (by positivity)
    rw [abs_le]
    constructor
    · rw [neg_le_iff_add_nonneg, ← mul_le_mul_iff_right₀ (show (0 : ℚ) < 2 ^ 53 by positivity)]
      have : (2 : ℚ) ^ 53 * (z.natAbs * 2 ^ fxBits / 2 ^ 53) = z.natAbs * 2 ^ fxBits := by field_simp
      rw [mul_add, this]
      linarith
    · rw [← mul_le_mul_iff_right₀ (show (0 : ℚ) < 2 ^ 53 by positivity)]
      have : (2 : ℚ) ^ 53 * (z.natAbs * 2 ^ fxBits / 2 ^ 53) = z.natAbs * 2 ^ fxBits := by field_simp
      rw [this]
      linarith
  · have : (z : ℚ) = if z < 0 then -(z.natAbs : ℚ) else z.natAbs := by
      split_ifs
      · rw [Nat.cast_natAbs, abs_of_neg (by omega)]; push_cast; ring
      · rw [Nat.cast_natAbs, abs_of_nonneg (by omega)]
    conv_lhs => rw [this]
    split_ifs <;> ring

end Pywt
