import Verif.Proof.EnergyN
import Verif.Proof.Examples

/-!
# Property C54: coefficients are recovered from their reconstruction; C17 for n-D and multilevel transforms
-/

set_option autoImplicit false

namespace Pywt

open Finset Spec

section

variable {R M : Type} [CommRing R] [AddCommGroup M] [Module R M]

/-- **C54.** In periodization mode the transform is a bijection: for a perfect-reconstruction wavelet and any
two sequences of the same length ≥ 1, `dwt(idwt(cA, cD)) = (cA, cD)`. -/
theorem C54_dwt_idwt {w : Wavelet R} (hw : w.Ok) (hpr : PR w.dec_lo w.dec_hi w.rec_lo w.rec_hi) {a d : List M}
    (had : a.length = d.length) (h1 : 1 ≤ a.length) :
    ∃ x, idwt w .periodization (some a) (some d) = .ok x ∧ x.length = 2 * a.length ∧
      dwt w .periodization x = .ok (a, d) :=
  dwt_idwt_per hw hpr had h1

/-- **C54.** In every other mode the coefficients that lie more than half a filter away from the ends are
recovered, whatever the coefficients are. -/
theorem C54_dwt_idwt_interior {w : Wavelet R} (hw : w.Ok) (hpr : PR w.dec_lo w.dec_hi w.rec_lo w.rec_hi)
    {mode : Mode} (hm : mode ≠ .periodization) {a d : List M} (had : a.length = d.length)
    (h1 : LenOk mode (2 * a.length + 2 - w.dec_len)) :
    ∃ x a' d', idwt w mode (some a) (some d) = .ok x ∧ dwt w mode x = .ok (a', d') ∧ a'.length = a.length ∧
      d'.length = d.length ∧ ∀ o, w.dec_len / 2 - 1 ≤ o → o + w.dec_len / 2 ≤ a.length →
        a'.getD o 0 = a.getD o 0 ∧ d'.getD o 0 = d.getD o 0 :=
  dwt_idwt_inner hw hpr hm had h1

/-- **C54.** In particular for filters of length 2 all coefficients are recovered in every mode. -/
theorem C54_dwt_idwt_short {w : Wavelet R} (hw : w.Ok) (h2 : w.dec_len = 2)
    (hpr : PR w.dec_lo w.dec_hi w.rec_lo w.rec_hi) {mode : Mode} {a d : List M}
    (had : a.length = d.length) (h1 : LenOk mode (2 * a.length)) :
    ∃ x, idwt w mode (some a) (some d) = .ok x ∧ dwt w mode x = .ok (a, d) := by
  by_cases hm : mode = .periodization
  · subst hm
    have := h1.1
    obtain ⟨x, hx1, -, hx2⟩ := dwt_idwt_per hw hpr had (by omega)
    exact ⟨x, hx1, hx2⟩
  · obtain ⟨x, a', d', e1, e2, e3, e4, e5⟩ := dwt_idwt_inner hw hpr hm had (by
      rw [h2, show 2 * a.length + 2 - 2 = 2 * a.length by omega]; exact h1)
    refine ⟨x, e1, ?_⟩
    rw [e2]
    rw [h2] at e5
    have ea : a' = a := by
      refine List.ext_getElem e3 fun i i1 i2 => ?_
      have := (e5 i (by omega) (by omega)).1
      rwa [List.getD_eq_getElem _ _ i1, List.getD_eq_getElem _ _ i2] at this
    have ed : d' = d := by
      refine List.ext_getElem e4 fun i i1 i2 => ?_
      have := (e5 i (by omega) (by omega)).2
      rwa [List.getD_eq_getElem _ _ i1, List.getD_eq_getElem _ _ i2] at this
    rw [ea, ed]

/-- **C54 (multilevel).** In periodization mode `wavedec(waverec([cA_n, cD_n, …, cD_1]), level=n)` is
`[cA_n, cD_n, …, cD_1]` for all coefficients whose lengths double from level to level. -/
theorem C54_wavedec_waverec {w : Wavelet R} (hw : w.Ok) (hpr : PR w.dec_lo w.dec_hi w.rec_lo w.rec_hi) {a : List M}
    {ds : List (List M)} (h1 : 1 ≤ a.length) (hd : DoublingLengths a.length ds) :
    ∃ x, waverec w .periodization (some a :: ds.map some) = .ok (some x) ∧ x.length = 2 ^ ds.length * a.length ∧
      wavedec w .periodization (some ds.length) x = .ok (a :: ds) :=
  wavedec_waverec hw hpr h1 hd

/-- **C54 (n-D).** `dwtn(idwtn(c))` is `c`, for every full dict of arrays of one shape. -/
theorem C54_dwtn_idwtn {st : List (Stage R)} (hst : PerStages st) (hn : (st.map (·.1)).Nodup) {S : List ℕ}
    (hd : 1 ≤ S.length) (hS : ∀ s ∈ st, s.1 < S.length ∧ 1 ≤ S.getD s.1 0) {f : Key → Arr M}
    (hf : ∀ k ∈ words st.length, (f k).shape = S) {wavelet : PerAxis (Wavelet R)} {mode : PerAxis Mode}
    {axes : Option (List ℤ)} (hr : Resolves S.length wavelet mode axes st) :
    ∃ y, idwtn ((words st.length).map fun k => (k, some (f k))) wavelet mode axes = .ok (some y) ∧
      y.shape = synthShape st S ∧
      dwtn y wavelet mode axes = .ok ((words st.length).map fun k => (k, f k)) :=
  dwtn_idwtn hst hn hd hS hf hr

/-- **C54 (multilevel n-D).** `wavedecn(waverecn(c), level=n)` is `c`. -/
theorem C54_wavedecn_waverecn {st : List (Stage R)} (hst : PerStages st) (hn : (st.map (·.1)).Nodup) (hne : st ≠ [])
    {A : Arr M} {ds : List (List (Key × Arr M))} (hA : ∀ s ∈ st, s.1 < A.shape.length ∧ 1 ≤ A.shape.getD s.1 0)
    (hds : DoublingDicts st ds A.shape) {wavelet : PerAxis (Wavelet R)} {mode : PerAxis Mode}
    {axes : Option (List ℤ)} (hr : Resolves A.ndim wavelet mode axes st) :
    ∃ x, waverecn (.arr A :: ds.map Item.ofDict) wavelet mode axes = .ok (.arr x) ∧
      x.shape = (synthShape st)^[ds.length] A.shape ∧
      wavedecn x wavelet mode (some ds.length) axes = .ok (.arr A :: ds.map Item.ofDict) :=
  wavedecn_waverecn hst hn hne hA hds hr

/-- **C54 (multilevel 2-D).** `wavedec2(waverec2(c), level=n)` is `c`. -/
theorem C54_wavedec2_waverec2 {s t : Stage R} (hst : PerStages [s, t]) (hne : s.1 ≠ t.1)
    {A : Arr M} {ps : List (Arr M × Arr M × Arr M)} (hA : ∀ u ∈ [s, t], u.1 < A.shape.length ∧ 1 ≤ A.shape.getD u.1 0)
    (hps : DoublingTriples [s, t] ps A.shape) {wavelet : PerAxis (Wavelet R)} {mode : PerAxis Mode}
    {axes : List ℤ} (hr : Resolves A.ndim wavelet mode (some axes) [s, t]) :
    ∃ x, waverec2 (.arr A :: ps.map Item.ofTriple) wavelet mode axes = .ok (.arr x) ∧
      x.shape = (synthShape [s, t])^[ps.length] A.shape ∧
      wavedec2 x wavelet mode (some ps.length) axes = .ok (.arr A :: ps.map Item.ofTriple) :=
  wavedec2_waverec2 hst hne hA hps hr

/-- **C54 (the reason).** In a perfect-reconstruction bank the filters are biorthogonal with respect to even
shifts: `Σ dec_lo[t]·rec_lo[s-t]` over the odd `s` is 1 at `s = F-1` and 0 elsewhere, and the same for the
high-pass filters; low-pass and high-pass filters are orthogonal to each other. -/
theorem C54_biorthogonal {dl dh rl rh : List R} (hF : dl.length % 2 = 0) (h2 : 2 ≤ dl.length)
    (h : PR dl dh rl rh) {s : ℕ} (hs : s % 2 = 1) :
    prodCoeff dl rl s = (if s + 1 = dl.length then 1 else 0) ∧ prodCoeff dl rh s = 0 ∧
      prodCoeff dh rl s = 0 ∧ prodCoeff dh rh s = if s + 1 = dl.length then 1 else 0 :=
  PR_dual hF h2 h hs

end

/-! The hypotheses are met. -/

example : ∃ x, idwt legallQ .periodization (some [(1 : ℚ), 2, 3]) (some [4, 5, 7]) = .ok x ∧
    dwt legallQ .periodization x = .ok ([1, 2, 3], [4, 5, 7]) := by
  obtain ⟨x, h1, -, h2⟩ := C54_dwt_idwt (M := ℚ) legallQ_ok legallQ_PR (a := [1, 2, 3]) (d := [4, 5, 7]) rfl (by decide)
  exact ⟨x, h1, h2⟩

example : Mode.symmetric ≠ .periodization ∧ LenOk .symmetric (2 * 6 + 2 - legallQ.dec_len) ∧
    legallQ.dec_len / 2 - 1 ≤ 2 ∧ 2 + legallQ.dec_len / 2 ≤ 6 := by decide

/-- **C54 (limit of the claim).** In the other modes the coefficients near the ends are not recovered: the
transform is redundant there. -/
theorem C54_edges_not_recovered :
    ∃ x, idwt legallQ .symmetric (some [(1 : ℚ), 0, 0, 0]) (some [0, 0, 0, 0]) = .ok x ∧
      dwt legallQ .symmetric x ≠ .ok ([1, 0, 0, 0], [0, 0, 0, 0]) :=
  ⟨[0, 0, 0, 0], by decide +kernel, by decide +kernel⟩

example : DoublingLengths 1 [[(4 : ℚ)], [1, 2], [5, 6, 7, 8]] := ⟨rfl, rfl, rfl, trivial⟩

example : PerStages [(1, haarQ, .periodization), (0, legallQ, .periodization)] := by
  intro s hs
  simp only [List.mem_cons, List.not_mem_nil, or_false] at hs
  rcases hs with rfl | rfl
  · exact ⟨rfl, haarQ_ok, haarQ_PR⟩
  · exact ⟨rfl, legallQ_ok, legallQ_PR⟩

example : DoublingDicts [(1, haarQ, .periodization), (0, legallQ, .periodization)]
    [[(['a', 'd'], (⟨[1, 1], [(2 : ℚ)], rfl⟩ : Arr ℚ)), (['d', 'a'], ⟨[1, 1], [3], rfl⟩), (['d', 'd'], ⟨[1, 1], [5], rfl⟩)],
      [(['a', 'd'], ⟨[2, 2], [1, 2, 3, 4], rfl⟩), (['d', 'a'], ⟨[2, 2], [1, 2, 3, 4], rfl⟩),
        (['d', 'd'], ⟨[2, 2], [5, 6, 7, 8], rfl⟩)]] [1, 1] := by
  refine ⟨by decide, by decide, by decide, by decide, trivial⟩

example : DoublingTriples [(1, haarQ, .periodization), (0, legallQ, .periodization)]
    [((⟨[1, 1], [(2 : ℚ)], rfl⟩ : Arr ℚ), ⟨[1, 1], [3], rfl⟩, ⟨[1, 1], [5], rfl⟩)] [1, 1] :=
  ⟨rfl, rfl, rfl, trivial⟩

/-! ### Energy -/

section

variable {R : Type} [CommRing R]

/-- The synthesis filters are the time-reversed analysis filters and the bank reconstructs perfectly. -/
def OrthogonalBank (w : Wavelet R) : Prop :=
  w.Ok ∧ w.rec_lo = w.dec_lo.reverse ∧ w.rec_hi = w.dec_hi.reverse ∧ PR w.dec_lo w.dec_hi w.rec_lo w.rec_hi

/-- Energy of an array: the sum of the squares of its elements. -/
def Arr.energy (x : Arr R) : R := Pywt.energy x.data

/-- Energy of a complex array. -/
noncomputable def Arr.energyC (x : Arr ℂ) : ℝ := Pywt.energyC x.data

theorem preserves_energy {w : Wavelet R} (h : OrthogonalBank w) : Preserves (fun v : R => v * v) w := by
  intro l hl
  by_cases h0 : l = []
  · subst h0
    simp [analysis]
  · have := List.length_pos_iff.mpr h0
    exact C17_dwt_energy h.1 ⟨h.2.1, h.2.2.1⟩ h.2.2.2 hl (dwt_ok h.1 ⟨by omega, by simp⟩)

theorem preserves_energyC {w : Wavelet ℝ} (h : OrthogonalBank w) : Preserves Complex.normSq w := by
  intro l hl
  by_cases h0 : l = []
  · subst h0
    simp [analysis]
  · have := List.length_pos_iff.mpr h0
    exact C17_dwt_energy_complex h.1 ⟨h.2.1, h.2.2.1⟩ h.2.2.2 hl (dwt_ok h.1 ⟨by omega, by simp⟩)

theorem wavedecLoop_energy {w : Wavelet R} (h : OrthogonalBank w) (n : ℕ) : ∀ (x : List R) (acc : List (List R))
    {r : List (List R)}, 2 ^ n ∣ x.length → wavedecLoop w .periodization n x acc = .ok r →
      (r.map energy).sum = (acc.map energy).sum + energy x := by
  induction n with
  | zero =>
    intro x acc r _ hr
    simp only [wavedecLoop, Except.ok.injEq] at hr
    rw [← hr]
    simp [add_comm]
  | succ n ih =>
    intro x acc r hx hr
    have hx2 : x.length % 2 = 0 := by
      have : 2 ∣ x.length := (dvd_pow_self 2 (by omega)).trans hx
      omega
    rw [wavedecLoop] at hr
    cases hd : dwt w .periodization x with
    | error e => rw [hd] at hr; simp at hr
    | ok p =>
      obtain ⟨a, d⟩ := p
      rw [hd] at hr
      simp only [Py_bind_ok] at hr
      have hok : SignalOk .periodization x := by
        by_contra hc
        rw [dwt_err h.1 hc] at hd
        cases hd
      have he := C17_dwt_energy h.1 ⟨h.2.1, h.2.2.1⟩ h.2.2.2 hx2 hd
      rw [dwt_ok h.1 hok] at hd
      simp only [Except.ok.injEq, Prod.mk.injEq] at hd
      have hal : a.length = x.length / 2 := by
        rw [← hd.1, analysis_length]
        simp only [coeffLen, if_pos]
        omega
      have := ih a (acc ++ [d]) (by
        rw [hal]
        obtain ⟨m, hm⟩ := hx
        refine ⟨m, ?_⟩
        rw [hm, pow_succ, Nat.mul_right_comm]
        omega) hr
      rw [this, ← he]
      simp only [List.map_append, List.sum_append, List.map_cons, List.map_nil, List.sum_cons, List.sum_nil]
      ring

/-- **C17 (multilevel).** For an orthogonal bank and a length divisible by `2^level`, the arrays that `wavedec`
returns in periodization mode have together the energy of the signal. -/
theorem C17_wavedec_energy {w : Wavelet R} (h : OrthogonalBank w) {l : ℕ} {x : List R} {r : List (List R)}
    (hx : 2 ^ l ∣ x.length) (hr : wavedec w .periodization (some l) x = .ok r) :
    (r.map energy).sum = energy x := by
  unfold wavedec at hr
  rw [checkLevel_one (show 2 ≤ w.dec_len from h.1.1)] at hr
  simp only at hr
  rw [if_neg (by omega), Py_bind_ok, Int.toNat_natCast] at hr
  rw [wavedecLoop_energy h l x [] hx hr]
  simp

/-- **C17 (inverse).** `idwt` and `waverec` preserve the energy of arbitrary coefficients. -/
theorem C17_waverec_energy {w : Wavelet R} (h : OrthogonalBank w) {a : List R} {ds : List (List R)}
    (h1 : 1 ≤ a.length) (hd : DoublingLengths a.length ds) :
    ∃ x, waverec w .periodization (some a :: ds.map some) = .ok (some x) ∧
      energy x = energy a + (ds.map energy).sum := by
  obtain ⟨x, x1, x2, x3⟩ := C54_wavedec_waverec h.1 h.2.2.2 h1 hd
  exact ⟨x, x1, (C17_wavedec_energy h ⟨_, x2⟩ x3).symm.trans (by simp)⟩

/-- The stages use periodization and orthogonal banks on distinct axes whose extents are divisible by `m`. -/
def OrthogonalStages (st : List (Stage R)) (shape : List ℕ) (m : ℕ) : Prop :=
  (st.map (·.1)).Nodup ∧ ∀ s ∈ st, s.2.2 = .periodization ∧ OrthogonalBank s.2.1 ∧ s.1 < shape.length ∧
    1 ≤ shape.getD s.1 0 ∧ m ∣ shape.getD s.1 0

theorem OrthogonalStages.stagesOk {st : List (Stage R)} {shape : List ℕ} {m : ℕ} (h : OrthogonalStages st shape m) :
    StagesOk st shape :=
  perStages_stagesOk (fun s hs => ⟨(h.2 s hs).1, (h.2 s hs).2.1.1, (h.2 s hs).2.1.2.2.2⟩) h.1
    fun s hs => ⟨(h.2 s hs).2.2.1, (h.2 s hs).2.2.2.1⟩

/-- **C17 (n-D).** `dwtn` preserves energy. -/
theorem C17_dwtn_energy {st : List (Stage R)} {x : Arr R} {wavelet : PerAxis (Wavelet R)} {mode : PerAxis Mode}
    {axes : Option (List ℤ)} (hd : 1 ≤ x.ndim) (hr : Resolves x.ndim wavelet mode axes st)
    (hst : OrthogonalStages st x.shape 2) :
    ∃ c, dwtn x wavelet mode axes = .ok c ∧ (c.map fun p => p.2.energy).sum = x.energy := by
  refine ⟨_, dwtn_ok hd hr hst.stagesOk, ?_⟩
  rw [List.map_map]
  exact sumBy_subbands (φ := fun v : R => v * v) hst.1 fun s hs => by
    obtain ⟨h1, h2, h3, h4, h5⟩ := hst.2 s hs
    exact ⟨h1, h2.1, preserves_energy h2, h3, by omega⟩

/-- **C17 (n-D, complex data).** -/
theorem C17_dwtn_energy_complex {st : List (Stage ℝ)} {x : Arr ℂ} {wavelet : PerAxis (Wavelet ℝ)} {mode : PerAxis Mode}
    {axes : Option (List ℤ)} (hd : 1 ≤ x.ndim) (hr : Resolves x.ndim wavelet mode axes st)
    (hst : OrthogonalStages st x.shape 2) :
    ∃ c, dwtn x wavelet mode axes = .ok c ∧ (c.map fun p => p.2.energyC).sum = x.energyC := by
  refine ⟨_, dwtn_ok hd hr hst.stagesOk, ?_⟩
  rw [List.map_map]
  exact sumBy_subbands (φ := Complex.normSq) hst.1 fun s hs => by
    obtain ⟨h1, h2, h3, h4, h5⟩ := hst.2 s hs
    exact ⟨h1, h2.1, preserves_energyC h2, h3, by omega⟩

/-- **C17 (multilevel n-D).** The arrays that `wavedecn` returns have together the energy of the array. -/
theorem C17_wavedecn_energy {st : List (Stage R)} (hne : st ≠ []) {x : Arr R} {wavelet : PerAxis (Wavelet R)}
    {mode : PerAxis Mode} {axes : Option (List ℤ)} {l : ℕ} (hr : Resolves x.ndim wavelet mode axes st)
    (hst : OrthogonalStages st x.shape (2 ^ l)) :
    ∃ (A : Arr R) (ds : List (List (Key × Arr R))), wavedecn x wavelet mode (some l) axes = .ok (.arr A :: ds.map Item.ofDict) ∧ ds.length = l ∧
      A.energy + (ds.map fun d => (d.map fun p => p.2.energy).sum).sum = x.energy := by
  have hper : PerStages st := fun s hs => ⟨(hst.2 s hs).1, (hst.2 s hs).2.1.1, (hst.2 s hs).2.1.2.2.2⟩
  have hxs : ∀ s ∈ st, s.1 < x.shape.length ∧ 1 ≤ x.shape.getD s.1 0 :=
    fun s hs => ⟨(hst.2 s hs).2.2.1, (hst.2 s hs).2.2.2.1⟩
  have hd : 1 ≤ x.shape.length := by
    cases st with
    | nil => exact absurd rfl hne
    | cons s st => have := (hxs s (by simp)).1; omega
  obtain ⟨L, -, h⟩ := wavedecn_eq (wavelet := wavelet) (mode := mode) (axes := axes) (st := st) hd hne hr
      (fun s hs => ⟨(hxs s hs).1, (hper s hs).2.1⟩) hst.1
  refine ⟨x.approxN st l, ((List.range l).map fun j => x.detailsN st j).reverse, ?_, by simp, ?_⟩
  · rw [h]
    have e0 : ¬ (some (l : ℤ)).any (· < 0) = true := by simp
    rw [if_neg e0]
    simp only [Option.map_some, Int.toNat_natCast, Option.getD_some]
    rw [if_pos (perStages_levels hper hst.1 _ hxs)]
    unfold Arr.cascadeN
    rw [List.map_reverse, List.map_map]
    rfl
  · rw [List.map_reverse, List.sum_reverse, List.map_map]
    exact sumBy_cascade (φ := fun v : R => v * v) hst.1 l fun s hs => by
      obtain ⟨h1, h2, h3, h4, h5⟩ := hst.2 s hs
      exact ⟨h1, h2.1, preserves_energy h2, h3, h5⟩

/-- **C17 (n-D inverse).** `idwtn` preserves the energy of arbitrary coefficients. -/
theorem C17_idwtn_energy {st : List (Stage R)} {S : List ℕ} (hd : 1 ≤ S.length) (hst : OrthogonalStages st S 1)
    {f : Key → Arr R} (hf : ∀ k ∈ words st.length, (f k).shape = S) {wavelet : PerAxis (Wavelet R)}
    {mode : PerAxis Mode} {axes : Option (List ℤ)} (hr : Resolves S.length wavelet mode axes st) :
    ∃ y, idwtn ((words st.length).map fun k => (k, some (f k))) wavelet mode axes = .ok (some y) ∧
      y.energy = ((words st.length).map fun k => (f k).energy).sum := by
  have hper : PerStages st := fun s hs => ⟨(hst.2 s hs).1, (hst.2 s hs).2.1.1, (hst.2 s hs).2.1.2.2.2⟩
  have hS : ∀ s ∈ st, s.1 < S.length ∧ 1 ≤ S.getD s.1 0 :=
    fun s hs => ⟨(hst.2 s hs).2.2.1, (hst.2 s hs).2.2.2.1⟩
  obtain ⟨y, y1, y2, y3⟩ := C54_dwtn_idwtn hper hst.1 hd hS hf hr
  refine ⟨y, y1, ?_⟩
  have hyl : y.ndim = S.length := by unfold Arr.ndim; rw [y2, synthShape_length]
  obtain ⟨c, c1, c2⟩ := C17_dwtn_energy (x := y) (st := st) (by rw [hyl]; exact hd) (by rw [hyl]; exact hr) (by
    refine ⟨hst.1, fun s hs => ?_⟩
    obtain ⟨h1, h2, h3, h4, -⟩ := hst.2 s hs
    obtain ⟨p1, p2⟩ := perStages_synthShape hper hst.1 hS s hs
    rw [y2]
    refine ⟨h1, h2, p1, p2, ?_⟩
    rw [synthShape_eq hst.1 hs h3, h1]
    exact ⟨_, rfl⟩)
  rw [y3] at c1
  simp only [Except.ok.injEq] at c1
  rw [← c2, ← c1, List.map_map]
  rfl

theorem Item.ofDict_injective {M : Type} : Function.Injective (Item.ofDict (M := M)) := by
  intro a b h
  simp only [Item.ofDict, Item.dict.injEq] at h
  refine List.map_injective_iff.mpr ?_ h
  rintro ⟨k, x⟩ ⟨k', x'⟩ e
  simpa using e

theorem iterate_synthShape {st : List (Stage R)} (hst : PerStages st) (hn : (st.map (·.1)).Nodup) (n : ℕ) :
    ∀ {S : List ℕ}, (∀ s ∈ st, s.1 < S.length ∧ 1 ≤ S.getD s.1 0) →
      ((synthShape st)^[n] S).length = S.length ∧
      ∀ s ∈ st, ((synthShape st)^[n] S).getD s.1 0 = 2 ^ n * S.getD s.1 0 := by
  induction n with
  | zero => intro S _; simp
  | succ n ih =>
    intro S hS
    rw [Function.iterate_succ_apply]
    obtain ⟨h1, h2⟩ := ih (perStages_synthShape hst hn hS)
    rw [synthShape_length] at h1
    refine ⟨h1, fun s hs => ?_⟩
    rw [h2 s hs, synthShape_eq hn hs (hS s hs).1, (hst s hs).1]
    show 2 ^ n * (2 * _) = _
    rw [pow_succ, Nat.mul_assoc]

/-- **C17 (multilevel n-D inverse).** `waverecn` preserves the energy of arbitrary coefficients. -/
theorem C17_waverecn_energy {st : List (Stage R)} (hne : st ≠ []) {A : Arr R} {ds : List (List (Key × Arr R))}
    (hst : OrthogonalStages st A.shape 1) (hds : DoublingDicts st ds A.shape) {wavelet : PerAxis (Wavelet R)}
    {mode : PerAxis Mode} {axes : Option (List ℤ)} (hr : Resolves A.ndim wavelet mode axes st) :
    ∃ x, waverecn (.arr A :: ds.map Item.ofDict) wavelet mode axes = .ok (.arr x) ∧
      x.energy = A.energy + (ds.map fun d => (d.map fun p => p.2.energy).sum).sum := by
  have hper : PerStages st := fun s hs => ⟨(hst.2 s hs).1, (hst.2 s hs).2.1.1, (hst.2 s hs).2.1.2.2.2⟩
  have hS : ∀ s ∈ st, s.1 < A.shape.length ∧ 1 ≤ A.shape.getD s.1 0 :=
    fun s hs => ⟨(hst.2 s hs).2.2.1, (hst.2 s hs).2.2.2.1⟩
  obtain ⟨x, x1, x2, x3⟩ := C54_wavedecn_waverecn hper hst.1 hne hS hds hr
  refine ⟨x, x1, ?_⟩
  obtain ⟨i1, i2⟩ := iterate_synthShape hper hst.1 ds.length hS
  obtain ⟨A', ds', y1, -, y3⟩ := C17_wavedecn_energy (x := x) (st := st) (l := ds.length) hne
    (by unfold Arr.ndim; rw [x2, i1]; exact hr) (by
      refine ⟨hst.1, fun s hs => ?_⟩
      obtain ⟨h1, h2, h3, h4, -⟩ := hst.2 s hs
      rw [x2, i1, i2 s hs]
      refine ⟨h1, h2, h3, ?_, ⟨_, rfl⟩⟩
      have := Nat.pos_of_ne_zero (n := 2 ^ ds.length) (by simp)
      exact Nat.mul_pos this h4)
  rw [x3] at y1
  simp only [Except.ok.injEq, List.cons.injEq, Item.arr.injEq] at y1
  obtain ⟨rfl, y1⟩ := y1
  have : ds = ds' := List.map_injective_iff.mpr Item.ofDict_injective y1
  rw [← y3, this]

end

theorem rotQ_orthogonal : OrthogonalBank rotQ := ⟨by decide, by decide +kernel, by decide +kernel, rotQ_PR⟩

example : OrthogonalStages [(1, rotQ, .periodization), (0, rotQ, .periodization)] [4, 8] (2 ^ 2) := by
  refine ⟨by simp, ?_⟩
  intro s hs
  simp only [List.mem_cons, List.not_mem_nil, or_false] at hs
  rcases hs with rfl | rfl
  · exact ⟨rfl, rotQ_orthogonal, by decide, by decide, by decide⟩
  · exact ⟨rfl, rotQ_orthogonal, by decide, by decide, by decide⟩

end Pywt
