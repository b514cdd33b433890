import Verif.Proof.Axis
import Verif.Spec.Axis

/-! The C drivers apply the 1-D transform to every line. -/

namespace Pywt

open Finset Spec

set_option linter.unusedSectionVars false

variable {R M : Type} [Ring R] [AddCommGroup M] [Module R M]

/-! ### Lines -/

/-- A line of an array in memory. -/
def Mem.line (c : Mem M) (axis : ℕ) (idx : ℕ → ℕ) : List M :=
  (List.range (c.info.shape.getD axis 0)).map fun j : ℕ => c.get (Function.update idx axis j)

@[simp] theorem Mem.line_length (c : Mem M) (axis : ℕ) (idx : ℕ → ℕ) :
    (c.line axis idx).length = c.info.shape.getD axis 0 := by simp [Mem.line]

@[simp] theorem Arr.line_length (a : Arr M) (axis : ℕ) (idx : ℕ → ℕ) :
    (a.line axis idx).length = a.shape.getD axis 0 := by simp [Arr.line]

theorem Arr.line_getElem (a : Arr M) (axis : ℕ) (idx : ℕ → ℕ) (j : ℕ)
    (h : j < (a.line axis idx).length) :
    (a.line axis idx)[j] = a.get (Function.update idx axis j) := by simp [Arr.line]

theorem Mem.get_congr (c : Mem M) {f g : ℕ → ℕ} (h : ∀ k < c.info.ndim, f k = g k) :
    c.get f = c.get g := by
  unfold Mem.get
  rw [dot_congr h]

theorem Mem.line_congr (c : Mem M) {axis : ℕ} {f g : ℕ → ℕ}
    (h : ∀ k < c.info.ndim, k ≠ axis → f k = g k) : c.line axis f = c.line axis g := by
  unfold Mem.line
  apply List.map_congr_left
  intro j _
  apply c.get_congr
  intro k hk
  by_cases hka : k = axis
  · subst hka; simp
  · rw [Function.update_of_ne hka, Function.update_of_ne hka, h k hk hka]

theorem Arr.line_congr (a : Arr M) {axis : ℕ} {f g : ℕ → ℕ}
    (h : ∀ k < a.shape.length, k ≠ axis → f k = g k) : a.line axis f = a.line axis g := by
  unfold Arr.line
  apply List.map_congr_left
  intro j _
  apply a.get_congr
  intro k hk
  by_cases hka : k = axis
  · subst hka; simp
  · rw [Function.update_of_ne hka, Function.update_of_ne hka, h k hk hka]

theorem Arr.toMem_get (a : Arr M) (idx : ℕ → ℕ) : a.toMem.get idx = a.get idx := by
  unfold Mem.get Arr.toMem Arr.get Info.ndim
  simp only [zero_add]
  rw [dot_cstrides, Int.toNat_natCast]

theorem Arr.toMem_line (a : Arr M) (axis : ℕ) (idx : ℕ → ℕ) :
    a.toMem.line axis idx = a.line axis idx := by
  unfold Mem.line Arr.line
  simp only [Arr.toMem_get]
  rfl

theorem Arr.toMem_ok (a : Arr M) : a.toMem.Ok := by
  intro idx h
  simp only [Arr.toMem, Info.ndim, zero_add]
  rw [dot_cstrides, a.ok]
  have := h.ravel_lt
  exact ⟨by omega, by exact_mod_cast this⟩

theorem getD_set {l : List ℕ} {i j n : ℕ} (hi : i < l.length) :
    (l.set i n).getD j 0 = if j = i then n else l.getD j 0 := by
  by_cases h : j = i
  · subst h
    simp [List.getD_eq_getElem?_getD, hi]
  · simp [List.getD_eq_getElem?_getD, h, Ne.symm h]

theorem inB_set {shape : List ℕ} {axis n : ℕ} {idx : ℕ → ℕ} (ha : axis < shape.length) :
    InB (shape.set axis n) idx ↔
      idx axis < n ∧ ∀ k < shape.length, k ≠ axis → idx k < shape.getD k 0 := by
  unfold InB
  simp only [List.length_set]
  constructor
  · intro h
    refine ⟨by have := h axis ha; rwa [getD_set ha, if_pos rfl] at this, ?_⟩
    intro k hk hka
    have := h k hk
    rwa [getD_set ha, if_neg hka] at this
  · rintro ⟨h1, h2⟩ k hk
    rw [getD_set ha]
    split
    · next h => rw [h]; exact h1
    · next h => exact h2 k hk h

/-- Reading line number `i` of an input array. -/
theorem readLine {c : Mem M} (hc : c.Ok) {oshape : List ℕ} {axis i : ℕ} (ha : axis < oshape.length)
    (hl : c.info.shape.length = oshape.length)
    (hs : ∀ k < oshape.length, k ≠ axis → c.info.shape.getD k 0 = oshape.getD k 0)
    (hi : i < numTo oshape axis oshape.length) :
    readRow c.data (c.base + rowOffset oshape c.info.strides axis oshape.length i 0)
      (c.info.strides.getD axis 0) (c.info.shape.getD axis 0) =
        .ok (c.line axis (digit oshape axis oshape.length i)) := by
  have haddr : ∀ j : ℕ, c.base + rowOffset oshape c.info.strides axis oshape.length i 0 +
      j * c.info.strides.getD axis 0 = c.base + dot c.info.strides
        (Function.update (digit oshape axis oshape.length i) axis j) c.info.ndim := by
    intro j
    rw [Info.ndim, hl, dot_update ha (digit_axis ha), rowOffset_eq]
    ring
  rw [readRow_eq]
  · congr 1
    unfold Mem.line
    apply List.map_congr_left
    intro j _
    rw [haddr]
    rfl
  · intro j hj
    rw [haddr]
    apply hc
    intro k hk
    by_cases hka : k = axis
    · subst hka; simpa using hj
    · rw [Function.update_of_ne hka, hs k (by omega) hka]
      exact digit_lt hi k (by omega) hka

theorem Local_line (a : Arr M) (axis : ℕ) (g : List M → List M) {n : ℕ} (hn : n = a.shape.length)
    (ha : axis < n) :
    Arr.Local n fun idx => (g (a.line axis idx)).getD (idx axis) 0 := by
  intro f h hfh
  simp only
  rw [a.line_congr (g := h) (fun k hk _ => hfh k (by omega)), hfh axis ha]

theorem Local_memline (a : Mem M) (axis : ℕ) (g : List M → List M) {n : ℕ} (hn : n = a.info.ndim)
    (ha : axis < n) :
    Arr.Local n fun idx => (g (a.line axis idx)).getD (idx axis) 0 := by
  intro f h hfh
  simp only
  rw [a.line_congr (g := h) (fun k hk _ => hfh k (by omega)), hfh axis ha]

theorem toArr_eq {shape : List ℕ} {data : List M} {f : (ℕ → ℕ) → M} (hl : data.length = shape.prod)
    (hf : Arr.Local shape.length f)
    (h : ∀ idx, InB shape idx → data.getD (ravelIx shape idx shape.length) 0 = f idx) :
    toArr shape data = .ok (Arr.ofFn shape f) := by
  unfold toArr
  rw [dif_pos hl]
  congr 1
  apply Arr.ext_get (a := ⟨shape, data, hl⟩) (b := Arr.ofFn shape f) rfl
  intro idx hidx
  rw [Arr.get_ofFn hf hidx]
  exact h idx hidx

/-! ### `downcoef_axis` -/

/-- `g` applied to every line of an array in memory. -/
def Mem.along (axis n : ℕ) (g : List M → List M) (c : Mem M) : Arr M :=
  Arr.ofFn (c.info.shape.set axis n) fun idx => (g (c.line axis idx)).getD (idx axis) 0

theorem Arr.toMem_along (a : Arr M) (axis n : ℕ) (g : List M → List M) :
    a.toMem.along axis n g = a.along axis n g := by
  unfold Mem.along Arr.along
  simp only [Arr.toMem_line]
  rfl

theorem downcoefAxisCall_eq {w : Wavelet R} {axis : ℕ} {approx : Bool} {t : Transform} {c : Mem M}
    (hc : c.Ok) (ha : axis < c.info.shape.length) {n : ℕ} {g : List M → List M}
    (hn : t.outLen w.dec_len (c.info.shape.getD axis 0) = n)
    (hk : ∀ row orow : List M, row.length = c.info.shape.getD axis 0 → orow.length = n →
      t.kernel w approx row orow = .ok (some (g row)))
    (hg : ∀ row : List M, row.length = c.info.shape.getD axis 0 → (g row).length = n) :
    downcoefAxisCall w axis approx t c (c.info.shape.set axis n) = .ok (c.along axis n g) := by
  have hoa : axis < (c.info.shape.set axis n).length := by simpa using ha
  have hoaxis : (c.info.shape.set axis n).getD axis 0 = n := by rw [getD_set ha, if_pos rfl]
  obtain ⟨out', e, hl, hv⟩ := rowLoop_spec (shape := c.info.shape.set axis n) (axis := axis) hoa
    (out := zeros (M := M) (c.info.shape.set axis n).prod)
    (body := downcoefRow w axis approx t c.data c.base c.info
      ⟨c.info.shape.set axis n, cstrides (c.info.shape.set axis n)⟩)
    (rows := fun i => g (c.line axis (digit (c.info.shape.set axis n) axis
      (c.info.shape.set axis n).length i)))
    (by simp) (by
      intro i hi orow horow
      unfold downcoefRow Info.ndim
      simp only
      rw [readLine hc hoa (by simp) (by
        intro k hk hka
        rw [getD_set ha, if_neg hka]) hi]
      simp only [C_bind_ok]
      rw [hk _ _ (by simp) (by rw [horow, hoaxis])]
      rfl) (by
      intro i _
      rw [hg _ (by simp), hoaxis])
  have e2 : downcoefAxis w axis approx t c.data c.base c.info
      (zeros (c.info.shape.set axis n).prod)
      ⟨c.info.shape.set axis n, cstrides (c.info.shape.set axis n)⟩ = .ok (some out') := by
    unfold downcoefAxis
    rw [if_neg (by simp [Info.ndim]), if_neg (by simp [Info.ndim]; omega), if_neg]
    · rw [e]
      rfl
    · simp only [List.any_eq_true, not_exists, not_and]
      intro i hi
      simp only [getD_set ha]
      by_cases h : i = axis
      · subst h; simp only [if_true, hn]; simp
      · simp [h]
  unfold downcoefAxisCall
  rw [e2]
  simp only [callC, Py_bind_ok]
  apply toArr_eq hl (Local_memline c axis g (by simp [Info.ndim]) (by simpa using ha))
  intro idx hidx
  rw [hv idx hidx]
  congr 2
  apply c.line_congr
  intro k hk hka
  exact digit_rank (fun k hk _ => hidx k hk) k (by simpa [Info.ndim] using hk) hka

/-- `dwt_axis` applied to data in any memory layout: the 1-D transform of every line. -/
theorem dwtAxisMem_ok {w : Wavelet R} (hw : w.Ok) {mode : Mode} {axis : ℕ} {c : Mem M} (hc : c.Ok)
    (ha : axis < c.info.ndim) (hx1 : 1 ≤ c.info.shape.getD axis 0)
    (hx2 : tooShort (c.info.shape.getD axis 0) mode = false) :
    dwtAxisMem w mode axis c = .ok
      (c.along axis (coeffLen mode (c.info.shape.getD axis 0) w.dec_len) (analysis mode w.dec_lo),
       c.along axis (coeffLen mode (c.info.shape.getD axis 0) w.dec_len)
        (analysis mode w.dec_hi)) := by
  have hF : 2 ≤ w.dec_len := hw.1
  have hsig : ∀ row : List M, row.length = c.info.shape.getD axis 0 → SignalOk mode row := by
    intro row hrow
    rw [signalOk_iff]
    refine ⟨?_, by rw [hrow]; exact hx2⟩
    intro h; subst h; rw [List.length_nil] at hrow; omega
  have e1 : ¬ axis ≥ c.info.ndim := by omega
  have e2 : ¬ c.info.shape.getD axis 0 < 1 := by omega
  have e3 : ¬ w.dec_len < 1 := by omega
  simp only [dwtAxisMem, dwtCoeffLen, if_neg e1, hx2, if_neg e2, if_neg e3,
    dwtBufferLength_eq hx1 (show 1 ≤ w.dec_len by omega), Py_bind_ok, Py_pure, Bool.false_eq_true,
    if_false]
  rw [downcoefAxisCall_eq hc ha (g := analysis mode w.dec_lo),
    downcoefAxisCall_eq hc ha (g := analysis mode w.dec_hi)]
  · rfl
  · simp only [Transform.outLen]; rw [dwtBufferLength_eq hx1 (by omega)]
  · intro row orow h1 h2
    simp only [Transform.kernel, dec_d]
    rw [show w.dec_len = w.dec_hi.length from hw.2.2.1.symm]
    exact decStep_eq (hsig row h1) (by have := hw.2.2.1; have := hw.1; omega)
      (by rw [h2, h1, hw.2.2.1]; rfl)
  · intro row h1
    rw [analysis_length, h1, hw.2.2.1]; rfl
  · simp only [Transform.outLen]; rw [dwtBufferLength_eq hx1 (by omega)]
  · intro row orow h1 h2
    simp only [Transform.kernel, dec_a]
    exact decStep_eq (hsig row h1) (by have := hw.1; omega) (by rw [h2, h1]; rfl)
  · intro row h1
    rw [analysis_length, h1]; rfl

theorem dwtAxis_ok {w : Wavelet R} (hw : w.Ok) {mode : Mode} {axis : ℕ} {a : Arr M}
    (ha : axis < a.ndim) (hx1 : 1 ≤ a.shape.getD axis 0)
    (hx2 : tooShort (a.shape.getD axis 0) mode = false) :
    dwtAxis w mode axis a = .ok
      (a.along axis (coeffLen mode (a.shape.getD axis 0) w.dec_len) (analysis mode w.dec_lo),
       a.along axis (coeffLen mode (a.shape.getD axis 0) w.dec_len) (analysis mode w.dec_hi)) := by
  rw [← Arr.toMem_along, ← Arr.toMem_along]
  exact dwtAxisMem_ok hw a.toMem_ok ha hx1 hx2

theorem dwtAxisMem_err {w : Wavelet R} {mode : Mode} {axis : ℕ} {c : Mem M}
    (ha : axis < c.info.ndim)
    (h : c.info.shape.getD axis 0 = 0 ∨ tooShort (c.info.shape.getD axis 0) mode = true) :
    dwtAxisMem w mode axis c = .error .value := by
  unfold dwtAxisMem
  rw [if_neg (by omega)]
  by_cases h2 : tooShort (c.info.shape.getD axis 0) mode = true
  · rw [if_pos h2]; rfl
  · rw [if_neg h2]
    unfold dwtCoeffLen
    rw [if_pos (by simp only [h2] at h; simp at h ⊢; omega)]
    rfl

end Pywt

namespace Pywt

open Finset Spec

set_option linter.unusedSectionVars false

variable {R M : Type} [Ring R] [AddCommGroup M] [Module R M]

/-! ### `idwt_axis` -/

/-- A line of the coefficients; missing coefficients are zeros. -/
def lineOf (c : Option (Mem M)) (n axis : ℕ) (idx : ℕ → ℕ) : List M :=
  match c with
  | none => zeros n
  | some c => c.line axis idx

/-- What one of the two synthesis filters contributes. -/
def upPart (mode : Mode) (f : List R) (c : List M) (n : ℕ) : List M :=
  if mode = .periodization then
    (List.range n).map fun n : ℕ =>
      conv f (upsample (Spec.ext .periodic c)) ((n : ℤ) + ((f.length / 2 : ℕ) - 1))
  else (List.range n).map fun n : ℕ =>
      conv f (upsample (Spec.ext .zero c)) ((n : ℤ) + (f.length - 2))

@[simp] theorem upPart_length (mode : Mode) (f : List R) (c : List M) (n : ℕ) :
    (upPart mode f c n).length = n := by unfold upPart; split <;> simp

theorem at'_zeros (n : ℕ) (p : ℤ) : at' (zeros n : List M) p = 0 := by
  unfold at' zeros
  by_cases h : p.toNat < n
  · rw [List.getD_eq_getElem (hn := by simpa using h)]; simp
  · rw [List.getD_eq_default _ _ (by simpa using h)]

theorem upPart_zeros (mode : Mode) (f : List R) (m n : ℕ) :
    upPart mode f (zeros m : List M) n = zeros n := by
  have h1 : ∀ p, Spec.ext .periodic (zeros m : List M) p = 0 := by
    intro p; simp [Spec.ext, at'_zeros]
  have h2 : ∀ p, Spec.ext .zero (zeros m : List M) p = 0 := by
    intro p; simp [Spec.ext, at'_zeros]
  unfold upPart
  simp only [conv, upsample, h1, h2, ite_self, smul_zero, sum_const_zero]
  unfold zeros
  simp

theorem zipWith_zeros_right (l : List M) (n : ℕ) (h : n = l.length) :
    List.zipWith (· + ·) l (zeros n) = l := by
  subst h
  apply List.ext_getElem (by simp)
  intro k hk1 hk2
  simp [zeros]

theorem synthesis_eq_upPart {mode : Mode} {lo hi : List R} {a d : List M}
    (hlen : hi.length = lo.length) :
    synthesis mode lo hi a d = List.zipWith (· + ·) (upPart mode lo a (synthLen mode a.length lo.length))
      (upPart mode hi d (synthLen mode a.length lo.length)) := by
  cases mode <;> simp only [synthesis, synthLen, upPart, if_true, reduceCtorEq, if_false, hlen] <;>
  · apply List.ext_getElem (by simp)
    intro k hk1 hk2
    simp

theorem idwtAxisPart_eq {f : List R} {axis : ℕ} {oshape : List ℕ} {ostr : List ℤ} {mode : Mode}
    {c : Option (Mem M)} {n i : ℕ} {orow : List M} (hF : 2 ≤ f.length) (hF2 : f.length % 2 = 0)
    (ha : axis < oshape.length)
    (hc : ∀ m, c = some m → m.Ok ∧ m.info.shape.length = oshape.length ∧
      m.info.shape.getD axis 0 = n ∧
      ∀ k < oshape.length, k ≠ axis → m.info.shape.getD k 0 = oshape.getD k 0)
    (hi : i < numTo oshape axis oshape.length)
    (hlen : 1 ≤ synthLen mode n f.length) (ho : orow.length = synthLen mode n f.length) :
    idwtAxisPart f axis ⟨oshape, ostr⟩ mode c i orow =
      .ok (List.zipWith (· + ·) orow
        (upPart mode f (lineOf c n axis (digit oshape axis oshape.length i)) orow.length)) := by
  cases c with
  | none =>
    simp only [idwtAxisPart, lineOf]
    rw [upPart_zeros, zipWith_zeros_right _ _ rfl]
    rfl
  | some c =>
    obtain ⟨h1, h2, h3, h4⟩ := hc c rfl
    simp only [idwtAxisPart, lineOf, Info.ndim]
    rw [readLine h1 ha h2 h4 hi]
    simp only [C_bind_ok]
    rw [usConv_eq hF hF2 (by rw [Mem.line_length, h3]; exact hlen)
      (by rw [Mem.line_length, h3]; exact ho)]
    rfl

theorem idwtAxisMem_ok {w : Wavelet R} (hw : w.Ok) {mode : Mode} {axis : ℕ}
    {ca cd : Option (Mem M)} {shape : List ℕ} (hsome : ca.isSome ∨ cd.isSome)
    (hca : ∀ m, ca = some m → m.Ok ∧ m.info.shape = shape)
    (hcd : ∀ m, cd = some m → m.Ok ∧ m.info.shape = shape)
    (ha : axis < shape.length) (hlen : 1 ≤ synthLen mode (shape.getD axis 0) w.rec_len) :
    idwtAxisMem w mode axis ca cd = .ok (some
      (Arr.ofFn (shape.set axis (synthLen mode (shape.getD axis 0) w.rec_len)) fun idx =>
        (synthesis mode w.rec_lo w.rec_hi (lineOf ca (shape.getD axis 0) axis idx)
          (lineOf cd (shape.getD axis 0) axis idx)).getD (idx axis) 0)) := by
  obtain ⟨w1, w2, w3, w4, w5⟩ := hw
  have w6 : w.rec_hi.length = w.rec_lo.length := by omega
  set n := synthLen mode (shape.getD axis 0) w.rec_len with hn
  set N := shape.getD axis 0 with hN
  have hoa : axis < (shape.set axis n).length := by simpa using ha
  have hoaxis : (shape.set axis n).getD axis 0 = n := by rw [getD_set ha, if_pos rfl]
  have hpart : ∀ c : Option (Mem M), (∀ m, c = some m → m.Ok ∧ m.info.shape = shape) →
      (∀ m, c = some m → m.Ok ∧ m.info.shape.length = (shape.set axis n).length ∧
      m.info.shape.getD axis 0 = N ∧
      ∀ k < (shape.set axis n).length, k ≠ axis →
        m.info.shape.getD k 0 = (shape.set axis n).getD k 0) := by
    intro c hc m hm
    obtain ⟨h1, h2⟩ := hc m hm
    refine ⟨h1, by simp [h2], by rw [h2], ?_⟩
    intro k hk hka
    rw [getD_set ha, if_neg hka, h2]
  have hll : ∀ (c : Option (Mem M)) idx, (∀ m, c = some m → m.Ok ∧ m.info.shape = shape) →
      (lineOf c N axis idx).length = N := by
    intro c idx hc
    cases c with
    | none => simp [lineOf]
    | some c => simp only [lineOf, Mem.line_length, (hc c rfl).2, hN]
  obtain ⟨out', e, hl, hv⟩ := rowLoop_spec (shape := shape.set axis n) (axis := axis) hoa
    (out := zeros (M := M) (shape.set axis n).prod)
    (body := idwtRow w axis ⟨shape.set axis n, cstrides (shape.set axis n)⟩ mode ca cd)
    (rows := fun i => synthesis mode w.rec_lo w.rec_hi
      (lineOf ca N axis (digit (shape.set axis n) axis (shape.set axis n).length i))
      (lineOf cd N axis (digit (shape.set axis n) axis (shape.set axis n).length i)))
    (by simp) (by
      intro i hi orow horow
      rw [hoaxis] at horow
      simp only [idwtRow]
      rw [idwtAxisPart_eq (n := N) (by omega) (by omega) hoa (hpart ca hca) hi hlen
        (by rw [zeros_length, horow, hn]; rfl)]
      simp only [C_bind_ok]
      rw [zipWith_zeros _ _ (by simp)]
      rw [idwtAxisPart_eq (n := N) (by omega) (by omega) hoa (hpart cd hcd) hi (by rw [w6]; exact hlen)
        (by rw [upPart_length, zeros_length, horow, hn, w6]; rfl)]
      rw [synthesis_eq_upPart w6, hll _ _ hca]
      simp only [upPart_length, zeros_length, horow, hn]
      rfl) (by
      intro i _
      rw [hoaxis, synthesis_length, hll _ _ hca]; rfl)
  have hb : idwtBufferLength N w.rec_len mode = some n := idwtBufferLength_eq hlen
  have hC : idwtAxisC w axis mode ca cd (zeros (shape.set axis n).prod)
      ⟨shape.set axis n, cstrides (shape.set axis n)⟩ = .ok (some out') := by
    have hany : ¬ ((List.range (shape.set axis n).length).any fun i => i ≠ axis &&
        (!(haveOk ca (fun c => decide (c.shape.getD i 0 = (shape.set axis n).getD i 0))) ||
          !(haveOk cd (fun c => decide (c.shape.getD i 0 = (shape.set axis n).getD i 0))))) = true := by
      simp only [List.any_eq_true, not_exists, not_and, List.mem_range]
      intro i hi
      simp only [getD_set ha]
      by_cases h : i = axis
      · simp [h]
      · cases ca with
        | none => cases cd with
          | none => simp [haveOk]
          | some d => simp [haveOk, h, (hcd d rfl).2]
        | some a => cases cd with
          | none => simp [haveOk, h, (hca a rfl).2]
          | some d => simp [haveOk, h, (hca a rfl).2, (hcd d rfl).2]
    have e0 : ¬ (!(haveOk ca (fun c => decide (c.shape.length = (shape.set axis n).length))) ||
        !(haveOk cd (fun c => decide (c.shape.length = (shape.set axis n).length)))) = true := by
      cases ca with
      | none => cases cd with
        | none => simp [haveOk]
        | some d => simp [haveOk, (hcd d rfl).2]
      | some a => cases cd with
        | none => simp [haveOk, (hca a rfl).2]
        | some d => simp [haveOk, (hca a rfl).2, (hcd d rfl).2]
    cases ca with
    | none =>
      cases cd with
      | none => simp at hsome
      | some d =>
        have hd := (hcd d rfl).2
        have e1 : ¬ axis ≥ (shape.set axis n).length := by omega
        simp only [idwtAxisC, Info.ndim]
        refine (if_neg e0).trans ((if_neg e1).trans ?_)
        simp only [hd, ← hN, hb, hoaxis, ne_eq, not_true, if_false]
        refine (if_neg hany).trans ?_
        rw [e]
        rfl
    | some a =>
      have ha' := (hca a rfl).2
      have e1 : ¬ axis ≥ (shape.set axis n).length := by omega
      cases cd with
      | none =>
        simp only [idwtAxisC, Info.ndim]
        refine (if_neg e0).trans ((if_neg e1).trans ?_)
        simp only [ha', ← hN, hb, hoaxis, ne_eq, not_true, if_false]
        refine (if_neg hany).trans ?_
        rw [e]
        rfl
      | some d =>
        have hd := (hcd d rfl).2
        simp only [idwtAxisC, Info.ndim]
        refine (if_neg e0).trans ((if_neg e1).trans ?_)
        simp only [ha', hd, ← hN, hb, hoaxis, ne_eq, not_true, if_false]
        refine (if_neg hany).trans ?_
        rw [e]
        rfl
  have hArr : toArr (shape.set axis n) out' = .ok (Arr.ofFn (shape.set axis n) fun idx =>
        (synthesis mode w.rec_lo w.rec_hi (lineOf ca N axis idx)
          (lineOf cd N axis idx)).getD (idx axis) 0) := by
    have hlc : ∀ (c : Option (Mem M)) (f g : ℕ → ℕ),
        (∀ m, c = some m → m.Ok ∧ m.info.shape = shape) →
        (∀ k < shape.length, k ≠ axis → f k = g k) → lineOf c N axis f = lineOf c N axis g := by
      intro c f g hc hfg
      cases c with
      | none => rfl
      | some c => exact c.line_congr (by simpa [Info.ndim, (hc c rfl).2] using hfg)
    apply toArr_eq hl
    · intro f g hfg
      simp only [List.length_set] at hfg
      simp only
      rw [hlc ca f g hca fun k hk _ => hfg k hk, hlc cd f g hcd fun k hk _ => hfg k hk, hfg axis ha]
    · intro idx hidx
      rw [hv idx hidx]
      congr 2
      · apply hlc ca _ _ hca
        intro k hk hka
        exact digit_rank (fun k hk _ => hidx k hk) k (by simpa using hk) hka
      · apply hlc cd _ _ hcd
        intro k hk hka
        exact digit_rank (fun k hk _ => hidx k hk) k (by simpa using hk) hka
  have hfin : ∀ c : Mem M, (ca <|> cd) = some c → c.info.shape = shape := by
    intro c h
    cases ca with
    | none => exact (hcd c (by simpa using h)).2
    | some a => simp at h; subst h; exact (hca a rfl).2
  obtain ⟨c, hcc⟩ : ∃ c, (ca <|> cd) = some c := by
    cases ca with
    | none => cases cd with
      | none => simp at hsome
      | some d => exact ⟨d, rfl⟩
    | some a => exact ⟨a, rfl⟩
  have e1 : ¬ axis ≥ shape.length := by omega
  simp only [idwtAxisMem, hcc, hfin c hcc, Info.ndim, if_neg e1, ← hN, hb, hC, callC, Py_bind_ok,
    hArr, Py_pure]

end Pywt
