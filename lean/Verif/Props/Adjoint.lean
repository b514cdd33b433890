import Verif.Proof.AdjointN
import Verif.Proof.Edit
import Verif.Props.DwtIdwt
import Verif.Props.Moments
import Verif.Props.MultilevelN

/-!
# C71: reconstruction with the inverse filter bank is the adjoint of the decomposition

`sprod x y` is the scalar product `∑ x[i] * y[i]`; `w.inverse` is `Wavelet(filter_bank=w.inverse_filter_bank)`.
Linear-operator wrappers use `idwt`/`waverec` with these filters as the transpose of `dwt`/`wavedec`.
-/

namespace Pywt

open Spec

set_option autoImplicit false

section
variable {R : Type} [CommRing R]

/-- **C71.** In mode `zero`, and in mode `periodization` for an even number of samples: `idwt` with the inverse filter
bank, cut to the length of the signal, is the transpose of `dwt`.  The wavelet need not be orthogonal, nor allow
reconstruction. -/
theorem C71_dwt_adjoint {w : Wavelet R} (hw : w.Ok) {mode : Mode} {x a d : List R} (hx : 1 ≤ x.length)
    (hm : mode = .zero ∨ mode = .periodization ∧ x.length % 2 = 0) {cA cD : List R} (h : dwt w mode x = .ok (cA, cD))
    (ha : a.length = cA.length) (hd : d.length = cD.length) :
    ∃ y, idwt w.inverse mode (some a) (some d) = .ok y ∧ x.length ≤ y.length ∧
      sprod cA a + sprod cD d = sprod x (y.take x.length) := by
  have hs : SignalOk mode x := ⟨hx, by rcases hm with rfl | ⟨rfl, -⟩ <;> simp⟩
  rw [dwt_ok hw hs] at h
  simp only [Except.ok.injEq, Prod.mk.injEq] at h
  obtain ⟨rfl, rfl⟩ := h
  have h3 : w.dec_hi.length = w.dec_lo.length := hw.2.2.1
  rw [analysis_length] at ha hd
  rw [h3] at hd
  have hF : 2 ≤ w.dec_lo.length := hw.1
  have hF2 : w.dec_lo.length % 2 = 0 := hw.2.1
  have hl : x.length ≤ synthLen mode a.length w.dec_lo.length := by
    rw [ha]
    rcases hm with rfl | ⟨rfl, he⟩
    · simp only [synthLen, coeffLen]
      simp
      omega
    · simp only [synthLen, coeffLen]
      simp
      omega
  have hr : w.inverse.rec_len = w.dec_lo.length := inverse_rec_len
  have hr' : w.inverse.rec_lo.length = w.dec_lo.length := inverse_rec_len
  refine ⟨_, idwt_ok (inverse_ok hw) (ha.trans hd.symm) (by rw [hr]; omega), ?_, ?_⟩
  · rw [synthesis_length, hr']
    exact hl
  · rw [sprod_take]
    exact dwt_step_adjoint hw hm ha hd

example : dwt legallQ .zero [(1 : ℚ), 4, 2, 0, 3] = .ok ([-1/8, 3/2, 2, 2, -3/8], [1/2, -5/2, 5/2, 3/2, 0]) ∧
    idwt legallQ.inverse .zero (some [(1 : ℚ), 2, 3, 4, 5]) (some [0, 1, 0, 2, 1]) = .ok [3/2, 1/4, 2, 7/4, 3, 1/4] := by
  decide +kernel

/-- **C71 (all levels).** In mode `zero`, and in mode `periodization` when `2^level` divides the number of samples:
`waverec` with the inverse filter bank, cut to the length of the signal, is the transpose of `wavedec`. -/
theorem C71_wavedec_adjoint {w : Wavelet R} (hw : w.Ok) {mode : Mode} {n : ℕ} {x : List R} (hx : 1 ≤ x.length)
    (hm : mode = .zero ∨ mode = .periodization ∧ 2 ^ n ∣ x.length) {cs : List (List R)}
    (h : wavedec w mode (some (n : ℤ)) x = .ok cs) {c : List (List R)} (hc : c.map List.length = cs.map List.length) :
    ∃ y, waverec w.inverse mode (c.map some) = .ok (some y) ∧ x.length ≤ y.length ∧
      (List.zipWith sprod cs c).sum = sprod x (y.take x.length) := by
  obtain ⟨-, rfl⟩ := wavedec_cascade hw h
  have h3 : w.dec_hi.length = w.dec_lo.length := hw.2.2.1
  have hno : ∀ j < n, NoCopies mode (approxLen mode w.dec_len x.length j) := by
    intro j hj
    rcases hm with rfl | ⟨rfl, hd⟩
    · exact .inl rfl
    · refine .inr ⟨rfl, ?_⟩
      have hdj : 2 ^ (j + 1) ∣ x.length := (pow_dvd_pow 2 (by omega)).trans hd
      rw [approxLen_per_div ((pow_dvd_pow 2 (by omega)).trans hdj)]
      obtain ⟨m, hm⟩ := hdj
      rw [hm, pow_succ, mul_assoc, Nat.mul_div_cancel_left _ (by positivity)]
      omega
  cases c with
  | nil => simp [cascade] at hc
  | cons r ds =>
    simp only [cascade, List.map_cons, List.cons.injEq] at hc
    obtain ⟨hr, hds⟩ := hc
    rw [approx_length] at hr
    have hds' : ds.map List.length = ((List.range n).map fun j => approxLen mode w.dec_len x.length (j + 1)).reverse := by
      rw [hds, List.map_reverse, List.map_map]
      congr 1
      refine List.map_congr_left fun j _ => ?_
      simp only [Function.comp_apply]
      rw [detail_length _ _ _ h3, approx_length]
      rfl
    obtain ⟨r', e1, e2, e3⟩ := waverecLoop_adjoint hw hx n r ds hno (.inl hr) hds'
    refine ⟨r', ?_, by omega, ?_⟩
    · cases ds with
      | nil =>
        simp only [List.map_nil, waverecLoop, Except.ok.injEq] at e1
        simp only [List.map_cons, List.map_nil, waverec, e1]
      | cons d ds => simpa only [List.map_cons, waverec] using e1
    · rw [sprod_take, e3]
      simp [cascade]

end

example : wavedec legallQ .zero (some 2) [(1 : ℚ), 4, 2, 0, 3] =
      .ok [[1/64, 1/32, 39/16, -1/32, 3/64], [-1/16, -9/16, -19/16, -3/16, 0], [1/2, -5/2, 5/2, 3/2, 0]] ∧
    waverec legallQ.inverse .zero [some [(1 : ℚ), 2, 3, 4, 5], some [1, 0, 1, 0, 2], some [0, 1, 0, 2, 1]] =
      .ok (some [1, -3/16, 7/4, 11/16, 1, -19/16]) := by
  decide +kernel

example : (2 : ℕ) ^ 2 ∣ [(1 : ℚ), 4, 2, 0, 3, 3, 1, 7].length ∧
    wavedec legallQ .periodization (some 2) [(1 : ℚ), 4, 2, 0, 3, 3, 1, 7] =
      .ok [[23/8, 19/8], [7/8, 1/8], [-5/2, 5/2, -1, -6]] := by
  decide +kernel

/-! ### n-D -/

section
variable {R : Type} [CommRing R]

/-- **C71 (n-D).** `idwtn` with the inverse filter banks, cut to the shape of the array, is the transpose of `dwtn`, for
distinct axes with a wavelet and a mode each: `u` assigns any arrays of the right shape to the subbands. -/
theorem C71_dwtn_adjoint {x : Arr R} {wavelet : PerAxis (Wavelet R)} {mode : PerAxis Mode} {axes : Option (List ℤ)}
    {st : List (Stage R)} (hd : 1 ≤ x.ndim) (hr : Resolves x.ndim wavelet mode axes st) (hst : StagesAdj 1 st x.shape)
    {c : List (Key × Arr R)} (h : dwtn x wavelet mode axes = .ok c) {u : Key → Arr R}
    (hu : ∀ p ∈ c, (u p.1).shape = p.2.shape) :
    ∃ y, idwtn (c.map fun p => (p.1, some (u p.1))) wavelet.inverse mode axes = .ok (some y) ∧
      y.shape.length = x.shape.length ∧ (∀ j, x.shape.getD j 0 ≤ y.shape.getD j 0) ∧
      (c.map fun p => p.2.sprod (u p.1)).sum = x.sprod y := by
  have hA := hst.level (j := 0) (by omega)
  simp only [Function.iterate_zero, id_eq] at hA
  rw [dwtn_ok hd hr hA.stagesOk] at h
  simp only [Except.ok.injEq] at h
  subst h
  obtain ⟨y, y1, y2, y3, -, y5⟩ := idwtn_adjoint hr hA (u := u) (by
    intro k hk
    rw [hu (k, x.subband st k) (List.mem_map.2 ⟨k, hk, rfl⟩)]
    exact shape_subband (mem_words.1 hk).1 x)
  refine ⟨y, ?_, y2, y3, ?_⟩
  · rw [List.map_map]
    exact y1
  · rw [List.map_map]
    exact y5

/-- **C71 (n-D, all levels).** `waverecn` with the inverse filter banks, cut to the shape of the array, is the transpose of
`wavedecn`. -/
theorem C71_wavedecn_adjoint {x : Arr R} {wavelet : PerAxis (Wavelet R)} {mode : PerAxis Mode} {axes : Option (List ℤ)}
    {st : List (Stage R)} (hne : st ≠ []) (hr : Resolves x.ndim wavelet mode axes st) {n : ℕ}
    (hst : StagesAdj n st x.shape) {A : Arr R} {ds : List (List (Key × Arr R))}
    (h : wavedecn x wavelet mode (some (n : ℤ)) axes = .ok (.arr A :: ds.map Item.ofDict))
    {B : Arr R} {es : List (List (Key × Arr R))} (hB : B.shape = A.shape) (hes : es.map dictShape = ds.map dictShape) :
    ∃ y, waverecn (.arr B :: es.map Item.ofDict) wavelet.inverse mode axes = .ok (.arr y) ∧
      y.shape.length = x.shape.length ∧ (∀ j, x.shape.getD j 0 ≤ y.shape.getD j 0) ∧
      A.sprod B + (List.zipWith dictProd ds es).sum = x.sprod y := by
  rw [C20_wavedecn_explicit_level hne hr (fun s hs => ⟨(hst.2 s hs).1, (hst.2 s hs).2.1⟩) hst.1, if_neg (by omega),
    Int.toNat_natCast] at h
  split at h
  swap
  · simp at h
  simp only [Except.ok.injEq, Arr.cascadeN, List.cons.injEq, Item.arr.injEq] at h
  obtain ⟨rfl, h⟩ := h
  have hds : ds = ((List.range n).map fun j => x.detailsN st j).reverse := by
    refine map_ofDict_inj ?_
    rw [← h, List.map_reverse, List.map_map]
    rfl
  subst hds
  have hBs : B.shape = (decShape st)^[n] x.shape := hB.trans (Arr.shape_approxN _ _ _)
  obtain ⟨f1, f2, f3⟩ := waverecnCascade_adjoint hne (x := x) n B es (fun j hj => hst.level hj)
    (by rw [hBs]; exact ⟨rfl, fun _ _ => .inl rfl⟩) (by rw [hes, List.map_reverse, List.map_map]; rfl)
  refine ⟨_, waverecn_values ?_ f1 ?_, f2.1, ?_, ?_⟩
  · have : B.ndim = x.ndim := by
      have := congrArg List.length hB
      exact this.trans (Arr.approxN_ndim st n x)
    rw [this]
    exact resolves_inverse hr
  · intro d hd
    cases n with
    | zero =>
      simp at hes
      subst hes
      simp at hd
    | succ n =>
      cases es with
      | nil => simp at hd
      | cons e es =>
        simp only [List.head?_cons, Option.mem_def, Option.some.injEq] at hd
        subst hd
        rw [List.range_succ, List.map_append, List.reverse_append] at hes
        simp only [List.map_cons, List.map_nil, List.reverse_cons, List.reverse_nil, List.nil_append, List.cons_append,
          List.cons.injEq] at hes
        cases e with
        | nil => rfl
        | cons p e =>
          have : (p.1, p.2.shape) ∈ dictShape (x.detailsN st n) := by
            rw [← hes.1]
            simp [dictShape]
          obtain ⟨q, hq, e1⟩ := List.mem_map.1 this
          obtain ⟨k, hk, rfl⟩ := List.mem_map.1 hq
          simp only [Prod.mk.injEq] at e1
          simp only [detailShape]
          rw [← e1.2, hBs, shape_subband (mem_words.1 (List.mem_filter.1 hk).1).1, Arr.shape_approxN,
            Function.iterate_succ_apply']
  · intro j
    by_cases hj : j < x.shape.length
    · rcases f2.2 j hj with e | e <;> omega
    · rw [List.getD_eq_default _ _ (by omega)]
      exact Nat.zero_le _
  · exact f3.symm

end

/-! The hypotheses are met by a 4×3 array, with a different wavelet and mode for each axis. -/

example : StagesAdj 2 [(0, legallQ, .periodization), (1, haarQ, .zero)] [4, 3] := by
  refine ⟨by simp, ?_⟩
  intro s hs
  simp only [List.mem_cons, List.not_mem_nil, or_false] at hs
  rcases hs with rfl | rfl
  · exact ⟨by decide, legallQ_ok, by decide, .inr ⟨rfl, by decide⟩⟩
  · exact ⟨by decide, haarQ_ok, by decide, .inl rfl⟩

example : Resolves 2 (.many [legallQ, haarQ]) (.many [.periodization, .zero]) (some [-2, 1])
    [(0, legallQ, .periodization), (1, haarQ, .zero)] := ⟨rfl, rfl, rfl⟩

example : ∃ A d, wavedecn (⟨[4, 3], [1, 4, 2, 0, 3, 5, 7, 1, 1, 0, 2, 6], by decide⟩ : Arr ℚ) (.many [legallQ, haarQ])
    (.many [.periodization, .zero]) (some (1 : ℕ)) (some [-2, 1]) = .ok (.arr A :: [d].map Item.ofDict) ∧
    A.shape = [2, 2] ∧ dictShape d = [(['a', 'd'], [2, 2]), (['d', 'a'], [2, 2]), (['d', 'd'], [2, 2])] := by
  refine ⟨Arr.approxN [(0, legallQ, .periodization), (1, haarQ, .zero)] 1
    (⟨[4, 3], [1, 4, 2, 0, 3, 5, 7, 1, 1, 0, 2, 6], by decide⟩ : Arr ℚ),
    Arr.detailsN [(0, legallQ, .periodization), (1, haarQ, .zero)] 0
    (⟨[4, 3], [1, 4, 2, 0, 3, 5, 7, 1, 1, 0, 2, 6], by decide⟩ : Arr ℚ), ?_, ?_, ?_⟩
  · rw [C20_wavedecn_explicit_level (st := [(0, legallQ, .periodization), (1, haarQ, .zero)]) (by simp) ⟨rfl, rfl, rfl⟩
      (by
        intro s hs
        simp only [List.mem_cons, List.not_mem_nil, or_false] at hs
        rcases hs with rfl | rfl
        · exact ⟨by decide, legallQ_ok⟩
        · exact ⟨by decide, haarQ_ok⟩) (by simp), if_neg (by decide), if_pos (by decide)]
    rfl
  · decide +kernel
  · decide +kernel

/-! ### Other modes -/

/-- **C71.** The claim is about these modes only: in mode `symmetric` the same operators are not adjoint. -/
theorem C71_symmetric_not_adjoint :
    ¬ ∀ (x a d cA cD y : List ℚ), dwt legallQ .symmetric x = .ok (cA, cD) → a.length = cA.length → d.length = cD.length →
      idwt legallQ.inverse .symmetric (some a) (some d) = .ok y →
      sprod cA a + sprod cD d = sprod x (y.take x.length) := by
  intro h
  have := h [1, 4] [1, 0, 0] [0, 0, 0] _ _ _ rfl (by decide +kernel) (by decide +kernel) rfl
  revert this
  decide +kernel

end Pywt
