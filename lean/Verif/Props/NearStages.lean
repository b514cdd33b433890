import Verif.Proof.NearStages
import Verif.Props.NormWarnN

/-!
# Property C79: the built-in orthogonal wavelets keep the energy of arrays up to their tolerance
-/

set_option autoImplicit false

namespace Pywt

open Finset Spec

/-- **C79 (`dwtn`).** One level along `d` axes, for filters orthogonal up to `ε`: the subbands have together an energy between
`(1-ε)^d` and `(1+ε)^d` times that of the array. -/
theorem C79_dwtn_energy {ε : ℝ} (h0 : 0 ≤ ε) (hε : ε ≤ 1) {st : List (Stage ℝ)} {x : Arr ℝ} {wavelet : PerAxis (Wavelet ℝ)}
    {mode : PerAxis Mode} {axes : Option (List ℤ)} (hd : 1 ≤ x.ndim) (hr : Resolves x.ndim wavelet mode axes st)
    (hst : NearStages ε st x.shape 2) :
    ∃ c, dwtn x wavelet mode axes = .ok c ∧
      (1 - ε) ^ st.length * energy x.data ≤ (c.map fun p => energy p.2.data).sum ∧
      (c.map fun p => energy p.2.data).sum ≤ (1 + ε) ^ st.length * energy x.data := by
  refine ⟨_, dwtn_ok hd hr hst.stagesOk, ?_⟩
  rw [List.map_map]
  exact subbands_near h0 hε hst

/-- **C79 (`wavedecn`).** The same for `l` levels, with the factors `(1-ε)^(d·l)` and `(1+ε)^(d·l)`. -/
theorem C79_wavedecn_energy {ε : ℝ} (h0 : 0 ≤ ε) (hε : ε ≤ 1) {st : List (Stage ℝ)} (hne : st ≠ []) {x : Arr ℝ}
    {wavelet : PerAxis (Wavelet ℝ)} {mode : PerAxis Mode} {axes : Option (List ℤ)} {l : ℕ}
    (hr : Resolves x.ndim wavelet mode axes st) (hst : NearStages ε st x.shape (2 ^ l)) :
    ∃ (A : Arr ℝ) (ds : List (List (Key × Arr ℝ))),
      wavedecn x wavelet mode (some l) axes = .ok (.arr A :: ds.map Item.ofDict) ∧ ds.length = l ∧
      (1 - ε) ^ (st.length * l) * energy x.data ≤ energy A.data + (ds.map fun d => (d.map fun p => energy p.2.data).sum).sum ∧
      energy A.data + (ds.map fun d => (d.map fun p => energy p.2.data).sum).sum ≤ (1 + ε) ^ (st.length * l) * energy x.data := by
  have hxs : ∀ s ∈ st, s.1 < x.shape.length ∧ s.2.1.Ok := fun s hs => ⟨(hst.2 s hs).2.2.1, (hst.2 s hs).2.1.1⟩
  have hd : 1 ≤ x.shape.length := by
    cases st with
    | nil => exact absurd rfl hne
    | cons s st => have := (hxs s (by simp)).1; omega
  obtain ⟨L, -, h⟩ := wavedecn_eq (wavelet := wavelet) (mode := mode) (axes := axes) (st := st) hd hne hr hxs hst.1
  refine ⟨x.approxN st l, ((List.range l).map fun j => x.detailsN st j).reverse, ?_, by simp, ?_⟩
  · rw [h]
    have e0 : ¬ (some (l : ℤ)).any (· < 0) = true := by simp
    rw [if_neg e0]
    simp only [Option.map_some, Int.toNat_natCast, Option.getD_some]
    rw [if_pos (show LevelsOkN st x.shape l from fun j hj => (hst.level hj).stagesOk)]
    unfold Arr.cascadeN
    rw [List.map_reverse, List.map_map]
    rfl
  · rw [List.map_reverse, List.sum_reverse, List.map_map]
    exact cascadeN_near h0 hε hst l le_rfl

/-- **C79 (built-in wavelets).** `wavedecn` with `mode='periodization'` and built-in wavelets flagged orthogonal, whose tables are
exact up to `τ`: `l` levels along `d` axes change the energy by at most `2·d·l·τ` of it. -/
theorem C79_builtin {single : Bool} {τ : ℝ} (h0 : 0 ≤ τ) (hτ : τ ≤ 1) {wavelet : PerAxis (WaveletObj ℤ)}
    (hw : ∀ o ∈ given wavelet, BuiltinWithin single τ o ∧ o.orthogonal = true) {axes : Option (List ℤ)} {st : List (Stage ℝ)}
    (hne : st ≠ []) {x : Arr ℝ} {l : ℕ}
    (hr : Resolves x.ndim (mapObjs (fun o => realBank o.w) wavelet) (.one .periodization) axes st)
    (hx : (st.map (·.1)).Nodup ∧ ∀ s ∈ st, s.1 < x.shape.length ∧ 1 ≤ x.shape.getD s.1 0 ∧ 2 ^ l ∣ x.shape.getD s.1 0)
    (hl : (st.length * l : ℕ) * τ ≤ 1) :
    ∃ (A : Arr ℝ) (ds : List (List (Key × Arr ℝ))),
      wavedecn x (mapObjs (fun o => realBank o.w) wavelet) (.one .periodization) (some l) axes =
          .ok (.arr A :: ds.map Item.ofDict) ∧ ds.length = l ∧
        |energy A.data + (ds.map fun d => (d.map fun p => energy p.2.data).sum).sum - energy x.data| ≤
          2 * ((st.length * l : ℕ) * τ) * energy x.data := by
  have hg : ∀ {β : Type} (f : WaveletObj ℤ → β), given (mapObjs f wavelet) = (given wavelet).map f := by
    intro β f
    cases wavelet <;> simp [mapObjs, given]
  have hst : NearStages τ st x.shape (2 ^ l) := by
    refine ⟨hx.1, fun s hs => ⟨?_, ?_, hx.2 s hs⟩⟩
    · have := hr.2.2
      simp only [PerAxis.expand, Except.ok.injEq] at this
      have hm := List.mem_map_of_mem (f := fun s : Stage ℝ => s.2.2) hs
      rw [← this] at hm
      exact List.eq_of_mem_replicate hm
    · have hm := List.mem_map_of_mem (f := fun s : Stage ℝ => s.2.1) hs
      obtain ⟨-, w, hwm, e⟩ := (expand_exists hr.2.1 (fun v => v = s.2.1)).mp ⟨_, hm, rfl⟩
      rw [← e]
      rw [hg] at hwm
      obtain ⟨o, ho, rfl⟩ := List.mem_map.mp hwm
      obtain ⟨⟨name, fam, order, b1, b2, b3, b4⟩, b5⟩ := hw o ho
      exact near_mono (C65_builtin_near_orthogonal b1 b2 single b3 b5) b4
  obtain ⟨A, ds, e1, e2, e3, e4⟩ := C79_wavedecn_energy h0 hτ hne hr hst
  exact ⟨A, ds, e1, e2, energy_change h0 hτ hl (energy_nonneg _) e3 e4⟩

/-- The hypotheses are met by `db2` along both axes of a 4×8 array, two levels. -/
example : ∃ o, waveletNamed false "db2" = .ok o ∧ (BuiltinWithin false (1 / 100) o ∧ o.orthogonal = true) ∧
    ∃ st, Resolves 2 (mapObjs (fun o => realBank o.w) (.one o)) (.one .periodization) (some [0, -1]) st ∧ st ≠ [] ∧
      ((st.map (·.1)).Nodup ∧ ∀ s ∈ st, s.1 < [4, 8].length ∧ 1 ≤ [4, 8].getD s.1 0 ∧ 2 ^ 2 ∣ [4, 8].getD s.1 0) ∧
      ((st.length * 2 : ℕ) : ℝ) * (1 / 100) ≤ 1 := by
  have hm : ("db2", Family.db, 2) ∈ wnameToCode := by decide +kernel
  obtain ⟨o, h1, -, hw, -⟩ := builtin_ok (single := false) hm rfl
  have horth : (waveletNamed false "db2").map (fun o => o.orthogonal) = .ok true := by decide +kernel
  rw [h1] at horth
  refine ⟨o, h1, ⟨⟨_, _, _, hm, rfl, h1, by norm_num [tolerance]⟩, by simpa [Except.map] using horth⟩,
    [(0, realBank o.w, .periodization), (1, realBank o.w, .periodization)], ⟨rfl, rfl, rfl⟩, by simp, ⟨by simp, ?_⟩, by norm_num⟩
  intro s hs
  simp only [List.mem_cons, List.not_mem_nil, or_false] at hs
  rcases hs with rfl | rfl
  · exact ⟨by simp, by simp, by norm_num⟩
  · exact ⟨by simp, by simp, by norm_num⟩

end Pywt
