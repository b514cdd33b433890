import Verif.Proof.WaverecN
import Verif.Proof.Waverec2
import Verif.Proof.SynthN
import Verif.Proof.SwtSlice
import Verif.Proof.Iswt2

/-! The values of `waverecn` and `waverec2` on arbitrary coefficients. -/

namespace Pywt

open Finset Spec

set_option linter.unusedSectionVars false

variable {R M : Type} [Ring R] [AddCommGroup M] [Module R M]

theorem idwtnStep_shape' (st : List (Stage R)) (band : Key → Arr M) (S : List ℕ) :
    (Arr.idwtnStep st band S).shape = synthShape st S := rfl

/-- The value of `idwtnStep` in terms of the operations on functions. -/
theorem recnStep_get {st : List (Stage R)} {S : List ℕ} (hst : SynthFits st S) {band : Key → Arr M}
    (hb : ∀ k ∈ words st.length, (band k).shape = S) {idx : ℕ → ℕ} (hidx : InB (synthShape st S) idx) :
    (Arr.idwtnStep st band S).get idx =
      ((words st.length).map fun k => nest (synOps st k S) (band k).get idx).sum := by
  unfold Arr.idwtnStep
  rw [Arr.get_ofFn _ hidx]
  · congr 1
    apply List.map_congr_left
    intro k hk
    exact (Arr.resynth_get hst (mem_words.mp hk).1 (hb k hk)).2 idx hidx
  · intro f g hfg
    refine congrArg List.sum (List.map_congr_left ?_)
    intro k hk
    apply Arr.get_congr
    intro j hj
    apply hfg
    rwa [(Arr.resynth_get hst (mem_words.mp hk).1 (hb k hk)).1] at hj

/-- `idwtn` of a dict of details and an approximation. -/
theorem idwtn_step {d : ADict M} {a : Arr M} {wavelet : PerAxis (Wavelet R)} {mode : PerAxis Mode}
    {axes : List ℤ} {st : List (Stage R)} (hd : DictOk d st.length a.shape)
    (hr : Resolves a.ndim wavelet mode (some axes) st) (hst : SynthFits st a.shape) :
    idwtn (dictSet (d.map fun p => (p.1, some p.2)) (aKey st.length) (some a)) wavelet mode (some axes) =
      .ok (some (Arr.idwtnStep st (bandOf d a st.length) a.shape)) := by
  have hn : ((d.map fun p => (p.1, some p.2)).map (·.1)).Nodup := by
    rw [List.map_map]; exact hd.1
  have h1 := dictSet_keys_nodup hn (aKey st.length) (some a)
  have hk : ∀ k v, (k, some v) ∈ dictSet (d.map fun p => (p.1, some p.2)) (aKey st.length) (some a) →
      k ∈ words st.length ∧ v.shape = a.shape := by
    intro k v hkv
    rcases mem_dictSet hkv with h | h
    · simp only [Prod.mk.injEq, Option.some.injEq] at h
      rw [h.1, h.2]
      exact ⟨replicate_a_mem _, rfl⟩
    · obtain ⟨q, hq, e⟩ := List.mem_map.mp h
      simp only [Prod.mk.injEq, Option.some.injEq] at e
      rw [← e.1, ← e.2]
      exact hd.2 q hq
  have hget : ∀ k, (CDict.get (dictSet (d.map fun p => (p.1, some p.2)) (aKey st.length) (some a)) k).getD
      (Arr.zero a.shape) = bandOf d a st.length k := by
    intro k
    unfold CDict.get bandOf
    rw [dictSet_lookup]
    unfold aKey
    by_cases h : k = List.replicate st.length 'a'
    · rw [if_pos h, if_pos h]; rfl
    · rw [if_neg h, if_neg h]
      have := CDict.get_map_some d k
      unfold CDict.get at this
      rw [this]
  have hne : ∃ k v, (k, some v) ∈ dictSet (d.map fun p => (p.1, some p.2)) (aKey st.length) (some a) := by
    exact ⟨aKey st.length, a, mem_dictSet_self _ _ _⟩
  obtain ⟨y, y1, y2, y3⟩ := idwtn_values_nest (wavelet := wavelet) (mode := mode) (axes := some axes) h1 hk hne hr hst
  rw [y1]
  congr 2
  refine Arr.ext_get y2 fun idx hidx => ?_
  rw [y3 idx hidx]
  rw [y2] at hidx
  rw [recnStep_get hst (fun k _ => bandOf_shape hd k) hidx]
  congr 1
  apply List.map_congr_left
  intro k _
  rw [hget]

theorem Arr.crop_self (a : Arr M) : a.crop a.shape = a := (Arr.Extends.refl a).crop

theorem Arr.crop_shape (a : Arr M) (S : List ℕ) : (a.crop S).shape = S := rfl

theorem matchIf_near {a : Arr M} {d : ADict M} {first : Bool} (hn : Near a.shape (detailShape d a.shape))
    (hf : first = true → detailShape d a.shape = a.shape) :
    matchIf first (some a) d = .ok (some (a.crop (detailShape d a.shape))) := by
  cases first with
  | true => rw [hf rfl, Arr.crop_self]; rfl
  | false =>
    cases d with
    | nil => simp only [detailShape, Arr.crop_self]; rfl
    | cons p d =>
      obtain ⟨k, v⟩ := p
      simp only [matchIf, matchCoeffDims, detailShape, Bool.false_eq_true, if_false]
      rw [if_pos (sizesMatch_of_near (b := v.shape) hn)]
      rfl

theorem synthShape_length' (st : List (Stage R)) {d : ADict M} {sh : List ℕ} (h : Near sh (detailShape d sh)) :
    (synthShape st (detailShape d sh)).length = sh.length := by
  rw [synthShape_length, h.1]

theorem waverecnLoop_values {wavelet : PerAxis (Wavelet R)} {mode : PerAxis Mode}
    {axes : List ℤ} {st : List (Stage R)} {ndim : ℕ} (hr : Resolves ndim wavelet mode (some axes) st)
    (ds : List (ADict M)) :
    ∀ (a : Arr M) (first : Bool), a.ndim = ndim → RecnFits st ds a.shape →
      (first = true → ∀ d ∈ ds.head?, detailShape d a.shape = a.shape) →
      waverecnLoop wavelet mode axes first (some a) ds = .ok (some (waverecnCascade st ds a)) := by
  induction ds with
  | nil => intro a first _ _ _; rfl
  | cons d ds ih =>
    intro a first ha hf hfirst
    obtain ⟨f1, f2, f3, f4⟩ := hf
    have hlen : axes.length = st.length := by simpa using hr.length
    have e0 : ¬ ((some a).isNone = true ∧ d.isEmpty = true) := by simp
    have hm := matchIf_near (first := first) f2 fun h => hfirst h d (by simp)
    have hs := idwtn_step (a := a.crop (detailShape d a.shape)) (wavelet := wavelet) (mode := mode)
      (axes := axes) f1 (by
        have : (a.crop (detailShape d a.shape)).ndim = ndim := by
          rw [← ha]; exact f2.1.symm
        rw [this]; exact hr) f3
    simp only [waverecnLoop, if_neg e0, hm, Py_bind_ok, hlen, hs]
    rw [ih _ false _ f4 (by simp)]
    · rfl
    · rw [← ha]
      exact synthShape_length' st f2

theorem RecnFits.dicts {st : List (Stage R)} {ds : List (ADict M)} :
    ∀ {sh : List ℕ}, RecnFits st ds sh → ∀ d ∈ ds, ∀ p ∈ d, p.1 ∈ words st.length ∧ p.2.shape.length = sh.length := by
  induction ds with
  | nil => intro sh _ d hd; simp at hd
  | cons d ds ih =>
    intro sh h e he p hp
    obtain ⟨f1, f2, f3, f4⟩ := h
    rcases List.mem_cons.mp he with rfl | he
    · refine ⟨(f1.2 p hp).1, ?_⟩
      rw [(f1.2 p hp).2, f2.1]
    · obtain ⟨g1, g2⟩ := ih f4 e he p hp
      exact ⟨g1, by rw [g2, synthShape_length' st f2]⟩

theorem waverecn_values {A : Arr M} {ds : List (ADict M)} {wavelet : PerAxis (Wavelet R)}
    {mode : PerAxis Mode} {axes : Option (List ℤ)} {st : List (Stage R)}
    (hr : Resolves A.ndim wavelet mode axes st) (hf : RecnFits st ds A.shape)
    (h0 : ∀ d ∈ ds.head?, detailShape d A.shape = A.shape) :
    waverecn (.arr A :: ds.map Item.ofDict) wavelet mode axes = .ok (.arr (waverecnCascade st ds A)) := by
  cases hds : ds with
  | nil => rfl
  | cons d0 ds0 =>
    rw [← hds]
    have hn : (st.map (·.1)).Nodup := by
      rw [hds] at hf
      exact hf.2.2.1.1
    have hloop := waverecnLoop_values hr.toSome ds A true rfl hf fun _ => h0
    have hfix : fixAll (ds.map Item.ofDict) = .ok ds :=
      fixAll_ok fun d hd p hp => (hf.dicts d hd p hp).1
    have e0 : ¬ ¬ ((ds.map Item.ofDict).all Item.isDict) = true := by
      rw [not_not, List.all_map, List.all_eq_true]
      intro d _
      rfl
    have e2 : ¬ ds.isEmpty = true := by rw [hds]; simp
    have e5 : ¬ ((some A).isNone = true ∧ ds.all List.isEmpty = true) := by simp
    have hnd : coeffNdims (some A) ds = A.ndim :: ds.flatMap fun d => d.map fun p => p.2.ndim := rfl
    have e6 : ¬ (ds.flatMap fun d => d.map fun p => p.2.ndim).any (· ≠ A.ndim) = true := by
      rw [Bool.not_eq_true, List.any_eq_false]
      intro m hm
      obtain ⟨d, hd, hm⟩ := List.mem_flatMap.mp hm
      obtain ⟨p, hp, rfl⟩ := List.mem_map.mp hm
      have : p.2.ndim = A.ndim := (hf.dicts d hd p hp).2
      rw [this]
      simp
    have e7 : ¬ ¬ (axes.getD (rangeAxes A.ndim)).Nodup := by
      rw [not_not]
      apply normAxes_nodup (ndim := A.ndim)
      rw [hr.axes_eq]
      have : (st.map fun s : Stage R => (s.1 : ℤ)) = (st.map (·.1)).map fun n : ℕ => (n : ℤ) := by
        rw [List.map_map]; rfl
      rw [this]
      exact hn.map fun a b h => by simpa using h
    simp only [waverecn, if_neg e0, hfix, Py_bind_ok, if_neg e2,
      Item.toOption, Py_pure, if_neg e5, hnd, if_neg e6, if_neg e7, hloop]
    rfl

/-! ### `waverec2` -/

theorem idwt2_step {p : Arr M × Arr M × Arr M} {a : Arr M} {wavelet : PerAxis (Wavelet R)}
    {mode : PerAxis Mode} {axes : List ℤ} {st : List (Stage R)} (hl : st.length = 2)
    (hp : p.1.shape = a.shape ∧ p.2.1.shape = a.shape ∧ p.2.2.shape = a.shape)
    (hr : Resolves a.ndim wavelet mode (some axes) st) (hst : SynthFits st a.shape) :
    idwt2 (some a, (some p.1, some p.2.1, some p.2.2)) wavelet mode axes =
      .ok (some (Arr.idwtnStep st (bandOf (dict3 p) a 2) a.shape)) := by
  have hlen : axes.length = 2 := by rw [← hl]; simpa using hr.length
  have hn : ([(['a', 'a'], some a), (['d', 'a'], some p.1), (['a', 'd'], some p.2.1),
      (['d', 'd'], some p.2.2)] : CDict M).map (·.1) = [['a', 'a'], ['d', 'a'], ['a', 'd'], ['d', 'd']] := rfl
  have hk : ∀ k v, (k, some v) ∈ ([(['a', 'a'], some a), (['d', 'a'], some p.1), (['a', 'd'], some p.2.1),
      (['d', 'd'], some p.2.2)] : CDict M) → k ∈ words st.length ∧ v.shape = a.shape := by
    intro k v h
    rw [hl]
    simp only [List.mem_cons, Prod.mk.injEq, Option.some.injEq, List.not_mem_nil, or_false] at h
    rcases h with ⟨rfl, rfl⟩ | ⟨rfl, rfl⟩ | ⟨rfl, rfl⟩ | ⟨rfl, rfl⟩
    · exact ⟨by decide, rfl⟩
    · exact ⟨by decide, hp.1⟩
    · exact ⟨by decide, hp.2.1⟩
    · exact ⟨by decide, hp.2.2⟩
  obtain ⟨y, y1, y2, y3⟩ := idwtn_values_nest (wavelet := wavelet) (mode := mode) (axes := some axes)
    (by rw [hn]; decide) hk ⟨['a', 'a'], a, by simp⟩ hr hst
  have e : ¬ axes.length ≠ 2 := by simp [hlen]
  simp only [idwt2, if_neg e, y1]
  congr 2
  refine Arr.ext_get y2 fun idx hidx => ?_
  rw [y3 idx hidx]
  rw [y2] at hidx
  have hd : DictOk (dict3 p) st.length a.shape := by rw [hl]; exact dict3_ok hp.1 hp.2.1 hp.2.2
  rw [← hl, recnStep_get hst (fun k _ => bandOf_shape hd k) hidx]
  congr 1
  apply List.map_congr_left
  intro k hk
  rw [hl] at hk
  have hk' : k ∈ [['a', 'a'], ['a', 'd'], ['d', 'a'], ['d', 'd']] := hk
  rw [hl]
  simp only [List.mem_cons, List.not_mem_nil, or_false] at hk'
  rcases hk' with rfl | rfl | rfl | rfl <;> rfl

theorem waverec2Loop_values {wavelet : PerAxis (Wavelet R)} {mode : PerAxis Mode}
    {axes : List ℤ} {st : List (Stage R)} (hl : st.length = 2) {ndim : ℕ}
    (hr : Resolves ndim wavelet mode (some axes) st) (ps : List (Arr M × Arr M × Arr M)) :
    ∀ a : Arr M, a.ndim = ndim → RecnFits st (ps.map dict3) a.shape →
      waverec2Loop wavelet mode axes (some a) (ps.map Item.ofTriple) =
        .ok (some (waverecnCascade st (ps.map dict3) a)) := by
  induction ps with
  | nil => intro a _ _; rfl
  | cons p ps ih =>
    intro a ha hf
    obtain ⟨f1, f2, f3, f4⟩ := hf
    have hS : detailShape (dict3 p) a.shape = p.1.shape := rfl
    rw [hS] at f1 f2 f3 f4
    have hp : p.1.shape = p.1.shape ∧ p.2.1.shape = p.1.shape ∧ p.2.2.shape = p.1.shape :=
      ⟨rfl, (f1.2 (['a', 'd'], p.2.1) (by simp)).2, (f1.2 (['d', 'd'], p.2.2) (by simp)).2⟩
    have hs := idwt2_step (a := a.crop p.1.shape) (p := p) (wavelet := wavelet) (mode := mode)
      (axes := axes) hl hp (by
        have : (a.crop p.1.shape).ndim = ndim := by
          rw [← ha]; exact f2.1.symm
        rw [this]; exact hr) f3
    have htr : waverec2Trim (some a) [some p.1, some p.2.1, some p.2.2] = .ok (some (a.crop p.1.shape)) := by
      have e : ¬ ([p.2.1, p.2.2].any fun v => v.shape ≠ p.1.shape) = true := by
        simp [hp.2.1, hp.2.2]
      simp only [waverec2Trim, List.filterMap_cons, List.filterMap_nil, id, if_neg e, Option.map_some,
        trimShape_of_near f2]
      rfl
    simp only [List.map_cons, Item.ofTriple, waverec2Loop, htr, Py_bind_ok, hs]
    rw [ih _ _ f4]
    · rw [waverecnCascade, hl]; rfl
    · rw [← ha]
      have := synthShape_length' st (d := dict3 p) f2
      exact this

theorem waverec2_values {A : Arr M} {ps : List (Arr M × Arr M × Arr M)} {wavelet : PerAxis (Wavelet R)}
    {mode : PerAxis Mode} {axes : List ℤ} {st : List (Stage R)} (hl : st.length = 2)
    (hr : Resolves A.ndim wavelet mode (some axes) st) (hn : (st.map (·.1)).Nodup)
    (hf : RecnFits st (ps.map dict3) A.shape) :
    waverec2 (.arr A :: ps.map Item.ofTriple) wavelet mode axes =
      .ok (.arr (waverecnCascade st (ps.map dict3) A)) := by
  have e7 : ¬ ¬ axes.Nodup := by
    rw [not_not]
    apply normAxes_nodup (ndim := A.ndim)
    have := hr.axes_eq
    simp only [Option.getD_some] at this
    rw [this]
    have : (st.map fun s : Stage R => (s.1 : ℤ)) = (st.map (·.1)).map fun n : ℕ => (n : ℤ) := by
      rw [List.map_map]; rfl
    rw [this]
    exact hn.map fun a b h => by simpa using h
  have hloop := waverec2Loop_values hl hr ps A rfl hf
  cases ps with
  | nil => simp only [waverec2, if_neg e7]; rfl
  | cons p ps =>
    simp only [List.map_cons] at hloop ⊢
    simp only [waverec2, if_neg e7, Item.toOption, Py_pure, Py_bind_ok, hloop]
    rfl

end Pywt
