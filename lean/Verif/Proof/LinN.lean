import Verif.Spec.LinN
import Verif.Proof.MraNSwt
import Verif.Proof.Mra2

/-! Linearity of the multilevel n-D transforms, via naturality in the samples. -/

namespace Pywt

open Finset Spec

set_option linter.unusedSectionVars false

variable {R M : Type} [CommRing R] [AddCommGroup M] [Module R M]

/-- Two arrays of the same shape as one array of pairs. -/
def Arr.pair (a b : Arr M) : Arr (M × M) := Arr.ofFn a.shape fun idx => (a.get idx, b.get idx)

def ADict.pair (d e : ADict M) : ADict (M × M) := List.zipWith (fun u v => (u.1, Arr.pair u.2 v.2)) d e

/-- `(u, v) ↦ p u + q v` -/
def lcMap (p q : R) : M × M →ₗ[R] M := p • LinearMap.fst R M M + q • LinearMap.snd R M M

theorem Arr.pair_fst (a b : Arr M) : (Arr.pair a b).mapCells (LinearMap.fst R M M) = a := by
  unfold Arr.pair
  rw [Arr.ofFn_map]
  exact Arr.crop_self a

theorem Arr.pair_snd {a b : Arr M} (h : a.shape = b.shape) :
    (Arr.pair a b).mapCells (LinearMap.snd R M M) = b := by
  unfold Arr.pair
  rw [Arr.ofFn_map, h]
  exact Arr.crop_self b

theorem Arr.pair_lc (p q : R) (a b : Arr M) : (Arr.pair a b).mapCells (lcMap p q) = Arr.lincomb p q a b := by
  unfold Arr.pair
  rw [Arr.ofFn_map]
  rfl

theorem Arr.lincomb_map (p q : R) (P : Arr (M × M)) :
    Arr.lincomb p q (P.mapCells (LinearMap.fst R M M)) (P.mapCells (LinearMap.snd R M M)) =
      P.mapCells (lcMap p q) := by
  conv_rhs => rw [← Arr.crop_self P]
  unfold Arr.lincomb Arr.crop
  rw [Arr.ofFn_map]
  refine congrArg _ (funext fun idx => ?_)
  rw [Arr.get_map, Arr.get_map]
  rfl

theorem ADict.pair_maps {d e : ADict M}
    (h : d.map (fun p => (p.1, p.2.shape)) = e.map fun p => (p.1, p.2.shape)) (p q : R) :
    ADict.mapCells (LinearMap.fst R M M) (ADict.pair d e) = d ∧
    ADict.mapCells (LinearMap.snd R M M) (ADict.pair d e) = e ∧
    ADict.mapCells (lcMap p q) (ADict.pair d e) = lincombD p q d e := by
  induction d generalizing e with
  | nil =>
    cases e with
    | nil => exact ⟨rfl, rfl, rfl⟩
    | cons v e => simp at h
  | cons u d ih =>
    cases e with
    | nil => simp at h
    | cons v e =>
      simp only [List.map_cons, List.cons.injEq, Prod.mk.injEq] at h
      obtain ⟨i1, i2, i3⟩ := ih h.2
      unfold ADict.pair ADict.mapCells lincombD at *
      simp only [List.zipWith_cons_cons, List.map_cons, i1, i2, i3, Arr.pair_fst, Arr.pair_snd h.1.2,
        Arr.pair_lc]
      refine ⟨trivial, ?_, trivial⟩
      rw [h.1.1]

theorem pairs_maps {ds es : List (ADict M)} (h : layout ds = layout es) (p q : R) :
    (List.zipWith ADict.pair ds es).map (ADict.mapCells (LinearMap.fst R M M)) = ds ∧
    (List.zipWith ADict.pair ds es).map (ADict.mapCells (LinearMap.snd R M M)) = es ∧
    (List.zipWith ADict.pair ds es).map (ADict.mapCells (lcMap p q)) = List.zipWith (lincombD p q) ds es := by
  induction ds generalizing es with
  | nil =>
    cases es with
    | nil => exact ⟨rfl, rfl, rfl⟩
    | cons v e => simp [layout] at h
  | cons u d ih =>
    cases es with
    | nil => simp [layout] at h
    | cons v e =>
      simp only [layout, List.map_cons, List.cons.injEq] at h
      obtain ⟨i1, i2, i3⟩ := ih (es := e) (by unfold layout; exact h.2)
      obtain ⟨j1, j2, j3⟩ := ADict.pair_maps h.1 p q
      simp only [List.zipWith_cons_cons, List.map_cons, i1, i2, i3, j1, j2, j3, and_self]

/-- A reconstruction that commutes with linear maps of the samples is linear. -/
theorem rec_linear {recM : Arr M → List (ADict M) → Arr M} {recP : Arr (M × M) → List (ADict (M × M)) → Arr (M × M)}
    (hnat : ∀ (φ : M × M →ₗ[R] M) a ds, recM (a.mapCells φ) (ds.map (ADict.mapCells φ)) = (recP a ds).mapCells φ)
    {A B : Arr M} {ds es : List (ADict M)} (hA : A.shape = B.shape) (h : layout ds = layout es) (p q : R) :
    recM (Arr.lincomb p q A B) (List.zipWith (lincombD p q) ds es) =
      Arr.lincomb p q (recM A ds) (recM B es) := by
  obtain ⟨h1, h2, h3⟩ := pairs_maps h p q
  have e1 := hnat (LinearMap.fst R M M) (Arr.pair A B) (List.zipWith ADict.pair ds es)
  have e2 := hnat (LinearMap.snd R M M) (Arr.pair A B) (List.zipWith ADict.pair ds es)
  have e3 := hnat (lcMap p q) (Arr.pair A B) (List.zipWith ADict.pair ds es)
  rw [h1, Arr.pair_fst] at e1
  rw [h2, Arr.pair_snd hA] at e2
  rw [h3, Arr.pair_lc] at e3
  rw [e1, e2, e3, Arr.lincomb_map]

theorem lincomb_shape (p q : R) (a b : Arr M) : (Arr.lincomb p q a b).shape = a.shape := rfl

theorem layout_lincomb {ds es : List (ADict M)} (h : layout ds = layout es) (p q : R) :
    layout (List.zipWith (lincombD p q) ds es) = layout ds := by
  obtain ⟨h1, -, h3⟩ := pairs_maps h p q
  have : ∀ (φ : M × M →ₗ[R] M) (l : List (ADict (M × M))), layout (l.map (ADict.mapCells φ)) = layout l := by
    intro φ l
    simp [layout, ADict.mapCells, Function.comp_def, Arr.shape_mapCells]
  rw [← h3, this]
  conv_rhs => rw [← h1]
  rw [this]

theorem layout_skel (ds : List (ADict M)) : layout ds = ds.map skel := rfl

theorem layout_heads {ds es : List (ADict M)} (h : layout ds = layout es) {sh : List ℕ}
    (h0 : ∀ d ∈ ds.head?, detailShape d sh = sh) : ∀ d ∈ es.head?, detailShape d sh = sh := by
  intro d hd
  cases es with
  | nil => simp at hd
  | cons e es =>
    cases ds with
    | nil => simp [layout] at h
    | cons d' ds =>
      simp only [List.head?_cons, Option.mem_def, Option.some.injEq] at hd
      subst hd
      simp only [layout, List.map_cons, List.cons.injEq] at h
      rw [← detailShape_skel h.1]
      exact h0 d' (by simp)

theorem waverecn_linear {A B : Arr M} {ds es : List (ADict M)} {wavelet : PerAxis (Wavelet R)}
    {mode : PerAxis Mode} {axes : Option (List ℤ)} {st : List (Stage R)}
    (hr : Resolves A.ndim wavelet mode axes st) (hf : RecnFits st ds A.shape)
    (h0 : ∀ d ∈ ds.head?, detailShape d A.shape = A.shape) (hA : A.shape = B.shape)
    (hl : layout ds = layout es) (p q : R) :
    ∃ y z, waverecn (.arr A :: ds.map Item.ofDict) wavelet mode axes = .ok (.arr y) ∧
      waverecn (.arr B :: es.map Item.ofDict) wavelet mode axes = .ok (.arr z) ∧
      waverecn (.arr (Arr.lincomb p q A B) :: (List.zipWith (lincombD p q) ds es).map Item.ofDict)
        wavelet mode axes = .ok (.arr (Arr.lincomb p q y z)) := by
  have hB : B.ndim = A.ndim := congrArg List.length hA.symm
  have hC : (Arr.lincomb p q A B).ndim = A.ndim := rfl
  have hl2 := (layout_lincomb hl p q).symm
  refine ⟨_, _, waverecn_values hr hf h0, waverecn_values (by rw [hB]; exact hr) (by
    rw [← hA]; exact RecnFits.of_skel hl hf) (by rw [← hA]; exact layout_heads hl h0), ?_⟩
  rw [waverecn_values (by rw [hC]; exact hr) (by
    rw [lincomb_shape]; exact RecnFits.of_skel hl2 hf) (by rw [lincomb_shape]; exact layout_heads hl2 h0)]
  rw [rec_linear (recM := fun a ds => waverecnCascade st ds a) (recP := fun a ds => waverecnCascade st ds a)
    (fun φ a ds => waverecnCascade_map φ st ds a) hA hl p q]

theorem dict3_lincomb (p q : R) (ps qs : List (Arr M × Arr M × Arr M)) :
    List.zipWith (lincombD p q) (ps.map dict3) (qs.map dict3) = (List.zipWith (lincombT p q) ps qs).map dict3 := by
  induction ps generalizing qs with
  | nil => rfl
  | cons u ps ih =>
    cases qs with
    | nil => rfl
    | cons v qs =>
      simp only [List.map_cons, List.zipWith_cons_cons, ih]
      rfl

theorem waverec2_linear {A B : Arr M} {ps qs : List (Arr M × Arr M × Arr M)} {wavelet : PerAxis (Wavelet R)}
    {mode : PerAxis Mode} {axes : List ℤ} {st : List (Stage R)} (hlen : st.length = 2)
    (hr : Resolves A.ndim wavelet mode (some axes) st) (hn : (st.map (·.1)).Nodup)
    (hf : RecnFits st (ps.map dict3) A.shape)
    (hA : A.shape = B.shape) (hl : layout (ps.map dict3) = layout (qs.map dict3)) (p q : R) :
    ∃ y z, waverec2 (.arr A :: ps.map Item.ofTriple) wavelet mode axes = .ok (.arr y) ∧
      waverec2 (.arr B :: qs.map Item.ofTriple) wavelet mode axes = .ok (.arr z) ∧
      waverec2 (.arr (Arr.lincomb p q A B) :: (List.zipWith (lincombT p q) ps qs).map Item.ofTriple)
        wavelet mode axes = .ok (.arr (Arr.lincomb p q y z)) := by
  have hB : B.ndim = A.ndim := congrArg List.length hA.symm
  have hC : (Arr.lincomb p q A B).ndim = A.ndim := rfl
  have hl2 := (layout_lincomb hl p q).symm
  rw [dict3_lincomb] at hl2
  refine ⟨_, _, waverec2_values hlen hr hn hf, waverec2_values hlen (by rw [hB]; exact hr) hn (by
    rw [← hA]; exact RecnFits.of_skel hl hf), ?_⟩
  rw [waverec2_values hlen (by rw [hC]; exact hr) hn (by
    rw [lincomb_shape]; exact RecnFits.of_skel hl2 hf)]
  rw [← dict3_lincomb, rec_linear (recM := fun a ds => waverecnCascade st ds a)
    (recP := fun a ds => waverecnCascade st ds a)
    (fun φ a ds => waverecnCascade_map φ st ds a) hA hl p q]

theorem layout_length {ds es : List (ADict M)} (h : layout ds = layout es) : es.length = ds.length := by
  have := congrArg List.length h
  simpa [layout] using this.symm

theorem layout_dicts {ds es : List (ADict M)} (h : layout ds = layout es) {m : ℕ} {S : List ℕ}
    (hd : ∀ d ∈ ds, DictOk d m S ∧ d ≠ []) : ∀ d ∈ es, DictOk d m S ∧ d ≠ [] := by
  intro d he
  have : skel d ∈ layout es := List.mem_map_of_mem he
  rw [← h] at this
  obtain ⟨d', hd', e⟩ := List.mem_map.mp this
  refine ⟨DictOk.of_skel e (hd d' hd').1, ?_⟩
  rintro rfl
  have := (hd d' hd').2
  cases d' with
  | nil => exact this rfl
  | cons u d' => simp [skel] at e

section
variable [Invertible (2 : R)]

theorem iswtn_linear {A B : Arr M} {ds es : List (ADict M)} {wavelet : PerAxis (Wavelet R)}
    {axes : Option (List ℤ)} {norm : Option R} {st : List (SStage R)}
    (hr : SwtResolves A.ndim wavelet axes norm st) (hf : SwtnFits st ds.length A.shape) (hne : ds ≠ [])
    (hd : ∀ d ∈ ds, DictOk d st.length A.shape ∧ d ≠ []) (hA : A.shape = B.shape)
    (hl : layout ds = layout es) (p q : R) :
    ∃ y z, iswtn (.trimmed A ds) wavelet axes norm = .ok y ∧ iswtn (.trimmed B es) wavelet axes norm = .ok z ∧
      iswtn (.trimmed (Arr.lincomb p q A B) (List.zipWith (lincombD p q) ds es)) wavelet axes norm =
        .ok (Arr.lincomb p q y z) := by
  have hB : B.ndim = A.ndim := congrArg List.length hA.symm
  have hC : (Arr.lincomb p q A B).ndim = A.ndim := rfl
  have hl2 := (layout_lincomb hl p q).symm
  have hne1 : es ≠ [] := by
    intro e; rw [e] at hl; cases ds <;> simp_all [layout]
  have hne2 : List.zipWith (lincombD p q) ds es ≠ [] := by
    intro e; rw [e] at hl2; cases ds <;> simp_all [layout]
  refine ⟨iswtnCascade st ds A, iswtnCascade st es B, ?_, ?_, ?_⟩
  rotate_left 2
  · unfold iswtn
    rw [iswtn_trimmed (by rw [hC]; exact hr) (by rw [layout_length hl2, lincomb_shape]; exact hf) hne2
      (by rw [lincomb_shape]; exact layout_dicts hl2 hd)]
    rw [rec_linear (recM := fun a ds => iswtnCascade st ds a) (recP := fun a ds => iswtnCascade st ds a)
      (fun φ a ds => iswtnCascade_map φ st ds a) hA hl p q]
  · unfold iswtn
    rw [iswtn_trimmed hr hf hne hd]
  · unfold iswtn
    rw [iswtn_trimmed (by rw [hB]; exact hr) (by rw [layout_length hl, ← hA]; exact hf) hne1
      (by rw [← hA]; exact layout_dicts hl hd)]

theorem layout_dict3 {ps : List (Arr M × Arr M × Arr M)} {S : List ℕ} :
    (∀ p ∈ ps, p.1.shape = S ∧ p.2.1.shape = S ∧ p.2.2.shape = S) ↔
      layout (ps.map dict3) = List.replicate ps.length [(['d', 'a'], S), (['a', 'd'], S), (['d', 'd'], S)] := by
  induction ps with
  | nil => simp [layout]
  | cons p ps ih =>
    simp only [List.forall_mem_cons, ih, layout, List.map_cons, List.length_cons, List.replicate_succ,
      List.cons.injEq, List.map_nil, Prod.mk.injEq, true_and, and_true]

theorem iswt2_linear {wavelet : PerAxis (Wavelet R)} {norm : Option R} {axes : List ℤ}
    {st : List (SStage R)} {A B : Arr M} {ps qs : List (Arr M × Arr M × Arr M)} (hlen : st.length = 2)
    (hr : SwtResolves A.ndim wavelet (some axes) norm st) (hf : SwtnFits st ps.length A.shape)
    (hne : ps ≠ []) (hA : A.shape = B.shape) (hq : qs.length = ps.length)
    (hs : ∀ p ∈ ps, p.1.shape = A.shape ∧ p.2.1.shape = A.shape ∧ p.2.2.shape = A.shape)
    (hs' : ∀ p ∈ qs, p.1.shape = A.shape ∧ p.2.1.shape = A.shape ∧ p.2.2.shape = A.shape) (p q : R) :
    ∃ y z, iswt2 (.trimmed A ps) wavelet norm axes = .ok y ∧ iswt2 (.trimmed B qs) wavelet norm axes = .ok z ∧
      iswt2 (.trimmed (Arr.lincomb p q A B) (List.zipWith (lincombT p q) ps qs)) wavelet norm axes =
        .ok (Arr.lincomb p q y z) := by
  have hB : B.ndim = A.ndim := congrArg List.length hA.symm
  have hC : (Arr.lincomb p q A B).ndim = A.ndim := rfl
  have hl : layout (ps.map dict3) = layout (qs.map dict3) := by
    rw [layout_dict3.mp hs, layout_dict3.mp hs', hq]
  have hl2 := (layout_lincomb hl p q).symm
  rw [dict3_lincomb] at hl2
  have hzl : (List.zipWith (lincombT p q) ps qs).length = ps.length := by simp [hq]
  have hs2 : ∀ r ∈ List.zipWith (lincombT p q) ps qs, r.1.shape = A.shape ∧ r.2.1.shape = A.shape ∧
      r.2.2.shape = A.shape := by
    rw [layout_dict3, ← hl2, layout_dict3.mp hs, hzl]
  refine ⟨_, _, iswt2_trimmed hlen hr hf hne hs, iswt2_trimmed hlen (by rw [hB]; exact hr)
    (by rw [hq, ← hA]; exact hf) (by rintro rfl; simp at hq; exact hne (List.length_eq_zero_iff.mp hq.symm))
    (by rw [← hA]; exact hs'), ?_⟩
  rw [iswt2_trimmed hlen (by rw [hC]; exact hr) (by rw [hzl, lincomb_shape]; exact hf)
    (by intro e; rw [e] at hzl; exact hne (List.length_eq_zero_iff.mp hzl.symm)) (by
      rw [lincomb_shape]; exact hs2)]
  rw [← dict3_lincomb, rec_linear (recM := fun a ds => iswtnCascade st ds a)
    (recP := fun a ds => iswtnCascade st ds a)
    (fun φ a ds => iswtnCascade_map φ st ds a) hA hl p q]

end

/-! ### The forward transforms -/

theorem approxN_map {M' : Type} [AddCommGroup M'] [Module R M'] (φ : M →ₗ[R] M') (st : List (Stage R)) (n : ℕ)
    (x : Arr M) : (x.mapCells φ).approxN st n = (x.approxN st n).mapCells φ := by
  induction n generalizing x with
  | zero => rfl
  | succ n ih =>
    unfold Arr.approxN at *
    rw [Function.iterate_succ_apply, Function.iterate_succ_apply, subband_map, ih]

/-- A transform that commutes with linear maps of the samples is linear. -/
theorem fwd_linear {F : Arr M → Arr M} {FP : Arr (M × M) → Arr (M × M)}
    (hnat : ∀ (φ : M × M →ₗ[R] M) P, F (P.mapCells φ) = (FP P).mapCells φ)
    {x y : Arr M} (h : x.shape = y.shape) (p q : R) :
    F (Arr.lincomb p q x y) = Arr.lincomb p q (F x) (F y) := by
  have e1 := hnat (LinearMap.fst R M M) (Arr.pair x y)
  have e2 := hnat (LinearMap.snd R M M) (Arr.pair x y)
  have e3 := hnat (lcMap p q) (Arr.pair x y)
  rw [Arr.pair_fst] at e1
  rw [Arr.pair_snd h] at e2
  rw [Arr.pair_lc] at e3
  rw [e1, e2, e3, Arr.lincomb_map]

theorem fwd_shape {F : Arr M → Arr M} {FP : Arr (M × M) → Arr (M × M)}
    (hnat : ∀ (φ : M × M →ₗ[R] M) P, F (P.mapCells φ) = (FP P).mapCells φ)
    {x y : Arr M} (h : x.shape = y.shape) : (F x).shape = (F y).shape := by
  have e1 := hnat (LinearMap.fst R M M) (Arr.pair x y)
  have e2 := hnat (LinearMap.snd R M M) (Arr.pair x y)
  rw [Arr.pair_fst] at e1
  rw [Arr.pair_snd h] at e2
  rw [e1, e2]
  rfl

theorem approxN_sameShape {x y : Arr M} (h : x.shape = y.shape) (st : List (Stage R)) (n : ℕ) :
    (x.approxN st n).shape = (y.approxN st n).shape :=
  fwd_shape (R := R) (F := Arr.approxN st n) (FP := Arr.approxN st n) (fun φ P => approxN_map φ st n P) h

theorem bandN_sameShape {x y : Arr M} (h : x.shape = y.shape) (st : List (Stage R)) (n : ℕ) (k : Key) :
    ((x.approxN st n).subband st k).shape = ((y.approxN st n).subband st k).shape :=
  fwd_shape (R := R) (F := fun x => (x.approxN st n).subband st k) (FP := fun x => (x.approxN st n).subband st k)
    (fun φ P => by simp only [approxN_map, subband_map]) h

theorem approxN_linear {x y : Arr M} (h : x.shape = y.shape) (p q : R) (st : List (Stage R)) (n : ℕ) :
    (Arr.lincomb p q x y).approxN st n = Arr.lincomb p q (x.approxN st n) (y.approxN st n) :=
  fwd_linear (F := Arr.approxN st n) (FP := Arr.approxN st n) (fun φ P => approxN_map φ st n P) h p q

theorem bandN_linear {x y : Arr M} (h : x.shape = y.shape) (p q : R) (st : List (Stage R)) (n : ℕ) (k : Key) :
    ((Arr.lincomb p q x y).approxN st n).subband st k =
      Arr.lincomb p q ((x.approxN st n).subband st k) ((y.approxN st n).subband st k) :=
  fwd_linear (F := fun x => (x.approxN st n).subband st k) (FP := fun x => (x.approxN st n).subband st k)
    (fun φ P => by simp only [approxN_map, subband_map]) h p q

theorem detailsN_linear {x y : Arr M} (h : x.shape = y.shape) (p q : R) (st : List (Stage R)) (n : ℕ) :
    (Arr.lincomb p q x y).detailsN st n = lincombD p q (x.detailsN st n) (y.detailsN st n) := by
  unfold Arr.detailsN lincombD
  rw [List.zipWith_map, List.zipWith_self]
  apply List.map_congr_left
  intro k _
  rw [bandN_linear h]

theorem wavedecn_linear {x y : Arr M} {wavelet : PerAxis (Wavelet R)} {mode : PerAxis Mode}
    {axes : Option (List ℤ)} {st : List (Stage R)} (hne : st ≠ [])
    (hr : Resolves x.ndim wavelet mode axes st) (hb : ∀ s ∈ st, s.1 < x.ndim ∧ s.2.1.Ok)
    (hn : (st.map (·.1)).Nodup) (hs : x.shape = y.shape) {level : Option ℤ} {cs : List (Item M)}
    (h : wavedecn x wavelet mode level axes = .ok cs) (p q : R) :
    ∃ (A : Arr M) (ds : List (ADict M)) (B : Arr M) (es : List (ADict M)), cs = .arr A :: ds.map Item.ofDict ∧
      wavedecn y wavelet mode level axes = .ok (.arr B :: es.map Item.ofDict) ∧
      A.shape = B.shape ∧ layout ds = layout es ∧
      wavedecn (Arr.lincomb p q x y) wavelet mode level axes =
        .ok (.arr (Arr.lincomb p q A B) :: (List.zipWith (lincombD p q) ds es).map Item.ofDict) := by
  have hd : 1 ≤ x.ndim := by
    cases st with
    | nil => exact absurd rfl hne
    | cons s st => have := (hb s (by simp)).1; omega
  have hny : y.ndim = x.ndim := congrArg List.length hs.symm
  have hnc : (Arr.lincomb p q x y).ndim = x.ndim := rfl
  obtain ⟨L, hL, hall⟩ := wavedecn_eq hd hne hr hb hn
  obtain ⟨L1, hL1, hall1⟩ := wavedecn_eq (x := y) (by omega) hne (by rw [hny]; exact hr) (by rw [hny]; exact hb) hn
  obtain ⟨L2, hL2, hall2⟩ := wavedecn_eq (x := Arr.lincomb p q x y) (by omega) hne (by rw [hnc]; exact hr)
    (by rw [hnc]; exact hb) hn
  have e1 : L1 = L := by
    rw [← hs] at hL1
    apply le_antisymm
    · rw [hL, ← hL1]
    · rw [hL1, ← hL]
  have e2 : L2 = L := by
    rw [lincomb_shape] at hL2
    apply le_antisymm
    · rw [hL, ← hL2]
    · rw [hL2, ← hL]
  subst e1
  subst e2
  rw [hall] at h
  rw [hall1, hall2, ← hs, lincomb_shape]
  generalize (level.map Int.toNat).getD L2 = n at h ⊢
  split at h
  · cases h
  · rename_i hneg
    rw [if_neg hneg]
    split at h
    · rename_i hok
      rw [if_pos hok, if_neg hneg, if_pos hok]
      cases h
      refine ⟨x.approxN st n, ((List.range n).map (x.detailsN st ·)).reverse, y.approxN st n,
        ((List.range n).map (y.detailsN st ·)).reverse, ?_, ?_, ?_, ?_, ?_⟩
      · unfold Arr.cascadeN
        rw [List.map_reverse, List.map_map]
        rfl
      · unfold Arr.cascadeN
        rw [List.map_reverse, List.map_map]
        rfl
      · exact approxN_sameShape hs st n
      · unfold layout
        rw [List.map_reverse, List.map_reverse, List.map_map, List.map_map]
        congr 1
        apply List.map_congr_left
        intro j _
        simp only [Function.comp, Arr.detailsN, List.map_map]
        apply List.map_congr_left
        intro k _
        simp only [Function.comp]
        rw [bandN_sameShape hs]
      · unfold Arr.cascadeN
        rw [approxN_linear hs, ← List.reverse_zipWith (by simp), List.zipWith_map, List.zipWith_self,
          List.map_reverse, List.map_map]
        simp only [detailsN_linear hs]
        rfl
    · cases h

theorem wavedec2_linear {x y : Arr M} {wavelet : PerAxis (Wavelet R)} {mode : PerAxis Mode}
    {axes : List ℤ} {s t : Stage R} (hr : Resolves x.ndim wavelet mode (some axes) [s, t])
    (hb : ∀ u ∈ [s, t], u.1 < x.ndim ∧ u.2.1.Ok) (hst : s.1 ≠ t.1) (hs : x.shape = y.shape)
    {level : Option ℤ} {cs : List (Item M)} (h : wavedec2 x wavelet mode level axes = .ok cs) (p q : R) :
    ∃ (A : Arr M) (ps : List (Arr M × Arr M × Arr M)) (B : Arr M) (qs : List (Arr M × Arr M × Arr M)),
      cs = .arr A :: ps.map Item.ofTriple ∧
      wavedec2 y wavelet mode level axes = .ok (.arr B :: qs.map Item.ofTriple) ∧
      A.shape = B.shape ∧ layout (ps.map dict3) = layout (qs.map dict3) ∧
      wavedec2 (Arr.lincomb p q x y) wavelet mode level axes =
        .ok (.arr (Arr.lincomb p q A B) :: (List.zipWith (lincombT p q) ps qs).map Item.ofTriple) := by
  have hny : y.ndim = x.ndim := congrArg List.length hs.symm
  have hnc : (Arr.lincomb p q x y).ndim = x.ndim := rfl
  obtain ⟨L, hL, hall⟩ := wavedec2_eq hr hb hst
  obtain ⟨L1, hL1, hall1⟩ := wavedec2_eq (x := y) (by rw [hny]; exact hr) (by rw [hny]; exact hb) hst
  obtain ⟨L2, hL2, hall2⟩ := wavedec2_eq (x := Arr.lincomb p q x y) (by rw [hnc]; exact hr)
    (by rw [hnc]; exact hb) hst
  have e1 : L1 = L := by
    rw [← hs] at hL1
    apply le_antisymm
    · rw [hL, ← hL1]
    · rw [hL1, ← hL]
  have e2 : L2 = L := by
    rw [lincomb_shape] at hL2
    apply le_antisymm
    · rw [hL, ← hL2]
    · rw [hL2, ← hL]
  subst e1
  subst e2
  rw [hall] at h
  rw [hall1, hall2, ← hs, lincomb_shape]
  generalize (level.map Int.toNat).getD L2 = n at h ⊢
  split at h
  · cases h
  · rename_i hneg
    rw [if_neg hneg]
    split at h
    · rename_i hok
      rw [if_pos hok, if_neg hneg, if_pos hok]
      cases h
      have tri : ∀ z : Arr M, z.cascade2 [s, t] n = .arr (z.approxN [s, t] n) :: ((List.range n).map fun j =>
          ((z.approxN [s, t] j).subband [s, t] ['d', 'a'], (z.approxN [s, t] j).subband [s, t] ['a', 'd'],
            (z.approxN [s, t] j).subband [s, t] ['d', 'd'])).reverse.map Item.ofTriple := by
        intro z
        unfold Arr.cascade2
        rw [List.map_reverse, List.map_map]
        rfl
      refine ⟨_, _, _, _, tri x, congrArg _ (tri y), approxN_sameShape hs [s, t] n, ?_, ?_⟩
      · unfold layout
        simp only [List.map_reverse, List.map_map]
        congr 1
        apply List.map_congr_left
        intro j _
        simp only [Function.comp, dict3, List.map_cons, List.map_nil]
        rw [bandN_sameShape hs, bandN_sameShape hs, bandN_sameShape hs]
      · rw [tri, approxN_linear hs, ← List.reverse_zipWith (by simp), List.zipWith_map, List.zipWith_self]
        simp only [bandN_linear hs]
        rfl
    · cases h

/-! ### The stationary transforms -/

theorem swtnApprox_map {M' : Type} [AddCommGroup M'] [Module R M'] (φ : M →ₗ[R] M') (st : List (SStage R))
    (m : ℕ) (x : Arr M) (j : ℕ) : swtnApprox st m (x.mapCells φ) j = (swtnApprox st m x j).mapCells φ := by
  induction j with
  | zero => rfl
  | succ j ih => rw [swtnApprox, swtnApprox, ih, swtBand_map]

theorem swtnBand_map {M' : Type} [AddCommGroup M'] [Module R M'] (φ : M →ₗ[R] M') (st : List (SStage R))
    (m : ℕ) (x : Arr M) (j : ℕ) (k : Key) :
    swtnBand st m (x.mapCells φ) j k = (swtnBand st m x j k).mapCells φ := by
  unfold swtnBand
  rw [swtnApprox_map, swtBand_map]

theorem swtnApprox_linear {x y : Arr M} (h : x.shape = y.shape) (p q : R) (st : List (SStage R)) (m j : ℕ) :
    swtnApprox st m (Arr.lincomb p q x y) j = Arr.lincomb p q (swtnApprox st m x j) (swtnApprox st m y j) :=
  fwd_linear (F := fun x => swtnApprox st m x j) (FP := fun x => swtnApprox st m x j)
    (fun φ P => swtnApprox_map φ st m P j) h p q

theorem swtnBand_linear {x y : Arr M} (h : x.shape = y.shape) (p q : R) (st : List (SStage R)) (m j : ℕ)
    (k : Key) :
    swtnBand st m (Arr.lincomb p q x y) j k = Arr.lincomb p q (swtnBand st m x j k) (swtnBand st m y j k) :=
  fwd_linear (F := fun x => swtnBand st m x j k) (FP := fun x => swtnBand st m x j k)
    (fun φ P => swtnBand_map φ st m P j k) h p q

theorem swtnDict_linear {x y : Arr M} (h : x.shape = y.shape) (p q : R) (st : List (SStage R)) (m : ℕ)
    (trim : Bool) (j : ℕ) :
    swtnDict st m trim (Arr.lincomb p q x y) j = lincombD p q (swtnDict st m trim x j) (swtnDict st m trim y j) := by
  unfold swtnDict lincombD
  rw [List.zipWith_map, List.zipWith_self]
  apply List.map_congr_left
  intro k _
  rw [swtnBand_linear h]

theorem swtnDicts_linear {x y : Arr M} (h : x.shape = y.shape) (p q : R) (st : List (SStage R)) (m : ℕ)
    (trim : Bool) (l : ℕ) :
    ((List.range l).map (swtnDict st m trim (Arr.lincomb p q x y))).reverse =
      List.zipWith (lincombD p q) ((List.range l).map (swtnDict st m trim x)).reverse
        ((List.range l).map (swtnDict st m trim y)).reverse := by
  rw [← List.reverse_zipWith (by simp), List.zipWith_map, List.zipWith_self]
  congr 1
  apply List.map_congr_left
  intro j _
  exact swtnDict_linear h p q st m trim j

theorem swt2Dets_linear {x y : Arr M} (h : x.shape = y.shape) (p q : R) (st : List (SStage R)) (m : ℕ)
    (l : ℕ) :
    ((List.range l).map (swt2Det st m (Arr.lincomb p q x y))).reverse =
      List.zipWith (lincombT p q) ((List.range l).map (swt2Det st m x)).reverse
        ((List.range l).map (swt2Det st m y)).reverse := by
  rw [← List.reverse_zipWith (by simp), List.zipWith_map, List.zipWith_self]
  congr 1
  apply List.map_congr_left
  intro j _
  unfold swt2Det lincombT
  rw [swtnBand_linear h, swtnBand_linear h, swtnBand_linear h]

/-! ### Details that are left out -/

/-- The entries whose position satisfies `P`. -/
def keepP (P : ℕ → Key → Bool) (ds : List (ADict M)) : List (ADict M) :=
  ds.mapIdx fun j d => d.filter fun p => P j p.1

def zeroP (P : ℕ → Key → Bool) (ds : List (ADict M)) : List (ADict M) :=
  ds.mapIdx fun j d => d.map fun p => (p.1, if P j p.1 then p.2 else Arr.zero p.2.shape)

theorem lookup_filter_zero {d : ADict M} {S : List ℕ} (hS : ∀ p ∈ d, p.2.shape = S) (P : Key → Bool) (k : Key) :
    ((d.filter fun p => P p.1).lookup k).getD (Arr.zero S) =
      ((d.map fun p => (p.1, if P p.1 then p.2 else Arr.zero p.2.shape)).lookup k).getD (Arr.zero S) := by
  induction d with
  | nil => rfl
  | cons u d ih =>
    have ih := ih fun p hp => hS p (by simp [hp])
    have hu := hS u (by simp)
    rw [List.map_cons, List.lookup_cons]
    by_cases hk : k = u.1
    · subst hk
      by_cases hp : P u.1 = true
      · rw [List.filter_cons_of_pos (by simpa using hp), List.lookup_cons]
        simp [hp]
      · rw [List.filter_cons_of_neg (by simpa using hp)]
        simp only [beq_self_eq_true, hp, Option.getD_some]
        have : (d.filter fun p => P p.1).lookup u.1 = none := by
          rw [List.lookup_eq_none_iff]
          intro p hp'
          simp only [List.mem_filter] at hp'
          have : u.1 ≠ p.1 := by
            intro e
            rw [e] at hp
            exact hp hp'.2
          simpa using this
        rw [this, hu]
        simp
    · have hb : (k == u.1) = false := by simpa using hk
      simp only [hb]
      rw [← ih]
      by_cases hp : P u.1 = true
      · rw [List.filter_cons_of_pos (by simpa using hp), List.lookup_cons, hb]
      · rw [List.filter_cons_of_neg (by simpa using hp)]

theorem filter_keys {d : ADict M} {m : ℕ} {S : List ℕ} (h : DictOk d m S) (P : Key → Bool) :
    DictOk (d.filter fun p => P p.1) m S := by
  refine ⟨h.1.sublist ((List.filter_sublist).map _), fun p hp => h.2 p ?_⟩
  exact (List.mem_filter.mp hp).1

theorem zero_keys {d : ADict M} {m : ℕ} {S : List ℕ} (h : DictOk d m S) (P : Key → Bool) :
    DictOk (d.map fun p => (p.1, if P p.1 then p.2 else Arr.zero p.2.shape)) m S := by
  refine DictOk.of_skel ?_ h
  unfold skel
  rw [List.map_map]
  apply List.map_congr_left
  intro p _
  simp only [Function.comp]
  split <;> rfl

theorem detailShape_mem {d : ADict M} {m : ℕ} {S : List ℕ} (h : DictOk d m S) (hne : d ≠ []) (sh : List ℕ) :
    detailShape d sh = S := by
  cases d with
  | nil => exact absurd rfl hne
  | cons u d => exact (h.2 u (by simp)).2

theorem bandOf_keep {d : ADict M} {m : ℕ} {S : List ℕ} (h : DictOk d m S) (P : Key → Bool) {a : Arr M}
    (ha : a.shape = S) :
    bandOf (d.filter fun p => P p.1) a m =
      bandOf (d.map fun p => (p.1, if P p.1 then p.2 else Arr.zero p.2.shape)) a m := by
  funext k
  unfold bandOf
  rw [ha, lookup_filter_zero (fun p hp => (h.2 p hp).2)]

theorem recn_keep {st : List (Stage R)} (ds : List (ADict M)) :
    ∀ (P : ℕ → Key → Bool) (a : Arr M), RecnFits st ds a.shape → (∀ d ∈ keepP P ds, d ≠ []) →
      RecnFits st (keepP P ds) a.shape ∧ RecnFits st (zeroP P ds) a.shape ∧
      waverecnCascade st (keepP P ds) a = waverecnCascade st (zeroP P ds) a := by
  induction ds with
  | nil => intro P a _ _; exact ⟨trivial, trivial, rfl⟩
  | cons d ds ih =>
    intro P a hf hk
    unfold keepP zeroP at *
    rw [List.mapIdx_cons] at hk ⊢
    rw [List.mapIdx_cons]
    obtain ⟨f1, f2, f3, f4⟩ := hf
    have hne : (d.filter fun p => P 0 p.1) ≠ [] := hk _ (by simp)
    have hd : d ≠ [] := by rintro rfl; simp at hne
    have hne' : (d.map fun p => (p.1, if P 0 p.1 then p.2 else Arr.zero p.2.shape)) ≠ [] := by simpa using hd
    have s1 : detailShape (d.filter fun p => P 0 p.1) a.shape = detailShape d a.shape :=
      detailShape_mem (filter_keys f1 (P 0)) hne _
    have s2 : detailShape (d.map fun p => (p.1, if P 0 p.1 then p.2 else Arr.zero p.2.shape)) a.shape =
        detailShape d a.shape := detailShape_mem (zero_keys f1 (P 0)) hne' _
    have hk' : ∀ e ∈ ds.mapIdx (fun j d => d.filter fun p => P (j + 1) p.1), e ≠ [] :=
      fun e he => hk e (by simp [he])
    unfold RecnFits waverecnCascade
    rw [s1, s2, bandOf_keep f1 (P 0) (Arr.crop_shape _ _)]
    set b := Arr.idwtnStep st (bandOf (d.map fun p => (p.1, if P 0 p.1 then p.2 else Arr.zero p.2.shape))
      (a.crop (detailShape d a.shape)) st.length) (detailShape d a.shape) with hb
    have hbs : b.shape = synthShape st (detailShape d a.shape) := idwtnStep_shape' _ _ _
    obtain ⟨g1, g2, g3⟩ := ih (fun j => P (j + 1)) b (by rw [hbs]; exact f4) hk'
    rw [hbs] at g1 g2
    exact ⟨⟨filter_keys f1 (P 0), f2, f3, g1⟩, ⟨zero_keys f1 (P 0), f2, f3, g2⟩, g3⟩

theorem without_eq (ps : List (ℕ × Key)) (ds : List (ADict M)) :
    without ps ds = keepP (fun j k => decide ((j, k) ∉ ps)) ds := rfl

theorem zeroed_eq (ps : List (ℕ × Key)) (ds : List (ADict M)) :
    zeroed ps ds = zeroP (fun j k => decide ((j, k) ∉ ps)) ds := by
  unfold zeroed zeroP
  refine congrFun (congrArg _ ?_) _
  funext j d
  apply List.map_congr_left
  intro p _
  by_cases h : (j, p.1) ∈ ps <;> simp [h]

theorem waverecn_without {A : Arr M} {ds : List (ADict M)} {wavelet : PerAxis (Wavelet R)}
    {mode : PerAxis Mode} {axes : Option (List ℤ)} {st : List (Stage R)}
    (hr : Resolves A.ndim wavelet mode axes st) (hf : RecnFits st ds A.shape)
    (h0 : ∀ d ∈ ds.head?, detailShape d A.shape = A.shape) (ps : List (ℕ × Key))
    (hne : ∀ d ∈ without ps ds, d ≠ []) :
    ∃ y, waverecn (.arr A :: (without ps ds).map Item.ofDict) wavelet mode axes = .ok (.arr y) ∧
      waverecn (.arr A :: (zeroed ps ds).map Item.ofDict) wavelet mode axes = .ok (.arr y) := by
  rw [without_eq] at hne ⊢
  rw [zeroed_eq]
  obtain ⟨g1, g2, g3⟩ := recn_keep ds _ A hf hne
  have hh : ∀ (Q : List (ADict M)), RecnFits st Q A.shape → (∀ d ∈ Q, d ≠ []) → (∀ d ∈ Q.head?, ∀ e ∈ ds.head?,
      ∃ p ∈ d, ∃ p' ∈ e, p.2.shape = p'.2.shape) → Q.length = ds.length →
      ∀ d ∈ Q.head?, detailShape d A.shape = A.shape := by
    intro Q hQ hQne hQs hlen d hd
    cases Q with
    | nil => simp at hd
    | cons q Q =>
      cases ds with
      | nil => simp at hlen
      | cons e ds =>
        simp only [List.head?_cons, Option.mem_def, Option.some.injEq] at hd
        subst hd
        obtain ⟨p, hp, p', hp', e1⟩ := hQs q (by simp) e (by simp)
        have h1 := (hQ.1.2 p hp).2
        have h2 := (hf.1.2 p' hp').2
        rw [← h1, e1, h2]
        exact h0 e (by simp)
  have hz : ∀ d ∈ zeroP (fun j k => decide ((j, k) ∉ ps)) ds, d ≠ [] := by
    intro d hd
    unfold zeroP at hd
    obtain ⟨j, hj, rfl⟩ := List.mem_mapIdx.mp hd
    have := hne _ (List.mem_mapIdx.mpr ⟨j, hj, rfl⟩)
    intro e
    simp only [List.map_eq_nil_iff] at e
    rw [e] at this
    simp at this
  refine ⟨_, waverecn_values hr g1 (hh _ g1 hne ?_ (by simp [keepP])), ?_⟩
  · cases ds with
    | nil => simp
    | cons e ds =>
      unfold keepP at *
      rw [List.mapIdx_cons] at *
      simp only [List.head?_cons, Option.mem_def, Option.some.injEq, forall_eq']
      have := hne _ (List.mem_cons_self ..)
      obtain ⟨p, hp⟩ := List.exists_mem_of_ne_nil _ this
      exact ⟨p, hp, p, (List.mem_filter.mp hp).1, rfl⟩
  · rw [waverecn_values hr g2 (hh _ g2 hz ?_ (by simp [zeroP])), g3]
    cases ds with
    | nil => simp
    | cons e ds =>
      unfold zeroP at *
      rw [List.mapIdx_cons] at *
      simp only [List.head?_cons, Option.mem_def, Option.some.injEq, forall_eq']
      have := hz _ (List.mem_cons_self ..)
      have he : e ≠ [] := by simpa using this
      obtain ⟨p, hp⟩ := List.exists_mem_of_ne_nil _ he
      refine ⟨_, List.mem_map_of_mem hp, p, hp, ?_⟩
      simp only
      split <;> rfl

/-! ### Superposition -/

theorem waverecn_superposition {A : Arr M} {ds : List (ADict M)} {wavelet : PerAxis (Wavelet R)}
    {mode : PerAxis Mode} {axes : Option (List ℤ)} {st : List (Stage R)}
    (hr : Resolves A.ndim wavelet mode axes st) (hf : RecnFits st ds A.shape)
    (h0 : ∀ d ∈ ds.head?, detailShape d A.shape = A.shape) :
    ∃ (y : Arr M) (ys : Option (ℕ × Key) → Arr M),
      waverecn (.arr A :: ds.map Item.ofDict) wavelet mode axes = .ok (.arr y) ∧
      (∀ i ∈ coefPos ds, waverecn (.arr (onlyA A i) :: (onlyD ds i).map Item.ofDict) wavelet mode axes =
        .ok (.arr (ys i))) ∧
      ∀ idx, y.get idx = ((coefPos ds).map fun i => (ys i).get idx).sum := by
  have hkeys : ∀ (sh : List ℕ) (l : List (ADict M)), RecnFits st l sh → ∀ d ∈ l, (d.map (·.1)).Nodup := by
    intro sh l
    induction l generalizing sh with
    | nil => intro _ d hd; simp at hd
    | cons d l ih =>
      intro h e he
      rcases List.mem_cons.mp he with rfl | he
      · exact h.1.1
      · exact ih _ h.2.2.2 e he
  refine ⟨_, fun i => waverecnCascade st (onlyD ds i) (onlyA A i), waverecn_values hr hf h0, ?_, ?_⟩
  · intro i _
    have hl : layout ds = layout (onlyD ds i) := (skel_onlyD ds i).symm
    have hsh := onlyA_shape A i
    exact waverecn_values (by unfold Arr.ndim; rw [hsh]; exact hr) (by rw [hsh]; exact RecnFits.of_skel hl hf)
      (by rw [hsh]; exact layout_heads hl h0)
  · intro idx
    exact (sum_only (R := R) (recM := fun a ds => waverecnCascade st ds a)
      (recP := fun a ds => waverecnCascade st ds a)
      (fun φ a ds => waverecnCascade_map φ st ds a) A ds (hkeys _ _ hf) idx).symm

/-! ### Details left out of `iswtn` -/

section
variable [Invertible (2 : R)]

theorem iswtnStep_sh (st : List (SStage R)) (step : ℕ) (band : Key → Arr M) (S : List ℕ) :
    (Arr.iswtnStep st step band S).shape = S := rfl

theorem iswtn_keep {st : List (SStage R)} {S : List ℕ} (ds : List (ADict M)) :
    ∀ (P : ℕ → Key → Bool) (a : Arr M), a.shape = S → (∀ d ∈ ds, DictOk d st.length S) →
      iswtnCascade st (keepP P ds) a = iswtnCascade st (zeroP P ds) a := by
  induction ds with
  | nil => intro P a _ _; rfl
  | cons d ds ih =>
    intro P a ha hd
    have e := ih (fun j => P (j + 1)) (Arr.iswtnStep st (2 ^ ds.length)
      (bandOf (d.map fun p => (p.1, if P 0 p.1 then p.2 else Arr.zero p.2.shape)) a st.length) a.shape)
      ha (fun e he => hd e (by simp [he]))
    unfold keepP zeroP at *
    rw [List.mapIdx_cons, List.mapIdx_cons]
    unfold iswtnCascade
    rw [bandOf_keep (hd d (by simp)) (P 0) ha]
    simp only [List.length_mapIdx]
    exact e

theorem iswtn_without {A : Arr M} {ds : List (ADict M)} {wavelet : PerAxis (Wavelet R)}
    {axes : Option (List ℤ)} {norm : Option R} {st : List (SStage R)}
    (hr : SwtResolves A.ndim wavelet axes norm st) (hf : SwtnFits st ds.length A.shape) (hne : ds ≠ [])
    (hd : ∀ d ∈ ds, DictOk d st.length A.shape) (ps : List (ℕ × Key)) (hw : ∀ d ∈ without ps ds, d ≠ []) :
    ∃ y, iswtn (.trimmed A (without ps ds)) wavelet axes norm = .ok y ∧
      iswtn (.trimmed A (zeroed ps ds)) wavelet axes norm = .ok y := by
  rw [without_eq] at hw ⊢
  rw [zeroed_eq]
  refine ⟨iswtnCascade st (zeroP (fun j k => decide ((j, k) ∉ ps)) ds) A, ?_, ?_⟩
  · unfold iswtn
    rw [iswtn_trimmed hr (by simpa [keepP] using hf) (by
      intro e; have := congrArg List.length e; simp [keepP] at this; exact hne this) ?_, iswtn_keep ds _ A rfl hd]
    intro d he
    refine ⟨?_, hw d he⟩
    unfold keepP at he
    obtain ⟨j, hj, rfl⟩ := List.mem_mapIdx.mp he
    exact filter_keys (hd _ (List.getElem_mem hj)) (fun k => decide ((j, k) ∉ ps))
  · unfold iswtn
    rw [iswtn_trimmed hr (by simpa [zeroP] using hf) (by
      intro e; have := congrArg List.length e; simp [zeroP] at this; exact hne this) ?_]
    intro d he
    unfold zeroP at he
    obtain ⟨j, hj, rfl⟩ := List.mem_mapIdx.mp he
    refine ⟨zero_keys (hd _ (List.getElem_mem hj)) (fun k => decide ((j, k) ∉ ps)), ?_⟩
    have := hw _ (List.mem_mapIdx.mpr ⟨j, hj, rfl⟩)
    intro e
    simp only [List.map_eq_nil_iff] at e
    rw [e] at this
    simp at this

end

end Pywt
