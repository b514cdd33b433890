import Verif.Proof.LinN
import Verif.Props.MraN

/-!
# C51: the n-D multilevel transforms are linear, for arbitrary coefficients

Coefficients that were edited (thresholded, zeroed, scaled, replaced) are reconstructed as the stated sum
of filtered arrays; the reconstruction is linear in them; details left out count as zeros.
`RecnFits` is the condition that the shapes fit; `waverecnCascade` is the sum over all subbands.
-/

namespace Pywt

open Finset Spec

set_option autoImplicit false

section
variable {R M : Type} [Ring R] [AddCommGroup M] [Module R M]

/-- **C51.** What `waverecn` returns for arbitrary coefficients whose shapes fit together: level by level
the approximation is cut to the shape of the details, and all subbands are upsampled, filtered and
added. -/
theorem C51_waverecn_values {A : Arr M} {ds : List (List (List Char × Arr M))} {wavelet : PerAxis (Wavelet R)}
    {mode : PerAxis Mode} {axes : Option (List ℤ)} {st : List (Stage R)}
    (hr : Resolves A.ndim wavelet mode axes st) (hf : RecnFits st ds A.shape)
    (h0 : ∀ d ∈ ds.head?, detailShape d A.shape = A.shape) :
    waverecn (.arr A :: ds.map Item.ofDict) wavelet mode axes = .ok (.arr (waverecnCascade st ds A)) :=
  waverecn_values hr hf h0

/-- **C51.** What `waverec2` returns for arbitrary coefficients: the same as `waverecn` for the dicts with
the keys `da` (horizontal), `ad` (vertical) and `dd` (diagonal). -/
theorem C51_waverec2_values {A : Arr M} {ps : List (Arr M × Arr M × Arr M)} {wavelet : PerAxis (Wavelet R)}
    {mode : PerAxis Mode} {axes : List ℤ} {st : List (Stage R)} (hl : st.length = 2)
    (hr : Resolves A.ndim wavelet mode (some axes) st) (hn : (st.map (·.1)).Nodup)
    (hf : RecnFits st (ps.map dict3) A.shape) :
    waverec2 (.arr A :: ps.map Item.ofTriple) wavelet mode axes =
      .ok (.arr (waverecnCascade st (ps.map dict3) A)) :=
  waverec2_values hl hr hn hf

end

section
variable {R M : Type} [CommRing R] [AddCommGroup M] [Module R M]

/-- **C51.** `waverecn` is linear: `waverecn(p*a + q*b) = p*waverecn(a) + q*waverecn(b)` for coefficients
of the same layout. -/
theorem C51_waverecn_linear {A B : Arr M} {ds es : List (List (List Char × Arr M))} {wavelet : PerAxis (Wavelet R)}
    {mode : PerAxis Mode} {axes : Option (List ℤ)} {st : List (Stage R)}
    (hr : Resolves A.ndim wavelet mode axes st) (hf : RecnFits st ds A.shape)
    (h0 : ∀ d ∈ ds.head?, detailShape d A.shape = A.shape) (hA : A.shape = B.shape)
    (hl : layout ds = layout es) (p q : R) :
    ∃ y z, waverecn (.arr A :: ds.map Item.ofDict) wavelet mode axes = .ok (.arr y) ∧
      waverecn (.arr B :: es.map Item.ofDict) wavelet mode axes = .ok (.arr z) ∧
      waverecn (.arr (Arr.lincomb p q A B) :: (List.zipWith (lincombD p q) ds es).map Item.ofDict)
        wavelet mode axes = .ok (.arr (Arr.lincomb p q y z)) :=
  waverecn_linear hr hf h0 hA hl p q

/-- **C51.** `waverec2` is linear. -/
theorem C51_waverec2_linear {A B : Arr M} {ps qs : List (Arr M × Arr M × Arr M)} {wavelet : PerAxis (Wavelet R)}
    {mode : PerAxis Mode} {axes : List ℤ} {st : List (Stage R)} (hlen : st.length = 2)
    (hr : Resolves A.ndim wavelet mode (some axes) st) (hn : (st.map (·.1)).Nodup)
    (hf : RecnFits st (ps.map dict3) A.shape)
    (hA : A.shape = B.shape) (hl : layout (ps.map dict3) = layout (qs.map dict3)) (p q : R) :
    ∃ y z, waverec2 (.arr A :: ps.map Item.ofTriple) wavelet mode axes = .ok (.arr y) ∧
      waverec2 (.arr B :: qs.map Item.ofTriple) wavelet mode axes = .ok (.arr z) ∧
      waverec2 (.arr (Arr.lincomb p q A B) :: (List.zipWith (lincombT p q) ps qs).map Item.ofTriple)
        wavelet mode axes = .ok (.arr (Arr.lincomb p q y z)) :=
  waverec2_linear hlen hr hn hf hA hl p q

/-- **C51.** Superposition: the reconstruction is the sum, over all coefficient arrays, of the
reconstructions in which all other arrays are zero. -/
theorem C51_waverecn_superposition {A : Arr M} {ds : List (List (List Char × Arr M))}
    {wavelet : PerAxis (Wavelet R)} {mode : PerAxis Mode} {axes : Option (List ℤ)} {st : List (Stage R)}
    (hr : Resolves A.ndim wavelet mode axes st) (hf : RecnFits st ds A.shape)
    (h0 : ∀ d ∈ ds.head?, detailShape d A.shape = A.shape) :
    ∃ (y : Arr M) (ys : Option (ℕ × List Char) → Arr M),
      waverecn (.arr A :: ds.map Item.ofDict) wavelet mode axes = .ok (.arr y) ∧
      (∀ i ∈ coefPos ds, waverecn (.arr (onlyA A i) :: (onlyD ds i).map Item.ofDict) wavelet mode axes =
        .ok (.arr (ys i))) ∧
      ∀ idx, y.get idx = ((coefPos ds).map fun i => (ys i).get idx).sum :=
  waverecn_superposition hr hf h0

/-- **C51.** Details left out of the dicts count as zeros, as long as every dict keeps an array. -/
theorem C51_waverecn_missing {A : Arr M} {ds : List (List (List Char × Arr M))} {wavelet : PerAxis (Wavelet R)}
    {mode : PerAxis Mode} {axes : Option (List ℤ)} {st : List (Stage R)}
    (hr : Resolves A.ndim wavelet mode axes st) (hf : RecnFits st ds A.shape)
    (h0 : ∀ d ∈ ds.head?, detailShape d A.shape = A.shape) (ps : List (ℕ × List Char))
    (hne : ∀ d ∈ without ps ds, d ≠ []) :
    ∃ y, waverecn (.arr A :: (without ps ds).map Item.ofDict) wavelet mode axes = .ok (.arr y) ∧
      waverecn (.arr A :: (zeroed ps ds).map Item.ofDict) wavelet mode axes = .ok (.arr y) :=
  waverecn_without hr hf h0 ps hne

/-- **C51.** `wavedecn` is linear: if the data `x` is accepted, so are `y` of the same shape and
`p*x + q*y`, and the coefficients combine array by array. -/
theorem C51_wavedecn_linear {x y : Arr M} {wavelet : PerAxis (Wavelet R)} {mode : PerAxis Mode}
    {axes : Option (List ℤ)} {st : List (Stage R)} (hne : st ≠ [])
    (hr : Resolves x.ndim wavelet mode axes st) (hb : ∀ s ∈ st, s.1 < x.ndim ∧ s.2.1.Ok)
    (hn : (st.map (·.1)).Nodup) (hs : x.shape = y.shape) {level : Option ℤ} {cs : List (Item M)}
    (h : wavedecn x wavelet mode level axes = .ok cs) (p q : R) :
    ∃ (A : Arr M) (ds : List (List (List Char × Arr M))) (B : Arr M) (es : List (List (List Char × Arr M))),
      cs = .arr A :: ds.map Item.ofDict ∧
      wavedecn y wavelet mode level axes = .ok (.arr B :: es.map Item.ofDict) ∧
      A.shape = B.shape ∧ layout ds = layout es ∧
      wavedecn (Arr.lincomb p q x y) wavelet mode level axes =
        .ok (.arr (Arr.lincomb p q A B) :: (List.zipWith (lincombD p q) ds es).map Item.ofDict) :=
  wavedecn_linear hne hr hb hn hs h p q

/-- **C51.** `wavedec2` is linear. -/
theorem C51_wavedec2_linear {x y : Arr M} {wavelet : PerAxis (Wavelet R)} {mode : PerAxis Mode}
    {axes : List ℤ} {s t : Stage R} (hr : Resolves x.ndim wavelet mode (some axes) [s, t])
    (hb : ∀ u ∈ [s, t], u.1 < x.ndim ∧ u.2.1.Ok) (hst : s.1 ≠ t.1) (hs : x.shape = y.shape)
    {level : Option ℤ} {cs : List (Item M)} (h : wavedec2 x wavelet mode level axes = .ok cs) (p q : R) :
    ∃ (A : Arr M) (ps : List (Arr M × Arr M × Arr M)) (B : Arr M) (qs : List (Arr M × Arr M × Arr M)),
      cs = .arr A :: ps.map Item.ofTriple ∧
      wavedec2 y wavelet mode level axes = .ok (.arr B :: qs.map Item.ofTriple) ∧
      A.shape = B.shape ∧ layout (ps.map dict3) = layout (qs.map dict3) ∧
      wavedec2 (Arr.lincomb p q x y) wavelet mode level axes =
        .ok (.arr (Arr.lincomb p q A B) :: (List.zipWith (lincombT p q) ps qs).map Item.ofTriple) :=
  wavedec2_linear hr hb hst hs h p q

/-- **C51.** `swtn` is linear, with and without `trim_approx`. -/
theorem C51_swtn_linear {wavelet : PerAxis (Wavelet R)} {axes : Option (List ℤ)} {norm : Option R}
    {st : List (SStage R)} {x y : Arr M} (hr : SwtResolves x.ndim wavelet axes norm st)
    (hnd : 1 ≤ x.ndim) {l m : ℕ} (hf : SwtnFits st (m + l) x.shape) (hs : x.shape = y.shape) (p q : R) :
    (∃ ds es, swtn x wavelet (l : ℤ) (m : ℤ) axes false norm = .ok (.dicts ds) ∧
      swtn y wavelet (l : ℤ) (m : ℤ) axes false norm = .ok (.dicts es) ∧
      swtn (Arr.lincomb p q x y) wavelet (l : ℤ) (m : ℤ) axes false norm =
        .ok (.dicts (List.zipWith (lincombD p q) ds es))) ∧
    ∃ A ds B es, swtn x wavelet (l : ℤ) (m : ℤ) axes true norm = .ok (.trimmed A ds) ∧
      swtn y wavelet (l : ℤ) (m : ℤ) axes true norm = .ok (.trimmed B es) ∧
      swtn (Arr.lincomb p q x y) wavelet (l : ℤ) (m : ℤ) axes true norm =
        .ok (.trimmed (Arr.lincomb p q A B) (List.zipWith (lincombD p q) ds es)) := by
  have hy : y.ndim = x.ndim := congrArg List.length hs.symm
  have hx1 := fun trim => swtn_ok hr hnd hf trim
  have hy1 := fun trim => swtn_ok (x := y) (wavelet := wavelet) (axes := axes) (norm := norm)
    (by rw [hy]; exact hr) (by omega) (by rw [← hs]; exact hf) trim
  have hz1 := fun trim => swtn_ok (x := Arr.lincomb p q x y) (wavelet := wavelet) (axes := axes) (norm := norm)
    hr hnd hf trim
  refine ⟨⟨_, _, hx1 false, hy1 false, ?_⟩, ⟨_, _, _, _, hx1 true, hy1 true, ?_⟩⟩
  · rw [hz1]
    simp only [swtnDicts_linear hs]
    rfl
  · rw [hz1]
    simp only [swtnDicts_linear hs, swtnApprox_linear hs]
    rfl

/-- **C51.** `swt2` is linear (stated with `trim_approx=True`). -/
theorem C51_swt2_linear {wavelet : PerAxis (Wavelet R)} {axes : List ℤ} {norm : Option R}
    {st : List (SStage R)} {x y : Arr M} (hlen : st.length = 2)
    (hr : SwtResolves x.ndim wavelet (some axes) norm st)
    {l m : ℕ} (hf : SwtnFits st (m + l) x.shape) (hs : x.shape = y.shape) (p q : R) :
    ∃ A ps B qs, swt2 x wavelet (l : ℤ) (m : ℤ) axes true norm = .ok (.trimmed A ps) ∧
      swt2 y wavelet (l : ℤ) (m : ℤ) axes true norm = .ok (.trimmed B qs) ∧
      swt2 (Arr.lincomb p q x y) wavelet (l : ℤ) (m : ℤ) axes true norm =
        .ok (.trimmed (Arr.lincomb p q A B) (List.zipWith (lincombT p q) ps qs)) := by
  have hy : y.ndim = x.ndim := congrArg List.length hs.symm
  refine ⟨_, _, _, _, swt2_ok hlen hr hf true, swt2_ok (x := y) hlen (by rw [hy]; exact hr)
    (by rw [← hs]; exact hf) true, ?_⟩
  rw [swt2_ok (x := Arr.lincomb p q x y) hlen hr hf true]
  simp only [swt2Dets_linear hs, swtnApprox_linear hs]
  rfl

variable [Invertible (2 : R)]

/-- **C51.** `iswtn` is linear in the coefficients. -/
theorem C51_iswtn_linear {A B : Arr M} {ds es : List (List (List Char × Arr M))} {wavelet : PerAxis (Wavelet R)}
    {axes : Option (List ℤ)} {norm : Option R} {st : List (SStage R)}
    (hr : SwtResolves A.ndim wavelet axes norm st) (hf : SwtnFits st ds.length A.shape) (hne : ds ≠ [])
    (hd : ∀ d ∈ ds, DictOk d st.length A.shape ∧ d ≠ []) (hA : A.shape = B.shape)
    (hl : layout ds = layout es) (p q : R) :
    ∃ y z, iswtn (.trimmed A ds) wavelet axes norm = .ok y ∧ iswtn (.trimmed B es) wavelet axes norm = .ok z ∧
      iswtn (.trimmed (Arr.lincomb p q A B) (List.zipWith (lincombD p q) ds es)) wavelet axes norm =
        .ok (Arr.lincomb p q y z) :=
  iswtn_linear hr hf hne hd hA hl p q

/-- **C51.** `iswt2` is linear in the coefficients. -/
theorem C51_iswt2_linear {wavelet : PerAxis (Wavelet R)} {norm : Option R} {axes : List ℤ}
    {st : List (SStage R)} {A B : Arr M} {ps qs : List (Arr M × Arr M × Arr M)} (hlen : st.length = 2)
    (hr : SwtResolves A.ndim wavelet (some axes) norm st) (hf : SwtnFits st ps.length A.shape)
    (hne : ps ≠ []) (hA : A.shape = B.shape) (hq : qs.length = ps.length)
    (hs : ∀ p ∈ ps, p.1.shape = A.shape ∧ p.2.1.shape = A.shape ∧ p.2.2.shape = A.shape)
    (hs' : ∀ p ∈ qs, p.1.shape = A.shape ∧ p.2.1.shape = A.shape ∧ p.2.2.shape = A.shape) (p q : R) :
    ∃ y z, iswt2 (.trimmed A ps) wavelet norm axes = .ok y ∧ iswt2 (.trimmed B qs) wavelet norm axes = .ok z ∧
      iswt2 (.trimmed (Arr.lincomb p q A B) (List.zipWith (lincombT p q) ps qs)) wavelet norm axes =
        .ok (Arr.lincomb p q y z) :=
  iswt2_linear hlen hr hf hne hA hq hs hs' p q

/-- **C51.** Details left out of the dicts given to `iswtn` count as zeros. -/
theorem C51_iswtn_missing {A : Arr M} {ds : List (List (List Char × Arr M))} {wavelet : PerAxis (Wavelet R)}
    {axes : Option (List ℤ)} {norm : Option R} {st : List (SStage R)}
    (hr : SwtResolves A.ndim wavelet axes norm st) (hf : SwtnFits st ds.length A.shape) (hne : ds ≠ [])
    (hd : ∀ d ∈ ds, DictOk d st.length A.shape) (ps : List (ℕ × List Char)) (hw : ∀ d ∈ without ps ds, d ≠ []) :
    ∃ y, iswtn (.trimmed A (without ps ds)) wavelet axes norm = .ok y ∧
      iswtn (.trimmed A (zeroed ps ds)) wavelet axes norm = .ok y :=
  iswtn_without hr hf hne hd ps hw

end

/-! ### A concrete case: an approximation of two samples and details for two of the three keys -/

/-- Coefficients for one level of 2-D synthesis, with the key `dd` left out. -/
def coef12 : List (List (List Char × Arr ℚ)) :=
  [[(['d', 'a'], ⟨[1, 2], [1, 0], rfl⟩), (['a', 'd'], ⟨[1, 2], [0, 2], rfl⟩)]]

def stage12 : List (Stage ℚ) := [(0, haarQ, .symmetric), (1, haarQ, .symmetric)]

example : Resolves 2 (.one haarQ) (.one .symmetric) none stage12 ∧ RecnFits stage12 coef12 [1, 2] ∧
    (∀ d ∈ coef12.head?, detailShape d [1, 2] = [1, 2]) ∧
    waverecn (.arr (⟨[1, 2], [4, 6], rfl⟩ : Arr ℚ) :: coef12.map Item.ofDict) (.one haarQ) (.one .symmetric) none =
      .ok (.arr ⟨[2, 4], [5, 5, 8, 4, 3, 3, 8, 4], rfl⟩) ∧
    (∀ d ∈ without [(0, ['d', 'a'])] coef12, d ≠ []) := by
  refine ⟨⟨rfl, rfl, rfl⟩, ⟨⟨by decide, by decide +kernel⟩, ⟨rfl, by decide +kernel⟩, ?_, trivial⟩, by decide +kernel,
    by decide +kernel, by decide +kernel⟩
  refine ⟨by decide, ?_⟩
  intro s hs
  simp only [stage12, List.mem_cons, List.not_mem_nil, or_false] at hs
  rcases hs with rfl | rfl
  · exact ⟨by decide, haarQ_ok, by decide +kernel⟩
  · exact ⟨by decide, haarQ_ok, by decide +kernel⟩

end Pywt
