import Verif.Proof.FloatNTop
import Verif.Props.Float

/-!
# C67: the n-D transforms in floating-point arithmetic

The transform over several axes is a list of stages, a filter bank and a mode for each axis; the bounds grow from stage to
stage (`stagesBound`, `stagesDepth`), and with every level all stages are passed once more (`levels`).
-/

set_option autoImplicit false

namespace Pywt

open Finset Spec Sim

variable {fl : ℝ → ℝ} {u κ Ω : ℝ} {wavelet : PerAxis (Wavelet ℝ)} {mode : PerAxis Mode} {ws : List (Wavelet ℝ)}
  {ms : List Mode} {d : ℕ} {X e : ℝ}

/-- **C67 (`dwtn`).** If `dwtn` succeeds in exact arithmetic then, unless something overflows, it succeeds in floating
point with the same keys and shapes, and every coefficient is within the stated distance of the exact one. -/
theorem C67_dwtn_rounding (H : Rounds fl u κ Ω) {x' : Arr (Fl fl)} {x : Arr ℝ} (hx : ArrAccurate u d X e x' x)
    {axes : Option (List ℤ)} {n : ℕ} (hn : n = match axes with | none => x.ndim | some a => a.length)
    (hws : wavelet.expand n = .ok ws) (hms : mode.expand n = .ok ms) (hw : ∀ w ∈ ws, w.Ok) (hX : 0 ≤ X) (he : 0 ≤ e)
    (hfit : StagesFit u κ Ω (ws.zip ms) d X e) {c : List (Key × Arr ℝ)} (h : dwtn x wavelet mode axes = .ok c) :
    ∃ c', dwtn x' (wavelet.toFl fl) mode axes = .ok c' ∧
      List.Forall₂ (fun p' p => p'.1 = p.1 ∧ ArrAccurate u (d + stagesDepth (ws.zip ms))
        (stagesBound κ (ws.zip ms) X) (stagesBound 0 (ws.zip ms) e) p'.2 p.2) c' c := by
  obtain ⟨c', h1, h2⟩ := dwtn_rel (arrAccurate_iff.mp hx) (axes := axes) (n := n)
    (by subst hn; cases axes <;> simp [rangeAxes]) (argRel_toFl hws hms)
    (steps_dwt H (mem_zip_ok hw) hX he hfit) c h
  exact ⟨c', h1, h2.imp fun p q h => ⟨h.1, arrAccurate_iff.mpr h.2⟩⟩

/-- **C67 (`idwtn`).** The same for the inverse, for arbitrary coefficients, `None` included. -/
theorem C67_idwtn_rounding (H : Rounds fl u κ Ω) {c' : CDict (Fl fl)} {c : CDict ℝ} (hc : DictAccurate u d X e c' c)
    {axes : Option (List ℤ)} {n : ℕ}
    (hn : match axes with | none => ∀ k a, (k, some a) ∈ c → k.length = n | some a => a.length = n)
    (hws : wavelet.expand n = .ok ws) (hms : mode.expand n = .ok ms) (hX : 0 ≤ X) (he : 0 ≤ e)
    (hfit : RecStagesFit u κ Ω (ws.zip ms).reverse d X e) {y : Option (Arr ℝ)} (h : idwtn c wavelet mode axes = .ok y) :
    ∃ y', idwtn c' (wavelet.toFl fl) mode axes = .ok y' ∧
      Option.Rel (ArrAccurate u (d + recStagesDepth (ws.zip ms).reverse)
        (recStagesBound κ (ws.zip ms).reverse X) (recStagesBound 0 (ws.zip ms).reverse e)) y' y := by
  have hs := steps_idwt (fl := fl) H hX he hfit
  rw [← stagesFl_reverse] at hs
  rw [oarrAccurate_eq]
  cases axes with
  | some a =>
    simp only at hn
    subst hn
    exact idwtn_rel' (dictAccurate_iff.mp hc) (argRel_toFl hws hms) hs y h
  | none =>
    simp only at hn
    refine idwtn_rel (dictAccurate_iff.mp hc) ?_ hs y h
    have : idwtnAxes c none = n := by
      unfold idwtnAxes
      cases hd : dropNone c with
      | nil =>
        exfalso
        simp only [idwtn, hd] at h
        split at h <;> cases h
      | cons p l =>
        obtain ⟨k0, v0⟩ := p
        simp only [Option.getD_none]
        have hm : (k0, v0) ∈ dropNone c := by rw [hd]; simp
        have := hn k0 v0 (mem_dropNone.mp hm)
        simp [rangeAxes, this]
    rw [this]
    exact argRel_toFl hws hms

/-- **C67 (`dwt2`).** -/
theorem C67_dwt2_rounding (H : Rounds fl u κ Ω) {x' : Arr (Fl fl)} {x : Arr ℝ} (hx : ArrAccurate u d X e x' x)
    {axes : List ℤ} (hws : wavelet.expand axes.length = .ok ws) (hms : mode.expand axes.length = .ok ms)
    (hw : ∀ w ∈ ws, w.Ok) (hX : 0 ≤ X) (he : 0 ≤ e)
    (hfit : StagesFit u κ Ω (ws.zip ms) d X e) {cA cH cV cD : Arr ℝ}
    (h : dwt2 x wavelet mode axes = .ok (cA, cH, cV, cD)) :
    ∃ cA' cH' cV' cD', dwt2 x' (wavelet.toFl fl) mode axes = .ok (cA', cH', cV', cD') ∧
      ∀ p ∈ [(cA', cA), (cH', cH), (cV', cV), (cD', cD)], ArrAccurate u (d + stagesDepth (ws.zip ms))
        (stagesBound κ (ws.zip ms) X) (stagesBound 0 (ws.zip ms) e) p.1 p.2 := by
  obtain ⟨⟨a, b, c, f⟩, h1, h2, h3, h4, h5⟩ := dwt2_rel (arrAccurate_iff.mp hx) (axes := axes) (argRel_toFl hws hms)
    (steps_dwt H (mem_zip_ok hw) hX he hfit) _ h
  refine ⟨a, b, c, f, h1, ?_⟩
  intro p hp
  simp only [List.mem_cons, List.not_mem_nil, or_false] at hp
  rcases hp with rfl | rfl | rfl | rfl <;> exact arrAccurate_iff.mpr (by assumption)

/-- **C67 (`idwt2`).** -/
theorem C67_idwt2_rounding (H : Rounds fl u κ Ω) {a' h' v' d' : Option (Arr (Fl fl))} {a h v dd : Option (Arr ℝ)}
    (hc : ∀ p ∈ [(a', a), (h', h), (v', v), (d', dd)], Option.Rel (ArrAccurate u d X e) p.1 p.2)
    {axes : List ℤ} (hws : wavelet.expand axes.length = .ok ws) (hms : mode.expand axes.length = .ok ms)
    (hX : 0 ≤ X) (he : 0 ≤ e) (hfit : RecStagesFit u κ Ω (ws.zip ms).reverse d X e) {y : Option (Arr ℝ)}
    (hr : idwt2 (a, h, v, dd) wavelet mode axes = .ok y) :
    ∃ y', idwt2 (a', h', v', d') (wavelet.toFl fl) mode axes = .ok y' ∧
      Option.Rel (ArrAccurate u (d + recStagesDepth (ws.zip ms).reverse)
        (recStagesBound κ (ws.zip ms).reverse X) (recStagesBound 0 (ws.zip ms).reverse e)) y' y := by
  have hs := steps_idwt (fl := fl) H hX he hfit
  rw [← stagesFl_reverse] at hs
  rw [oarrAccurate_eq] at hc ⊢
  exact idwt2_rel (hc (a', a) (by simp)) (hc (h', h) (by simp)) (hc (v', v) (by simp)) (hc (d', dd) (by simp))
    (argRel_toFl hws hms) hs y hr

/-- **C67 (`wavedecn`).** Every coefficient of every level. -/
theorem C67_wavedecn_rounding (H : Rounds fl u κ Ω) {x' : Arr (Fl fl)} {x : Arr ℝ} (hx : ArrAccurate u d X e x' x)
    {axes : Option (List ℤ)} {m : ℕ} (hm : m = match axes with | none => x.ndim | some a => a.length)
    (hws : wavelet.expand m = .ok ws) (hms : mode.expand m = .ok ms) (hw : ∀ w ∈ ws, w.Ok) (hX : 0 ≤ X) (he : 0 ≤ e)
    {n : ℕ} (hfit : StagesFit u κ Ω (levels n (ws.zip ms)) d X e) {cs : List (Item ℝ)}
    (h : wavedecn x wavelet mode (some (n : ℤ)) axes = .ok cs) :
    ∃ cs', wavedecn x' (wavelet.toFl fl) mode (some (n : ℤ)) axes = .ok cs' ∧
      List.Forall₂ (ItemAccurate u (d + stagesDepth (levels n (ws.zip ms))) (stagesBound κ (levels n (ws.zip ms)) X)
        (stagesBound 0 (levels n (ws.zip ms)) e)) cs' cs := by
  obtain ⟨cs', h1, h2⟩ := wavedecn_rel (X := levelRel fl u κ (ws.zip ms) d X e) (arrAccurate_iff.mp hx) (axes := axes)
    (l := stagesFl fl (ws.zip ms)) (l' := ws.zip ms) (by
      have : (axes.getD (rangeAxes x.ndim)).length = m := by subst hm; cases axes <;> simp [rangeAxes]
      rw [this]; exact argRel_toFl hws hms) (fun m ws ws' => toFl_dec_lens m ws ws')
    (fun k hk => levelRel_step H (mem_zip_ok hw) hX he hfit k hk)
    (fun k hk a b h => levelRel_mono H.u_nonneg hk a b h) cs h
  exact ⟨cs', h1, h2.imp fun p q h => itemAccurate_iff.mpr h⟩

/-- **C67 (`waverecn`).** -/
theorem C67_waverecn_rounding (H : Rounds fl u κ Ω) {cs' : List (Item (Fl fl))} {cs : List (Item ℝ)}
    (hcs : List.Forall₂ (ItemAccurate u d X e) cs' cs) {axes : Option (List ℤ)} {n m : ℕ} (hn : cs.length = n + 1)
    (hm : match axes with
      | none => ∀ i ∈ cs, ∀ a, (i = .arr a ∨ ∃ c k, i = .dict c ∧ (k, some a) ∈ c) → a.ndim = m
      | some a => a.length = m)
    (hws : wavelet.expand m = .ok ws) (hms : mode.expand m = .ok ms) (hX : 0 ≤ X) (he : 0 ≤ e)
    (hfit : RecStagesFit u κ Ω (levels n (ws.zip ms).reverse) d X e) {y : Item ℝ}
    (h : waverecn cs wavelet mode axes = .ok y) :
    ∃ y', waverecn cs' (wavelet.toFl fl) mode axes = .ok y' ∧
      ItemAccurate u (d + recStagesDepth (levels n (ws.zip ms).reverse)) (recStagesBound κ (levels n (ws.zip ms).reverse) X)
        (recStagesBound 0 (levels n (ws.zip ms).reverse) e) y' y := by
  obtain ⟨y', h1, h2⟩ := waverecn_rel (X := recLevelRel fl u κ (ws.zip ms).reverse d X e) (n := n) (cs := cs')
    (hcs.imp fun p q h => itemAccurate_iff.mp h) (axes := axes) hn (m := m)
    (by intro a ha; subst ha; exact hm) (by intro ha; subst ha; exact hm) (argRel_toFl hws hms)
    (fun k => recLevelRel_zero H.u_nonneg hX he k)
    (fun k hk => by rw [stagesFl_reverse]; exact recLevelRel_step H hX he hfit k hk)
    (fun k _ a b h => recLevelRel_mono H.u_nonneg (Nat.zero_le k) a b h) y h
  exact ⟨y', h1, itemAccurate_iff.mpr h2⟩

/-- **C67 (`wavedec2`).** -/
theorem C67_wavedec2_rounding (H : Rounds fl u κ Ω) {x' : Arr (Fl fl)} {x : Arr ℝ} (hx : ArrAccurate u d X e x' x)
    {axes : List ℤ} (hws : wavelet.expand axes.length = .ok ws) (hms : mode.expand axes.length = .ok ms)
    (hw : ∀ w ∈ ws, w.Ok) (hX : 0 ≤ X) (he : 0 ≤ e)
    {n : ℕ} (hfit : StagesFit u κ Ω (levels n (ws.zip ms)) d X e) {cs : List (Item ℝ)}
    (h : wavedec2 x wavelet mode (some (n : ℤ)) axes = .ok cs) :
    ∃ cs', wavedec2 x' (wavelet.toFl fl) mode (some (n : ℤ)) axes = .ok cs' ∧
      List.Forall₂ (ItemAccurate u (d + stagesDepth (levels n (ws.zip ms))) (stagesBound κ (levels n (ws.zip ms)) X)
        (stagesBound 0 (levels n (ws.zip ms)) e)) cs' cs := by
  obtain ⟨cs', h1, h2⟩ := wavedec2_rel (X := levelRel fl u κ (ws.zip ms) d X e) (arrAccurate_iff.mp hx)
    (argRel_toFl hws hms) (fun m ws ws' => toFl_dec_lens m ws ws')
    (fun k hk => levelRel_step H (mem_zip_ok hw) hX he hfit k hk)
    (fun k hk a b h => levelRel_mono H.u_nonneg hk a b h) cs h
  exact ⟨cs', h1, h2.imp fun p q h => itemAccurate_iff.mpr h⟩

/-- **C67 (`waverec2`).** -/
theorem C67_waverec2_rounding (H : Rounds fl u κ Ω) {cs' : List (Item (Fl fl))} {cs : List (Item ℝ)}
    (hcs : List.Forall₂ (ItemAccurate u d X e) cs' cs) {axes : List ℤ} {n : ℕ} (hn : cs.length = n + 1)
    (hws : wavelet.expand axes.length = .ok ws) (hms : mode.expand axes.length = .ok ms) (hX : 0 ≤ X) (he : 0 ≤ e)
    (hfit : RecStagesFit u κ Ω (levels n (ws.zip ms).reverse) d X e) {y : Item ℝ}
    (h : waverec2 cs wavelet mode axes = .ok y) :
    ∃ y', waverec2 cs' (wavelet.toFl fl) mode axes = .ok y' ∧
      ItemAccurate u (d + recStagesDepth (levels n (ws.zip ms).reverse)) (recStagesBound κ (levels n (ws.zip ms).reverse) X)
        (recStagesBound 0 (levels n (ws.zip ms).reverse) e) y' y := by
  obtain ⟨y', h1, h2⟩ := waverec2_rel (X := recLevelRel fl u κ (ws.zip ms).reverse d X e) (n := n) (cs := cs')
    (hcs.imp fun p q h => itemAccurate_iff.mp h) (axes := axes) hn (argRel_toFl hws hms)
    (fun k => recLevelRel_zero H.u_nonneg hX he k)
    (fun k hk => by rw [stagesFl_reverse]; exact recLevelRel_step H hX he hfit k hk)
    (fun k _ a b h => recLevelRel_mono H.u_nonneg (Nat.zero_le k) a b h) y h
  exact ⟨y', h1, itemAccurate_iff.mpr h2⟩

variable {axes : Option (List ℤ)} {st : List (Stage ℝ)} {x : Arr ℝ} {ε : ℝ}

/-- **C67 (round trip, one level).** `idwtn(dwtn(x))` in floating point is `x`, up to the reconstruction error `ε` of the
filters of every axis and the rounding errors of both transforms; every transformed axis has even length afterwards. -/
theorem C67_roundtrip (H : Rounds fl u κ Ω) (hε : 0 ≤ ε) (hd : 1 ≤ x.ndim)
    (hr : Resolves x.ndim wavelet mode axes st) (hinv : StagesNear ε st x.shape) (hX0 : 0 ≤ X)
    (hX : ∀ v ∈ x.data, |v| ≤ X) (hf : StagesFit u κ Ω (st.map (·.2)) 0 X 0)
    (hf' : RecStagesFit u κ Ω (st.map (·.2)).reverse (stagesDepth (st.map (·.2))) (stagesBound κ (st.map (·.2)) X) 0) :
    ∃ c y, dwtn (x.toFl fl) (wavelet.toFl fl) mode axes = .ok c ∧
      idwtn (c.map fun p => (p.1, some p.2)) (wavelet.toFl fl) mode axes = .ok (some y) ∧
      y.shape.length = x.shape.length ∧
      (∀ s ∈ st, y.shape.getD s.1 0 = x.shape.getD s.1 0 + x.shape.getD s.1 0 % 2) ∧
      (∀ j, j ∉ st.map (·.1) → y.shape.getD j 0 = x.shape.getD j 0) ∧
      ∀ idx, InB x.shape idx → |(y.get idx).val - x.get idx| ≤
        stagesErr ε (stagesBound κ (st.map (·.2)) X) (st.map (·.2)).reverse 0 +
        ((1 + u) ^ (stagesDepth (st.map (·.2)) + recStagesDepth (st.map (·.2)).reverse) - 1) *
          recStagesBound κ (st.map (·.2)).reverse (stagesBound κ (st.map (·.2)) X) :=
  idwtn_dwtn_near H hε hd hr hinv hX0 hX hf hf'

/-- **C67 (round trip, several levels).** The same for `waverecn(wavedecn(x, level=n))`. -/
theorem C67_roundtrip_levels (H : Rounds fl u κ Ω) (hε : 0 ≤ ε) (hd : 1 ≤ x.ndim) (hne : st ≠ [])
    (hr : Resolves x.ndim wavelet mode axes st) (hb : ∀ s ∈ st, s.1 < x.ndim ∧ s.2.1.Ok) (hn : (st.map (·.1)).Nodup)
    (hpr : ∀ s ∈ st, PRWithin ε s.2.1.dec_lo s.2.1.dec_hi s.2.1.rec_lo s.2.1.rec_hi) {n : ℕ} (h1n : 1 ≤ n)
    (hlv : LevelsOkN st x.shape n) (hX0 : 0 ≤ X)
    (hX : ∀ v ∈ x.data, |v| ≤ X) (hf : StagesFit u κ Ω (levels n (st.map (·.2))) 0 X 0)
    (hf' : RecStagesFit u κ Ω (levels n (st.map (·.2)).reverse) (stagesDepth (levels n (st.map (·.2))))
      (stagesBound κ (levels n (st.map (·.2))) X) 0) :
    ∃ cs y, wavedecn (x.toFl fl) (wavelet.toFl fl) mode (some (n : ℤ)) axes = .ok cs ∧
      waverecn cs (wavelet.toFl fl) mode axes = .ok (.arr y) ∧
      y.shape.length = x.shape.length ∧
      (∀ s ∈ st, y.shape.getD s.1 0 = x.shape.getD s.1 0 + x.shape.getD s.1 0 % 2) ∧
      (∀ j, j ∉ st.map (·.1) → y.shape.getD j 0 = x.shape.getD j 0) ∧
      ∀ idx, InB x.shape idx → |(y.get idx).val - x.get idx| ≤
        stagesErr ε (stagesBound κ (levels n (st.map (·.2))) X) (levels n (st.map (·.2)).reverse) 0 +
        ((1 + u) ^ (stagesDepth (levels n (st.map (·.2))) + recStagesDepth (levels n (st.map (·.2)).reverse)) - 1) *
          recStagesBound κ (levels n (st.map (·.2)).reverse) (stagesBound κ (levels n (st.map (·.2))) X) :=
  waverecn_wavedecn_near H hε hd hne hr hb hn hpr h1n hlv hX0 hX hf hf'

/-- **C67 (built-in wavelets, one level).** With built-in discrete wavelets, possibly another one for each axis, and modes
other than `smooth` and `antireflect`: `idwtn(dwtn(x))` over `k` axes is `x` up to `32^k (X + 128 κ) (ε + 620 k u)` in
every sample, where `ε` is the reconstruction error of the stored coefficients (C35). -/
theorem C67_builtin_roundtrip (H : Rounds fl u κ Ω) {single : Bool} (hε : 0 ≤ ε) (hd : 1 ≤ x.ndim)
    (hr : Resolves x.ndim wavelet mode axes st) (hn : (st.map (·.1)).Nodup)
    (hst : ∀ s ∈ st, s.1 < x.ndim ∧ BuiltinBank single ε s.2.1 ∧ Repeats s.2.2 ∧ LenOk s.2.2 (x.shape.getD s.1 0))
    (hX0 : 0 ≤ X) (hX : ∀ v ∈ x.data, |v| ≤ X) (hnu : 620 * st.length * u ≤ 1)
    (hΩ : 2 * (32 ^ st.length * (X + 128 * κ)) ≤ Ω) :
    ∃ c y, dwtn (x.toFl fl) (wavelet.toFl fl) mode axes = .ok c ∧
      idwtn (c.map fun p => (p.1, some p.2)) (wavelet.toFl fl) mode axes = .ok (some y) ∧
      y.shape.length = x.shape.length ∧
      (∀ s ∈ st, y.shape.getD s.1 0 = x.shape.getD s.1 0 + x.shape.getD s.1 0 % 2) ∧
      (∀ j, j ∉ st.map (·.1) → y.shape.getD j 0 = x.shape.getD j 0) ∧
      ∀ idx, InB x.shape idx → |(y.get idx).val - x.get idx| ≤
        32 ^ st.length * (X + 128 * κ) * (ε + 620 * st.length * u) :=
  idwtn_dwtn_builtin H hε hd hr hn hst hX0 hX hnu hΩ

/-- **C67 (built-in wavelets, several levels).** -/
theorem C67_builtin_roundtrip_levels (H : Rounds fl u κ Ω) {single : Bool} (hε : 0 ≤ ε) (hd : 1 ≤ x.ndim)
    (hne : st ≠ []) (hr : Resolves x.ndim wavelet mode axes st) (hn : (st.map (·.1)).Nodup)
    (hst : ∀ s ∈ st, s.1 < x.ndim ∧ BuiltinBank single ε s.2.1 ∧ Repeats s.2.2) {n : ℕ} (h1n : 1 ≤ n)
    (hlv : LevelsOkN st x.shape n) (hX0 : 0 ≤ X) (hX : ∀ v ∈ x.data, |v| ≤ X)
    (hnu : 620 * (n * st.length : ℕ) * u ≤ 1) (hΩ : 2 * (32 ^ (n * st.length) * (X + 128 * κ)) ≤ Ω) :
    ∃ cs y, wavedecn (x.toFl fl) (wavelet.toFl fl) mode (some (n : ℤ)) axes = .ok cs ∧
      waverecn cs (wavelet.toFl fl) mode axes = .ok (.arr y) ∧
      y.shape.length = x.shape.length ∧
      (∀ s ∈ st, y.shape.getD s.1 0 = x.shape.getD s.1 0 + x.shape.getD s.1 0 % 2) ∧
      (∀ j, j ∉ st.map (·.1) → y.shape.getD j 0 = x.shape.getD j 0) ∧
      ∀ idx, InB x.shape idx → |(y.get idx).val - x.get idx| ≤
        32 ^ (n * st.length) * (X + 128 * κ) * (ε + 620 * (n * st.length : ℕ) * u) :=
  waverecn_wavedecn_builtin H hε hd hne hr hn hst h1n hlv hX0 hX hnu hΩ

/-- An image of two rows and three columns. -/
def exImage : Arr ℝ := ⟨[2, 3], [1, -2, 3, 0, 5, -1], rfl⟩

theorem exImage_le : ∀ v ∈ exImage.data, |v| ≤ 5 := by
  intro v hv
  simp only [exImage, List.mem_cons, List.not_mem_nil, or_false] at hv
  rcases hv with rfl | rfl | rfl | rfl | rfl | rfl <;> norm_num [abs_of_nonneg, abs_neg]

/-- The stored coefficients of `db4` and `bior2.2`, one for each axis of an image. -/
theorem exStages : ∃ w v : Wavelet ℝ, BuiltinBank false (1 / 10 ^ 6) w ∧ BuiltinBank false (1 / 10 ^ 6) v ∧
    Resolves exImage.ndim (.many [w, v]) (.many [.symmetric, .periodization]) none
      [(0, w, Mode.symmetric), (1, v, Mode.periodization)] := by
  obtain ⟨o, h1, -⟩ := builtin_ok (single := false) (name := "db4") (fam := .db) (order := 4) (by decide +kernel) rfl
  obtain ⟨o', h1', -⟩ := builtin_ok (single := false) (name := "bior2.2") (fam := .bior) (order := 22) (by decide +kernel) rfl
  exact ⟨_, _, ⟨"db4", .db, 4, o, by decide +kernel, rfl, h1, rfl, by norm_num [tolerance]⟩,
    ⟨"bior2.2", .bior, 22, o', by decide +kernel, rfl, h1', rfl, by norm_num [tolerance]⟩, rfl, rfl, rfl⟩

/-- The hypotheses of the built-in round trips. -/
theorem exStages_ok : ∃ st : List (Stage ℝ), ∃ wavelet mode, Resolves exImage.ndim wavelet mode none st ∧ st ≠ [] ∧
    (st.map (·.1)).Nodup ∧ st.length = 2 ∧ (∀ s ∈ st, s.1 < exImage.ndim ∧ BuiltinBank false (1 / 10 ^ 6) s.2.1 ∧
      Repeats s.2.2 ∧ LenOk s.2.2 (exImage.shape.getD s.1 0)) ∧ LevelsOkN st exImage.shape 2 := by
  obtain ⟨w, v, hw, hv, hr⟩ := exStages
  have h1 : ∀ s ∈ [((0 : ℕ), w, Mode.symmetric), (1, v, Mode.periodization)], s.1 < exImage.ndim ∧
      BuiltinBank false (1 / 10 ^ 6) s.2.1 ∧ Repeats s.2.2 ∧ LenOk s.2.2 (exImage.shape.getD s.1 0) := by
    intro s hs
    simp only [List.mem_cons, List.not_mem_nil, or_false] at hs
    rcases hs with rfl | rfl
    · exact ⟨by simp [exImage, Arr.ndim], hw, by simp [Repeats], by simp [LenOk, exImage]⟩
    · exact ⟨by simp [exImage, Arr.ndim], hv, by simp [Repeats], by simp [LenOk, exImage]⟩
  refine ⟨_, _, _, hr, by simp, by simp, rfl, h1, ?_⟩
  intro j hj
  have hn : ([((0 : ℕ), w, Mode.symmetric), (1, v, Mode.periodization)].map (·.1)).Nodup := by simp
  obtain ⟨g1, g2⟩ := decShape_iter_getD (shape := exImage.shape) hn (fun s hs => (h1 s hs).1) j
  refine stagesOk_of_lens hn fun s hs => ?_
  have hF := (builtinBank_facts (h1 s hs).2.1).1
  rw [g1, g2 s hs]
  refine ⟨(h1 s hs).1, hF, ?_⟩
  have hpos : 1 ≤ approxLen s.2.2 s.2.1.dec_len (exImage.shape.getD s.1 0) j := by
    have h2 : 1 ≤ exImage.shape.getD s.1 0 := (h1 s hs).2.2.2.1
    have hF2 : 2 ≤ s.2.1.dec_len := hF.1
    clear g1 g2 hj
    generalize exImage.shape.getD s.1 0 = N at h2
    induction j generalizing N with
    | zero => exact h2
    | succ j ih =>
      rw [approxLen_succ']
      refine ih _ ?_
      unfold coeffLen
      split <;> omega
  refine ⟨hpos, fun hm => ?_⟩
  simp only [List.mem_cons, List.not_mem_nil, or_false] at hs
  rcases hs with rfl | rfl <;> simp at hm

example : ∃ (st : List (Stage ℝ)) (wavelet : PerAxis (Wavelet ℝ)) (mode : PerAxis Mode), ∃ c y, st.length = 2 ∧
    dwtn (exImage.toFl binary64) (wavelet.toFl binary64) mode none = .ok c ∧
    idwtn (c.map fun p => (p.1, some p.2)) (wavelet.toFl binary64) mode none = .ok (some y) ∧
    ∀ idx, InB exImage.shape idx → |(y.get idx).val - exImage.get idx| ≤ 1 / 10 := by
  obtain ⟨st, wv, md, hr, -, hn, hl, hst, -⟩ := exStages_ok
  have hκ : (2 : ℝ) ^ (-1022 : ℤ) ≤ 2 ^ (-20 : ℤ) := zpow_le_zpow_right₀ (by norm_num) (by norm_num)
  have hκ0 : (0 : ℝ) ≤ 2 ^ (-1022 : ℤ) := by positivity
  obtain ⟨c, y, h1, h2, -, -, -, h6⟩ := C67_builtin_roundtrip
    (C61_ieee (2 * (32 ^ st.length * (5 + 128 * (2 : ℝ) ^ (-1022 : ℤ))))).1 (by norm_num) (by decide) hr hn hst
    (by norm_num) exImage_le (by rw [hl]; norm_num) le_rfl
  refine ⟨st, wv, md, c, y, hl, h1, h2, fun idx hidx => (h6 idx hidx).trans ?_⟩
  rw [hl]
  generalize (2 : ℝ) ^ (-1022 : ℤ) = κ at *
  norm_num at hκ ⊢
  linarith

example : ∃ (st : List (Stage ℝ)) (wavelet : PerAxis (Wavelet ℝ)) (mode : PerAxis Mode), ∃ cs y, st.length = 2 ∧
    wavedecn (exImage.toFl binary64) (wavelet.toFl binary64) mode (some ((2 : ℕ) : ℤ)) none = .ok cs ∧
    waverecn cs (wavelet.toFl binary64) mode none = .ok (.arr y) ∧
    ∀ idx, InB exImage.shape idx → |(y.get idx).val - exImage.get idx| ≤ 10 := by
  obtain ⟨st, wv, md, hr, hne, hn, hl, hst, hlv⟩ := exStages_ok
  have hκ : (2 : ℝ) ^ (-1022 : ℤ) ≤ 2 ^ (-20 : ℤ) := zpow_le_zpow_right₀ (by norm_num) (by norm_num)
  have hκ0 : (0 : ℝ) ≤ 2 ^ (-1022 : ℤ) := by positivity
  obtain ⟨c, y, h1, h2, -, -, -, h6⟩ := C67_builtin_roundtrip_levels
    (C61_ieee (2 * (32 ^ (2 * st.length) * (5 + 128 * (2 : ℝ) ^ (-1022 : ℤ))))).1 (by norm_num) (by decide) hne hr hn
    (fun s hs => ⟨(hst s hs).1, (hst s hs).2.1, (hst s hs).2.2.1⟩) (by norm_num) hlv
    (by norm_num) exImage_le (by rw [hl]; norm_num) le_rfl
  refine ⟨st, wv, md, c, y, hl, h1, h2, fun idx hidx => (h6 idx hidx).trans ?_⟩
  rw [hl]
  generalize (2 : ℝ) ^ (-1022 : ℤ) = κ at *
  norm_num at hκ ⊢
  linarith

/-- The hypotheses of the general statements. -/
example : ∃ (ws : List (Wavelet ℝ)) (ms : List Mode) (Ω : ℝ), ws.length = 2 ∧ (∀ w ∈ ws, w.Ok) ∧
    (PerAxis.many ws).expand exImage.ndim = .ok ws ∧ (PerAxis.many ms).expand exImage.ndim = .ok ms ∧
    Rounds binary64 ((2 : ℝ) ^ (-53 : ℤ)) ((2 : ℝ) ^ (-1022 : ℤ)) Ω ∧
    StagesFit (2 ^ (-53 : ℤ)) (2 ^ (-1022 : ℤ)) Ω (levels 2 (ws.zip ms)) 0 5 0 ∧
    RecStagesFit (2 ^ (-53 : ℤ)) (2 ^ (-1022 : ℤ)) Ω (levels 2 (ws.zip ms).reverse) (stagesDepth (levels 2 (ws.zip ms)))
      (stagesBound (2 ^ (-1022 : ℤ)) (levels 2 (ws.zip ms)) 5) 0 ∧
    ArrAccurate (fl := binary64) (2 ^ (-53 : ℤ)) 0 5 0 (exImage.toFl binary64) exImage := by
  obtain ⟨w, v, hw, hv, hr⟩ := exStages
  have H := (C61_ieee (2 * (32 ^ 4 * (5 + 128 * (2 : ℝ) ^ (-1022 : ℤ))))).1
  have hb : ∀ s ∈ [(w, Mode.symmetric), (v, Mode.periodization)], BuiltinBank false (1 / 10 ^ 6) s.1 ∧ Repeats s.2 := by
    intro s hs
    simp only [List.mem_cons, List.not_mem_nil, or_false] at hs
    rcases hs with rfl | rfl
    · exact ⟨hw, by simp [Repeats]⟩
    · exact ⟨hv, by simp [Repeats]⟩
  obtain ⟨f1, f2, -⟩ := builtin_budget H (ε := 1 / 10 ^ 6) (by norm_num)
    (l := levels 2 [(w, Mode.symmetric), (v, Mode.periodization)])
    (l' := levels 2 [(w, Mode.symmetric), (v, Mode.periodization)].reverse) (X := 5) (n := 4)
    (fun s hs => hb s (mem_levels hs)) (fun s hs => hb s (List.mem_reverse.mp (mem_levels hs)))
    rfl rfl (by norm_num) (by norm_num) le_rfl
  refine ⟨[w, v], [.symmetric, .periodization], _, rfl, ?_, rfl, rfl, H, f1, f2,
    arrAccurate_iff.mpr (toFl_arr H.u_nonneg exImage_le)⟩
  intro z hz
  simp only [List.mem_cons, List.not_mem_nil, or_false] at hz
  rcases hz with rfl | rfl
  · exact (builtinBank_facts hw).1
  · exact (builtinBank_facts hv).1

end Pywt
