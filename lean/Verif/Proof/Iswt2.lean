import Verif.Proof.IswtNTop

/-! The loops of `iswt2`. -/

namespace Pywt

open Finset Spec

set_option linter.unusedSectionVars false

variable {R M : Type} [Ring R] [AddCommGroup M] [Module R M]

/-- One inverse DWT of a combination of parities, whatever the order of the subbands. -/
theorem odd_core {st : List (SStage R)} {step : ℕ} {A : Arr M} (hf : SwtFits st step A.shape)
    {r : ℕ → ℕ} (hr : ∀ k ∈ st.map (·.1), r k < step) (o : ℕ → ℕ) {d : ADict M}
    (hd : DictOk d st.length A.shape) {approx : Arr M} (hap : approx.shape = A.shape)
    (hval : ∀ idx, InB A.shape idx → (∀ k ∈ st.map (·.1), idx k % step = r k) →
      approx.get idx = A.get idx) {c : CDict M} {axes : Option (List ℤ)}
    (hres : Resolves A.shape.length (.many (st.map (·.2))) (.one .periodization) axes (perStages st))
    (hn : (c.map (·.1)).Nodup)
    (hk : ∀ k v, (k, some v) ∈ c → k ∈ words st.length ∧
      v.shape = latShape (st.map (·.1)) A.shape (2 * step))
    (hne : ∃ k v, (k, some v) ∈ c)
    (hget : ∀ k ∈ words st.length, (CDict.get c k).getD (Arr.zero (latShape (st.map (·.1)) A.shape (2 * step))) =
      if k = aKey st.length then
        approx.latSlice (st.map (·.1)) (2 * step) (fun k => if o k ≠ 0 then r k + step else r k)
      else ((d.lookup k).map fun v : Arr M =>
        v.latSlice (st.map (·.1)) (2 * step) (fun k => if o k ≠ 0 then r k + step else r k)).getD
          (Arr.zero (latShape (st.map (·.1)) A.shape (2 * step)))) :
    ∃ X : Arr M, idwtn c (.many (st.map (·.2))) (.one .periodization) axes = .ok (some X) ∧
      (rollOdds (st.map (·.1)) ((st.map (·.1)).map o) X).shape = latShape (st.map (·.1)) A.shape step ∧
      ∀ idx, InB (latShape (st.map (·.1)) A.shape step) idx →
        (rollOdds (st.map (·.1)) ((st.map (·.1)).map o) X).get idx = ((words st.length).map fun k =>
        nest (List.zipWith (fun p i => (p.1, p.2 i)) (lops st k A.shape step r) ((st.map (·.1)).map o))
          (bandOf d A st.length k).get idx).sum := by
  have hlat := isLat_odd hf hr o
  set off : ℕ → ℕ := fun k => if o k ≠ 0 then r k + step else r k with hoff
  set S' := latShape (st.map (·.1)) A.shape (2 * step) with hS'
  have hS'l : S'.length = A.shape.length := latShape_length _ _ _
  obtain ⟨X, x1, x2, x3⟩ := idwtn_values_nest (c := c) (st := perStages st) (S := S') hn
    (by rw [perStages_length]; exact hk) hne (by rw [hS'l]; exact hres) hf.synthFits
  have hX : X.shape = latShape (st.map (·.1)) A.shape step := by rw [x2, hf.synthShape]
  have hro := (rollOdds_map _ o X (by rw [hX, latShape_length]; exact hf.axes_lt) hf.1).1
  refine ⟨X, x1, by rw [hro, hX], ?_⟩
  intro idx hidx
  refine odd_value hf hX (g := fun k => (CDict.get c k).getD (Arr.zero S')) ?_ ?_ (by rw [hX]; exact hidx)
  · intro k hkw idx' hidx'
    rw [hget k hkw]
    unfold bandOf
    by_cases hka : k = aKey st.length
    · rw [if_pos hka, if_pos (show k = List.replicate st.length 'a' from hka), Arr.latSlice_get _ _ _ _ (by rw [hap]; exact hidx')]
      apply hval
      · intro j hj
        have := hidx' j (by rw [latShape_length]; exact hj)
        rw [latShape_getD hj] at this
        unfold latPos
        beta_reduce
        by_cases hm : j ∈ st.map (·.1)
        · rw [if_pos hm] at this ⊢
          obtain ⟨c, hc⟩ := hlat.dvd j hm
          have hlt := hlat.lt j hm
          rw [hc, Nat.mul_div_cancel_left _ (by omega)] at this
          rw [hc]
          calc off j + idx' j * (2 * step) < 2 * step + idx' j * (2 * step) := by omega
            _ = (2 * step) * (idx' j + 1) := by ring
            _ ≤ _ := Nat.mul_le_mul_left _ this
        · rw [if_neg hm] at this ⊢
          exact this
      · intro j hm
        unfold latPos
        rw [if_pos hm, hoff]
        have := hr j hm
        simp only
        split
        · rw [show r j + step + idx' j * (2 * step) = r j + step * (1 + 2 * idx' j) by ring,
            Nat.add_mul_mod_self_left, Nat.mod_eq_of_lt this]
        · rw [show r j + idx' j * (2 * step) = r j + step * (2 * idx' j) by ring,
            Nat.add_mul_mod_self_left, Nat.mod_eq_of_lt this]
    · rw [if_neg hka, if_neg (show ¬ k = List.replicate st.length 'a' from hka)]
      cases hl : d.lookup k with
      | none =>
        simp only [Option.map_none, Option.getD_none, Arr.zero_get]
      | some v =>
        have hv : v.shape = A.shape := by
          rw [List.lookup_eq_some_iff] at hl
          obtain ⟨l1, l2, h, -⟩ := hl
          exact (hd.2 (k, v) (by rw [h]; simp)).2
        simp only [Option.map_some, Option.getD_some]
        rw [Arr.latSlice_get _ _ _ _ (by rw [hv]; exact hidx')]
  · intro idx' hidx'
    rw [x3 idx' hidx', perStages_length]

theorem dict3_ok {p : Arr M × Arr M × Arr M} {S : List ℕ} (h1 : p.1.shape = S) (h2 : p.2.1.shape = S)
    (h3 : p.2.2.shape = S) : DictOk (dict3 p) 2 S := by
  refine ⟨by simp, ?_⟩
  intro q hq
  simp only [List.mem_cons, List.not_mem_nil, or_false] at hq
  rcases hq with rfl | rfl | rfl
  · exact ⟨by simp [words], h1⟩
  · exact ⟨by simp [words], h2⟩
  · exact ⟨by simp [words], h3⟩

theorem resolves_2d (w0 w1 : Wavelet R) :
    Resolves 2 (.many [w0, w1]) (.one .periodization) (some [-2, -1])
      (perStages [(0, w0), (1, w1)]) := by
  refine ⟨?_, rfl, rfl⟩
  simp [perStages]

/-- One of the four inverse transforms of a residue class. -/
theorem iswt2Part_ok {w0 w1 : Wavelet R} {step : ℕ} {A : Arr M}
    (hf : SwtFits [(0, w0), (1, w1)] step A.shape) (hA : A.shape.length = 2)
    {r : ℕ → ℕ} (hr : ∀ k ∈ [0, 1], r k < step) (o : ℕ → ℕ) {p : Arr M × Arr M × Arr M}
    (h1 : p.1.shape = A.shape) (h2 : p.2.1.shape = A.shape) (h3 : p.2.2.shape = A.shape)
    {out : Arr M} (hap : out.shape = A.shape)
    (hval : ∀ idx, InB A.shape idx → (∀ k ∈ [0, 1], idx k % step = r k) →
      out.get idx = A.get idx) :
    ∃ X : Arr M, iswt2Part [w0, w1] out p.1 p.2.1 p.2.2
        (.by (if o 0 ≠ 0 then r 0 + step else r 0) (A.shape.getD 0 0) (2 * step))
        (.by (if o 1 ≠ 0 then r 1 + step else r 1) (A.shape.getD 1 0) (2 * step)) = .ok X ∧
      (rollOdds [0, 1] [o 0, o 1] X).shape = latShape [0, 1] A.shape step ∧
      ∀ idx, InB (latShape [0, 1] A.shape step) idx →
        (rollOdds [0, 1] [o 0, o 1] X).get idx = ((words 2).map fun k =>
        nest (List.zipWith (fun p i => (p.1, p.2 i)) (lops [(0, w0), (1, w1)] k A.shape step r) [o 0, o 1])
          (bandOf (dict3 p) A 2 k).get idx).sum := by
  have hlat := isLat_odd hf hr o
  have hsl : placeSlices A.shape.length ([(0, w0), (1, w1)].map (·.1))
      (oddEven step (([(0, w0), (1, w1)].map (·.1)).map r)
        (([(0, w0), (1, w1)].map (·.1)).map fun k => A.shape.getD k 0)
        (([(0, w0), (1, w1)].map (·.1)).map o)) =
      [.by (if o 0 ≠ 0 then r 0 + step else r 0) (A.shape.getD 0 0) (2 * step),
       .by (if o 1 ≠ 0 then r 1 + step else r 1) (A.shape.getD 1 0) (2 * step)] := by
    rw [hA]
    simp only [List.map_cons, List.map_nil, oddEven, List.zip_cons_cons, List.zip_nil_right, placeSlices,
      List.foldl_cons, List.foldl_nil]
    by_cases e0 : o 0 ≠ 0 <;> by_cases e1 : o 1 ≠ 0 <;> simp [e0, e1, List.replicate]
  rw [hsl] at hlat
  set h := Stride.by (if o 0 ≠ 0 then r 0 + step else r 0) (A.shape.getD 0 0) (2 * step)
  set w := Stride.by (if o 1 ≠ 0 then r 1 + step else r 1) (A.shape.getD 1 0) (2 * step)
  set off : ℕ → ℕ := fun k => if o k ≠ 0 then r k + step else r k with hoff
  have gs : ∀ a : Arr M, a.shape = A.shape → a.getStrides [h, w] = .ok (a.latSlice [0, 1] (2 * step) off) := by
    intro a ha
    apply IsLat.getStrides
    rw [ha]
    exact hlat
  obtain ⟨X, x1, x2, x3⟩ := odd_core hf hr o (dict3_ok h1 h2 h3) hap hval
    (c := [(['a', 'a'], some (out.latSlice [0, 1] (2 * step) off)),
      (['d', 'a'], some (p.1.latSlice [0, 1] (2 * step) off)),
      (['a', 'd'], some (p.2.1.latSlice [0, 1] (2 * step) off)),
      (['d', 'd'], some (p.2.2.latSlice [0, 1] (2 * step) off))])
    (axes := some [-2, -1]) (by rw [hA]; exact resolves_2d w0 w1) (by simp) (by
      intro k v hkv
      simp only [List.mem_cons, List.not_mem_nil, or_false, Prod.mk.injEq, Option.some.injEq] at hkv
      rcases hkv with ⟨rfl, rfl⟩ | ⟨rfl, rfl⟩ | ⟨rfl, rfl⟩ | ⟨rfl, rfl⟩
      · exact ⟨by simp [words], by rw [Arr.latSlice_shape, hap]; rfl⟩
      · exact ⟨by simp [words], by rw [Arr.latSlice_shape, h1]; rfl⟩
      · exact ⟨by simp [words], by rw [Arr.latSlice_shape, h2]; rfl⟩
      · exact ⟨by simp [words], by rw [Arr.latSlice_shape, h3]; rfl⟩)
    ⟨_, _, List.mem_cons_self⟩ (by
      intro k hk
      simp only [List.length_cons, List.length_nil, words, List.map_cons, List.map_nil, List.cons_append,
        List.nil_append, List.mem_cons, List.not_mem_nil, or_false] at hk
      rcases hk with rfl | rfl | rfl | rfl <;> rfl)
  refine ⟨X, ?_, x2, x3⟩
  unfold iswt2Part
  rw [gs out hap]
  simp only [Py_bind_ok]
  rw [gs _ h1, gs _ h2, gs _ h3]
  simp only [Py_bind_ok]
  unfold idwt2
  simp only
  rw [if_neg (by simp)]
  have x1' : idwtn [(['a', 'a'], some (out.latSlice [0, 1] (2 * step) off)),
      (['d', 'a'], some (p.1.latSlice [0, 1] (2 * step) off)),
      (['a', 'd'], some (p.2.1.latSlice [0, 1] (2 * step) off)),
      (['d', 'd'], some (p.2.2.latSlice [0, 1] (2 * step) off))] (.many [w0, w1]) (.one .periodization)
      (some [-2, -1]) = .ok (some X) := x1
  rw [x1']
  rfl

variable [Invertible (2 : R)]

/-- One residue class. -/
theorem iswt2Phase_ok {w0 w1 : Wavelet R} {step : ℕ} {A : Arr M}
    (hf : SwtFits [(0, w0), (1, w1)] step A.shape) (hA : A.shape.length = 2)
    {f : ℕ × ℕ} (hr0 : f.1 < step) (hr1 : f.2 < step) {p : Arr M × Arr M × Arr M}
    (h1 : p.1.shape = A.shape) (h2 : p.2.1.shape = A.shape) (h3 : p.2.2.shape = A.shape)
    {out : Arr M} (hap : out.shape = A.shape)
    (hval : ∀ idx, InB A.shape idx → (idx 0 % step, idx 1 % step) = f → out.get idx = A.get idx) :
    ∃ y : Arr M, y.shape = A.shape ∧ iswt2Phase [w0, w1] step p.1 p.2.1 p.2.2 out f = .ok y ∧
      ∀ idx, InB A.shape idx → y.get idx =
        if (idx 0 % step, idx 1 % step) = f then
          (Arr.iswtnStep [(0, w0), (1, w1)] step (bandOf (dict3 p) A 2) A.shape).get idx
        else out.get idx := by
  obtain ⟨f0, f1⟩ := f
  set r : ℕ → ℕ := fun k => if k = 0 then f0 else f1 with hrdef
  have hr : ∀ k ∈ [0, 1], r k < step := by
    intro k hk
    simp only [List.mem_cons, List.not_mem_nil, or_false] at hk
    rcases hk with rfl | rfl
    · exact hr0
    · exact hr1
  have hcl : ∀ idx : ℕ → ℕ, (idx 0 % step, idx 1 % step) = (f0, f1) ↔ ∀ k ∈ [0, 1], idx k % step = r k := by
    intro idx
    simp [hrdef]
  have hval' : ∀ idx, InB A.shape idx → (∀ k ∈ [0, 1], idx k % step = r k) → out.get idx = A.get idx :=
    fun idx hi hk => hval idx hi ((hcl idx).mpr hk)
  have part := fun o : ℕ → ℕ => iswt2Part_ok hf hA hr o h1 h2 h3 hap hval'
  obtain ⟨X1, a1, b1, c1⟩ := part (fun _ => 0)
  obtain ⟨X2, a2, b2, c2⟩ := part (fun k => if k = 0 then 0 else 1)
  obtain ⟨X3, a3, b3, c3⟩ := part (fun k => if k = 0 then 1 else 0)
  obtain ⟨X4, a4, b4, c4⟩ := part (fun _ => 1)
  have hlat1 := isLat_first hf hr
  have hfs : firstSl ([(0, w0), (1, w1)].map (·.1)) A.shape step r =
      [.by f0 (A.shape.getD 0 0) step, .by f1 (A.shape.getD 1 0) step] := by
    unfold firstSl
    rw [hA]
    rfl
  rw [hfs] at hlat1
  have a1' : iswt2Part [w0, w1] out p.1 p.2.1 p.2.2 (.by f0 (A.shape.getD 0 0) (2 * step))
    (.by f1 (A.shape.getD 1 0) (2 * step)) = .ok X1 := a1
  have a2' : iswt2Part [w0, w1] out p.1 p.2.1 p.2.2 (.by f0 (A.shape.getD 0 0) (2 * step))
    (.by (f1 + step) (A.shape.getD 1 0) (2 * step)) = .ok X2 := a2
  have a3' : iswt2Part [w0, w1] out p.1 p.2.1 p.2.2 (.by (f0 + step) (A.shape.getD 0 0) (2 * step))
    (.by f1 (A.shape.getD 1 0) (2 * step)) = .ok X3 := a3
  have a4' : iswt2Part [w0, w1] out p.1 p.2.1 p.2.2 (.by (f0 + step) (A.shape.getD 0 0) (2 * step))
    (.by (f1 + step) (A.shape.getD 1 0) (2 * step)) = .ok X4 := a4
  have b1' : X1.shape = latShape [0, 1] A.shape step := b1
  have b2' : (X2.roll1 1).shape = latShape [0, 1] A.shape step := b2
  have b3' : (X3.roll1 0).shape = latShape [0, 1] A.shape step := b3
  have b4' : ((X4.roll1 0).roll1 1).shape = latShape [0, 1] A.shape step := b4
  refine ⟨out.updStrides [.by f0 (A.shape.getD 0 0) step, .by f1 (A.shape.getD 1 0) step] (fun c _ =>
    ((⅟2 : R) ^ 2) • (X1.get c + (X2.roll1 1).get c + (X3.roll1 0).get c + ((X4.roll1 0).roll1 1).get c)),
    by rw [Arr.updStrides_shape, hap], ?_, ?_⟩
  · unfold iswt2Phase
    simp only [h1]
    rw [a1', a2', a3', a4']
    simp only [Py_bind_ok]
    rw [if_neg (by rw [b1', b2', b3', b4']; simp), if_neg]
    · rfl
    · rw [b1', hap, hlat1.shape]
      exact fun h => h rfl
  · intro idx hidx
    rw [IsLat.upd (a := out) (by rw [hap]; exact hlat1) (by rw [hap]; exact hf.axes_lt)
      (fun v x y hxy => by
        have hg : ∀ Y : Arr M, Y.shape = latShape [0, 1] A.shape step → Y.get x = Y.get y := by
          intro Y hY
          apply Y.get_congr
          intro k hk
          rw [hY, latShape_length] at hk
          exact hxy k (by rw [hap]; exact hk)
        simp only
        rw [hg _ b1', hg _ b2', hg _ b3', hg _ b4']) (by rw [hap]; exact hidx)]
    by_cases hc : ∀ k ∈ [0, 1], idx k % step = r k
    · have hc' := (hcl idx).mpr hc
      rw [if_pos hc']
      rw [if_pos (show ∀ k ∈ ([(0, w0), (1, w1)] : List (SStage R)).map (·.1), idx k % step = r k from hc)]
      rw [iswtnStep_get hf (fun k _ => bandOf_shape (dict3_ok h1 h2 h3) k) hidx]
      show (⅟2 : R) ^ 2 • _ = (⅟2 : R) ^ 2 • _
      congr 1
      have hin := hlat1.inB hidx
      have e1 := c1 _ hin
      have e2 := c2 _ hin
      have e3 := c3 _ hin
      have e4 := c4 _ hin
      have key : ((words 2).map fun k => nest (ainvOps [(0, w0), (1, w1)] k A.shape step)
          (bandOf (dict3 p) A 2 k).get idx).sum =
          ((product [0, 1] 2).map fun o : List ℕ => ((words 2).map fun k =>
            nest (List.zipWith (fun p i => (p.1, p.2 i)) (lops [(0, w0), (1, w1)] k A.shape step r) o)
              (bandOf (dict3 p) A 2 k).get fun k => if k ∈ [0, 1] then idx k / step else idx k).sum).sum := by
        rw [sum_comm_list]
        congr 1
        apply List.map_congr_left
        intro k hk
        have := odds_total hf hr (mem_words.mp hk).1 (bandOf (dict3 p) A 2 k).get
          (fun k => if k ∈ [0, 1] then idx k / step else idx k)
        have hb := IsLat.back hc
        have hb' : (fun j => latPos (([(0, w0), (1, w1)] : List (SStage R)).map (·.1)) step r j
          (if j ∈ [0, 1] then idx j / step else idx j)) = idx := hb
        rw [hb'] at this
        exact this.symm
      have hp : product [0, 1] 2 = [[0, 0], [0, 1], [1, 0], [1, 1]] := rfl
      refine Eq.trans ?_ key.symm
      rw [hp]
      simp only [List.map_cons, List.map_nil, List.sum_cons, List.sum_nil, add_zero]
      have f1' : X1.get (fun k => if k ∈ [0, 1] then idx k / step else idx k) = _ := e1
      have f2' : (X2.roll1 1).get (fun k => if k ∈ [0, 1] then idx k / step else idx k) = _ := e2
      have f3' : (X3.roll1 0).get (fun k => if k ∈ [0, 1] then idx k / step else idx k) = _ := e3
      have f4' : ((X4.roll1 0).roll1 1).get (fun k => if k ∈ [0, 1] then idx k / step else idx k) = _ := e4
      refine Eq.trans (congrArg₂ (· + ·) (congrArg₂ (· + ·) (congrArg₂ (· + ·) f1' f2') f3') f4') ?_
      simp only [add_assoc]
      rfl
    · have hc' : ¬ (idx 0 % step, idx 1 % step) = (f0, f1) := fun h => hc ((hcl idx).mp h)
      rw [if_neg hc', if_neg (show ¬ ∀ k ∈ ([(0, w0), (1, w1)] : List (SStage R)).map (·.1), idx k % step = r k from hc)]

/-- The loop over the residue classes. -/
theorem iswt2Phases_ok {w0 w1 : Wavelet R} {step : ℕ} {A : Arr M}
    (hf : SwtFits [(0, w0), (1, w1)] step A.shape) (hA : A.shape.length = 2)
    {p : Arr M × Arr M × Arr M}
    (h1 : p.1.shape = A.shape) (h2 : p.2.1.shape = A.shape) (h3 : p.2.2.shape = A.shape)
    (L : List (ℕ × ℕ)) (hn : L.Nodup) (hL : ∀ f ∈ L, f.1 < step ∧ f.2 < step) :
    ∀ out : Arr M, out.shape = A.shape →
      (∀ idx, InB A.shape idx → (idx 0 % step, idx 1 % step) ∈ L → out.get idx = A.get idx) →
      ∃ y : Arr M, y.shape = A.shape ∧
        L.foldlM (iswt2Phase [w0, w1] step p.1 p.2.1 p.2.2) out = .ok y ∧
        ∀ idx, InB A.shape idx → y.get idx =
          if (idx 0 % step, idx 1 % step) ∈ L then
            (Arr.iswtnStep [(0, w0), (1, w1)] step (bandOf (dict3 p) A 2) A.shape).get idx
          else out.get idx := by
  induction L with
  | nil => intro out hout _; exact ⟨out, hout, rfl, fun idx _ => by simp⟩
  | cons f L ih =>
    intro out hout hval
    rw [List.nodup_cons] at hn
    obtain ⟨y, y1, y2, y3⟩ := iswt2Phase_ok hf hA (hL f (by simp)).1 (hL f (by simp)).2 h1 h2 h3 hout
      (fun idx hidx hc => hval idx hidx (by rw [hc]; exact List.mem_cons_self))
    obtain ⟨z, z1, z2, z3⟩ := ih hn.2 (fun f hf => hL f (List.mem_cons_of_mem _ hf)) y y1 (by
      intro idx hidx hc
      have hne : ¬ (idx 0 % step, idx 1 % step) = f := fun h => hn.1 (by rw [← h]; exact hc)
      rw [y3 idx hidx, if_neg hne, hval idx hidx (List.mem_cons_of_mem _ hc)])
    refine ⟨z, z1, ?_, ?_⟩
    · rw [List.foldlM_cons, y2]
      exact z2
    · intro idx hidx
      rw [z3 idx hidx, y3 idx hidx]
      by_cases g1 : (idx 0 % step, idx 1 % step) ∈ L
      · rw [if_pos g1, if_pos (List.mem_cons_of_mem _ g1)]
      · rw [if_neg g1]
        by_cases g2 : (idx 0 % step, idx 1 % step) = f
        · rw [if_pos g2, if_pos (by rw [g2]; exact List.mem_cons_self)]
        · rw [if_neg g2, if_neg (by rw [List.mem_cons]; exact fun h => h.elim g2 g1)]

/-- All levels of `iswt2`. -/
theorem iswt2Loop_ok {w0 w1 : Wavelet R} (ps : List (Arr M × Arr M × Arr M)) :
    ∀ A : Arr M, A.shape.length = 2 → SwtnFits [(0, w0), (1, w1)] ps.length A.shape →
      (∀ p ∈ ps, p.1.shape = A.shape ∧ p.2.1.shape = A.shape ∧ p.2.2.shape = A.shape) →
      iswt2Loop [w0, w1] ps A = .ok (iswtnCascade [(0, w0), (1, w1)] (ps.map dict3) A) := by
  induction ps with
  | nil => intro A _ _ _; rfl
  | cons p ps ih =>
    intro A hA hf hp
    obtain ⟨cH, cV, cD⟩ := p
    obtain ⟨h1, h2, h3⟩ := hp _ List.mem_cons_self
    simp only at h1 h2 h3
    have hf1 : SwtFits [(0, w0), (1, w1)] (2 ^ ps.length) A.shape := SwtnFits.step (by simpa using hf)
    obtain ⟨y, y1, y2, y3⟩ := iswt2Phases_ok hf1 hA (p := (cH, cV, cD)) h1 h2 h3
      ((List.range (2 ^ ps.length)).flatMap fun h => (List.range (2 ^ ps.length)).map fun w => (h, w))
      (by
        have : ((List.range (2 ^ ps.length)).flatMap fun h => (List.range (2 ^ ps.length)).map fun w => (h, w)) =
          (List.range (2 ^ ps.length)).product (List.range (2 ^ ps.length)) := rfl
        rw [this]
        exact List.Nodup.product List.nodup_range List.nodup_range)
      (by
        intro f hf
        simp only [List.mem_flatMap, List.mem_map, List.mem_range] at hf
        obtain ⟨a, ha, b, hb, rfl⟩ := hf
        exact ⟨ha, hb⟩) A rfl (fun _ _ _ => rfl)
    have hy : y = Arr.iswtnStep [(0, w0), (1, w1)] (2 ^ ps.length) (bandOf (dict3 (cH, cV, cD)) A 2) A.shape := by
      apply Arr.ext_get (by rw [y1]; rfl)
      intro idx hidx
      rw [y1] at hidx
      rw [y3 idx hidx, if_pos]
      simp only [List.mem_flatMap, List.mem_map, List.mem_range]
      exact ⟨_, Nat.mod_lt _ (by positivity), _, Nat.mod_lt _ (by positivity), rfl⟩
    simp only [iswt2Loop]
    rw [if_neg (by rw [h1, h2, h3]; simp), if_neg (by unfold Arr.ndim; rw [h1]; omega)]
    simp only at y2
    rw [y2]
    simp only [Py_bind_ok]
    rw [hy, ih _ (by rw [iswtnStep_shape]; exact hA)
      (by rw [iswtnStep_shape]; exact hf.mono (by simp))
      (by rw [iswtnStep_shape]; exact fun p h => hp p (List.mem_cons_of_mem _ h))]
    simp only [List.map_cons, iswtnCascade, List.length_map]
    rfl

end Pywt
