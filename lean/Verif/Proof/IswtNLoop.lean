import Verif.Proof.IswtN

/-! The loops of the n-D inverse stationary transform. -/

namespace Pywt

open Finset Spec

set_option linter.unusedSectionVars false

variable {R M : Type} [Ring R] [AddCommGroup M] [Module R M]

theorem SwtFits.axes_lt {st : List (SStage R)} {step : ℕ} {S : List ℕ} (h : SwtFits st step S) :
    ∀ k ∈ st.map (·.1), k < S.length := by
  intro k hk
  obtain ⟨s, hs, rfl⟩ := List.mem_map.mp hk
  exact (h.2 s hs).1

theorem SwtFits.axes_dvd {st : List (SStage R)} {step : ℕ} {S : List ℕ} (h : SwtFits st step S) :
    ∀ k ∈ st.map (·.1), 2 * step ∣ S.getD k 0 := by
  intro k hk
  obtain ⟨s, hs, rfl⟩ := List.mem_map.mp hk
  exact (h.2 s hs).2.2.2

/-- The slices of the residue class `r`. -/
abbrev firstSl (axs S : List ℕ) (step : ℕ) (r : ℕ → ℕ) : List Stride :=
  placeSlices S.length axs (((axs.map r).zip (axs.map fun k => S.getD k 0)).map fun p =>
    Stride.by p.1 p.2 step)

theorem isLat_first {st : List (SStage R)} {step : ℕ} {S : List ℕ} (hf : SwtFits st step S) {r : ℕ → ℕ}
    (hr : ∀ k ∈ st.map (·.1), r k < step) :
    IsLat (firstSl (st.map (·.1)) S step r) (st.map (·.1)) S step r := by
  refine ⟨by rw [placeSlices_length], fun k => ?_, hr, fun k hk => ?_⟩
  · unfold firstSl
    rw [zip_map_map, List.map_map, placeSlices_getD hf.axes_lt]
    rfl
  · exact (Dvd.intro_left 2 rfl).trans (hf.axes_dvd k hk)

/-- The slices of one combination of parities. -/
theorem isLat_odd {st : List (SStage R)} {step : ℕ} {S : List ℕ} (hf : SwtFits st step S) {r : ℕ → ℕ}
    (hr : ∀ k ∈ st.map (·.1), r k < step) (o : ℕ → ℕ) :
    IsLat (placeSlices S.length (st.map (·.1))
      (oddEven step ((st.map (·.1)).map r) ((st.map (·.1)).map fun k => S.getD k 0)
        ((st.map (·.1)).map o))) (st.map (·.1)) S (2 * step)
      (fun k => if o k ≠ 0 then r k + step else r k) := by
  refine ⟨by rw [placeSlices_length], fun k => ?_, fun k hk => ?_, hf.axes_dvd⟩
  · unfold oddEven
    rw [zip_map_map, zip_map_map, List.map_map, placeSlices_getD hf.axes_lt]
    by_cases hk : k ∈ st.map (·.1)
    · simp only [if_pos hk, Function.comp_def]
      split <;> rfl
    · simp only [if_neg hk]
  · have := hr k hk
    split <;> omega

theorem resolves_per {st : List (SStage R)} (ndim : ℕ) :
    Resolves ndim (.many (st.map (·.2))) (.one .periodization) (some ((st.map (·.1)).map Int.ofNat))
      (perStages st) := by
  refine ⟨?_, ?_, ?_⟩
  · simp only [perStages, List.map_map]
    apply List.map_congr_left
    intro s _
    simp only [Function.comp_def, Int.ofNat_eq_natCast]
    rw [if_neg (by omega)]
  · rw [perStages_length]
    have : (perStages st).map (·.2.1) = st.map (·.2) := by simp [perStages]
    rw [this]
    match st with
    | [] => rfl
    | [s] => rfl
    | s :: t :: st => simp [PerAxis.expand]
  · rw [perStages_length]
    have : (perStages st).map (·.2.2) = List.replicate st.length .periodization := by
      simp [perStages, Function.comp_def, List.map_const']
    rw [this]
    rfl

theorem bandOf_shape {d : ADict M} {A : Arr M} {m : ℕ} (hd : DictOk d m A.shape) (k : Key) :
    (bandOf d A m k).shape = A.shape := by
  unfold bandOf
  split
  · rfl
  · cases h : d.lookup k with
    | none => rfl
    | some v =>
      rw [List.lookup_eq_some_iff] at h
      obtain ⟨l1, l2, h, -⟩ := h
      exact (hd.2 (k, v) (by rw [h]; simp)).2

theorem aKey_mem_words (m : ℕ) : aKey m ∈ words m := by
  rw [mem_words]
  exact ⟨by simp [aKey], fun c hc => Or.inl (by simpa [aKey] using (List.eq_of_mem_replicate hc))⟩

/-- One iteration of the loop over the parities. -/
theorem iswtnOdd_ok {st : List (SStage R)} {step : ℕ} {A : Arr M} (hf : SwtFits st step A.shape)
    {r : ℕ → ℕ} (hr : ∀ k ∈ st.map (·.1), r k < step) (o : ℕ → ℕ) {d : ADict M}
    (hd : DictOk d st.length A.shape) {approx acc : Arr M} (hap : approx.shape = A.shape)
    (hacc : acc.shape = A.shape)
    (hval : ∀ idx, InB A.shape idx → (∀ k ∈ st.map (·.1), idx k % step = r k) →
      approx.get idx = A.get idx) :
    ∃ Y : Arr M, Y.shape = latShape (st.map (·.1)) A.shape step ∧
      (∀ idx, InB Y.shape idx → Y.get idx = ((words st.length).map fun k =>
        nest (List.zipWith (fun p i => (p.1, p.2 i)) (lops st k A.shape step r) ((st.map (·.1)).map o))
          (bandOf d A st.length k).get idx).sum) ∧
      iswtnOdd ⟨(st.map (·.1)).map Int.ofNat, st.map (·.1), st.map (·.2), A.shape.length, st.length⟩ step
        ((st.map (·.1)).map r) ((st.map (·.1)).map fun k => A.shape.getD k 0) d approx acc
        ((st.map (·.1)).map o) =
      .ok (acc.updStrides (firstSl (st.map (·.1)) A.shape step r) fun c v => v + Y.get c) := by
  have hlat := isLat_odd hf hr o
  have hlat1 := isLat_first hf hr
  set off : ℕ → ℕ := fun k => if o k ≠ 0 then r k + step else r k with hoff
  have hs := sliceDict_ok hlat fun p hp => (hd.2 p hp).2
  have ha : approx.getStrides (placeSlices A.shape.length (st.map (·.1))
      (oddEven step ((st.map (·.1)).map r) ((st.map (·.1)).map fun k => A.shape.getD k 0)
        ((st.map (·.1)).map o))) = .ok (approx.latSlice (st.map (·.1)) (2 * step) off) := by
    apply IsLat.getStrides
    rw [hap]; exact hlat
  set ds : ADict M := d.map fun p => (p.1, p.2.latSlice (st.map (·.1)) (2 * step) off) with hds
  set all : ADict M := dictSet ds (aKey st.length) (approx.latSlice (st.map (·.1)) (2 * step) off)
    with hall
  set S' := latShape (st.map (·.1)) A.shape (2 * step) with hS'
  have hdsk : ds.map (·.1) = d.map (·.1) := by simp [hds]
  have hk : ∀ k v, (k, some v) ∈ all.map (fun p => (p.1, some p.2)) →
      k ∈ words (perStages st).length ∧ v.shape = S' := by
    intro k v h
    obtain ⟨p, hp, he⟩ := List.mem_map.mp h
    simp only [Prod.mk.injEq, Option.some.injEq] at he
    obtain ⟨rfl, rfl⟩ := he
    rw [perStages_length]
    rcases mem_dictSet hp with h | h
    · rw [h]
      exact ⟨aKey_mem_words _, by rw [Arr.latSlice_shape, hap]⟩
    · obtain ⟨q, hq, rfl⟩ := List.mem_map.mp h
      exact ⟨(hd.2 q hq).1, by rw [Arr.latSlice_shape, (hd.2 q hq).2]⟩
  have hS'l : S'.length = A.shape.length := latShape_length _ _ _
  obtain ⟨X, x1, x2, x3⟩ := idwtn_values_nest (c := all.map fun p => (p.1, some p.2))
    (by
      rw [List.map_map]
      simp only [Function.comp_def]
      exact dictSet_keys_nodup (by rw [hdsk]; exact hd.1) _ _) hk
    ⟨aKey st.length, _, List.mem_map.mpr ⟨_, mem_dictSet_self _ _ _, rfl⟩⟩
    (resolves_per S'.length) hf.synthFits
  have hX : X.shape = latShape (st.map (·.1)) A.shape step := by rw [x2, hf.synthShape]
  refine ⟨rollOdds (st.map (·.1)) ((st.map (·.1)).map o) X, ?_, ?_, ?_⟩
  · rw [(rollOdds_map _ o X (by rw [hX, latShape_length]; exact hf.axes_lt) hf.1).1, hX]
  · intro idx hidx
    rw [(rollOdds_map _ o X (by rw [hX, latShape_length]; exact hf.axes_lt) hf.1).1] at hidx
    refine odd_value hf hX (g := fun k =>
      (CDict.get (all.map fun p => (p.1, some p.2)) k).getD (Arr.zero S')) ?_ ?_ hidx
    · intro k hkw idx' hidx'
      rw [CDict.get_map_some, hall, dictSet_lookup]
      unfold bandOf
      by_cases hka : k = aKey st.length
      · rw [if_pos hka, if_pos (show k = List.replicate st.length 'a' from hka), Option.getD_some, Arr.latSlice_get _ _ _ _ (by rw [hap]; exact hidx')]
        apply hval
        · intro j hj
          have := hidx' j (by rw [latShape_length]; exact hj)
          rw [latShape_getD hj] at this
          unfold latPos
          beta_reduce
          by_cases hm : j ∈ st.map (·.1)
          · rw [if_pos hm] at this ⊢
            obtain ⟨c, hc⟩ := hlat.dvd j hm
            have hlt := hlat.lt j hm
            rw [hc, Nat.mul_div_cancel_left _ (by omega)] at this
            rw [hc]
            calc off j + idx' j * (2 * step) < 2 * step + idx' j * (2 * step) := by omega
              _ = (2 * step) * (idx' j + 1) := by ring
              _ ≤ _ := Nat.mul_le_mul_left _ this
          · rw [if_neg hm] at this ⊢
            exact this
        · intro j hm
          unfold latPos
          rw [if_pos hm, hoff]
          have := hr j hm
          simp only
          split
          · rw [show r j + step + idx' j * (2 * step) = r j + step * (1 + 2 * idx' j) by ring,
              Nat.add_mul_mod_self_left, Nat.mod_eq_of_lt this]
          · rw [show r j + idx' j * (2 * step) = r j + step * (2 * idx' j) by ring,
              Nat.add_mul_mod_self_left, Nat.mod_eq_of_lt this]
      · rw [if_neg hka, if_neg (show ¬ k = List.replicate st.length 'a' from hka), hds,
          lookup_map_val (fun v : Arr M => v.latSlice (st.map (·.1)) (2 * step) off)]
        cases hl : d.lookup k with
        | none =>
          simp only [Option.map_none, Option.getD_none, Arr.zero_get]
        | some v =>
          have hv : v.shape = A.shape := by
            rw [List.lookup_eq_some_iff] at hl
            obtain ⟨l1, l2, h, -⟩ := hl
            exact (hd.2 (k, v) (by rw [h]; simp)).2
          simp only [Option.map_some, Option.getD_some]
          rw [Arr.latSlice_get _ _ _ _ (by rw [hv]; exact hidx')]
    · intro idx' hidx'
      rw [x3 idx' hidx', perStages_length]
  · unfold iswtnOdd
    simp only
    rw [hs]
    simp only [Py_bind_ok]
    rw [ha]
    simp only [Py_bind_ok]
    rw [x1]
    simp only [Py_bind_ok]
    unfold Arr.addStrides
    rw [if_neg]
    rw [(rollOdds_map _ o X (by rw [hX, latShape_length]; exact hf.axes_lt) hf.1).1, hX, hacc,
      hlat1.shape]
    exact fun h => h rfl

/-- The loop over the parities. -/
theorem iswtnOdds_ok {st : List (SStage R)} {step : ℕ} {A : Arr M} (hf : SwtFits st step A.shape)
    {r : ℕ → ℕ} (hr : ∀ k ∈ st.map (·.1), r k < step) {d : ADict M}
    (hd : DictOk d st.length A.shape) {approx : Arr M} (hap : approx.shape = A.shape)
    (hval : ∀ idx, InB A.shape idx → (∀ k ∈ st.map (·.1), idx k % step = r k) →
      approx.get idx = A.get idx) (L : List (List ℕ)) (hL : ∀ o ∈ L, o.length = st.length) :
    ∀ acc : Arr M, acc.shape = A.shape → ∃ y : Arr M, y.shape = A.shape ∧
      L.foldlM (iswtnOdd ⟨(st.map (·.1)).map Int.ofNat, st.map (·.1), st.map (·.2), A.shape.length,
        st.length⟩ step ((st.map (·.1)).map r) ((st.map (·.1)).map fun k => A.shape.getD k 0) d approx)
        acc = .ok y ∧
      ∀ idx, InB A.shape idx → y.get idx =
        if (∀ k ∈ st.map (fun s : SStage R => s.1), idx k % step = r k) then
          acc.get idx + (L.map fun o => ((words st.length).map fun k =>
            nest (List.zipWith (fun p i => (p.1, p.2 i)) (lops st k A.shape step r) o)
              (bandOf d A st.length k).get
              fun j => if j ∈ st.map (·.1) then idx j / step else idx j).sum).sum
        else acc.get idx := by
  induction L with
  | nil =>
    intro acc hacc
    exact ⟨acc, hacc, rfl, fun idx _ => by simp⟩
  | cons o L ih =>
    intro acc hacc
    obtain ⟨of, rfl⟩ := exists_fun_of_list hf.1 (l := o) (by rw [hL o (by simp)]; simp)
    obtain ⟨Y, y1, y2, y3⟩ := iswtnOdd_ok hf hr of hd hap hacc hval
    obtain ⟨y, z1, z2, z3⟩ := ih (fun o ho => hL o (by simp [ho])) (acc.updStrides (firstSl (st.map (·.1)) A.shape step r) fun c v => v + Y.get c)
      (by rw [Arr.updStrides_shape, hacc])
    refine ⟨y, z1, ?_, ?_⟩
    · rw [List.foldlM_cons, y3]
      exact z2
    · intro idx hidx
      have hlat := isLat_first hf hr
      rw [z3 idx hidx, IsLat.upd (a := acc) (by rw [hacc]; exact hlat) (by rw [hacc]; exact hf.axes_lt)
        (fun v p q hpq => by
          simp only
          rw [Y.get_congr (g := q)]
          intro k hk
          rw [y1, latShape_length] at hk
          exact hpq k (by rw [hacc]; exact hk)) (by rw [hacc]; exact hidx)]
      by_cases hc : ∀ k ∈ st.map (·.1), idx k % step = r k
      · simp only [if_pos hc, List.map_cons, List.sum_cons]
        rw [y2 _ (by rw [y1]; exact hlat.inB hidx), add_assoc]
      · simp only [if_neg hc]

variable [Invertible (2 : R)]

theorem swtUnband_get {st : List (SStage R)} {step : ℕ} {S : List ℕ} (hf : SwtFits st step S) {k : Key}
    (hk : k.length = st.length) {x : Arr M} (hx : x.shape = S) :
    (x.swtUnband st step k).shape = S ∧ ∀ idx, InB S idx →
      (x.swtUnband st step k).get idx = nest (ainvOps st k S step) x.get idx := by
  induction st generalizing k with
  | nil =>
    cases k with
    | nil => exact ⟨hx, fun _ _ => rfl⟩
    | cons c k => simp at hk
  | cons s st ih =>
    cases k with
    | nil => simp at hk
    | cons c k =>
      obtain ⟨hn, hall⟩ := hf
      simp only [List.map_cons, List.nodup_cons] at hn
      obtain ⟨a1, a2, a3, a4⟩ := hall s (by simp)
      obtain ⟨i1, i2⟩ := ih ⟨hn.2, fun t ht => hall t (by simp [ht])⟩ (k := k) (by simpa using hk)
      have hax : s.1 < (x.swtUnband st step k).shape.length := by rw [i1]; exact a1
      have hset : ∀ l : List ℕ, l.set s.1 (l.getD s.1 0) = l := by
        intro l
        apply List.ext_getElem (by simp)
        intro i h1 h2
        rw [List.getElem_set]
        split
        · next h => subst h; rw [List.getD_eq_getElem]
        · rfl
      have hsh : ((x.swtUnband st step k).shape.set s.1 (x.shape.getD s.1 0)) = S := by
        rw [i1, hx, hset]
      refine ⟨by simp only [Arr.swtUnband, Arr.shape_along]; exact hsh, ?_⟩
      intro idx hidx
      simp only [Arr.swtUnband]
      rw [Arr.along_get hax (by rw [hsh]; exact hidx)]
      unfold Arr.line
      rw [i1, atrousInv_getD a3 _ (hidx s.1 a1)]
      simp only [ainvOps, List.zipWith_cons_cons, nest_cons]
      rw [liftAx_apply]
      refine congrFun (ainv_local a3 _ _ fun j hj => ?_) _
      apply i2
      intro q hq
      by_cases hqs : q = s.1
      · subst hqs
        rw [Function.update_self]
        exact hj
      · rw [Function.update_of_ne hqs]
        exact hidx q hq

theorem iswtnStep_get {st : List (SStage R)} {step : ℕ} {S : List ℕ} (hf : SwtFits st step S)
    {band : Key → Arr M} (hb : ∀ k ∈ words st.length, (band k).shape = S) {idx : ℕ → ℕ}
    (hidx : InB S idx) :
    (Arr.iswtnStep st step band S).get idx = (⅟2 : R) ^ st.length •
      ((words st.length).map fun k => nest (ainvOps st k S step) (band k).get idx).sum := by
  unfold Arr.iswtnStep
  rw [Arr.get_ofFn _ hidx]
  · congr 2
    apply List.map_congr_left
    intro k hk
    exact (swtUnband_get hf (mem_words.mp hk).1 (hb k hk)).2 idx hidx
  · intro p q hpq
    simp only
    congr 2
    apply List.map_congr_left
    intro k hk
    apply Arr.get_congr
    rw [(swtUnband_get hf (mem_words.mp hk).1 (hb k hk)).1]
    exact hpq

/-- One iteration of the loop over the residue classes. -/
theorem iswtnFirst_ok {st : List (SStage R)} {step : ℕ} {A : Arr M} (hf : SwtFits st step A.shape)
    {r : ℕ → ℕ} (hr : ∀ k ∈ st.map (·.1), r k < step) {d : ADict M}
    (hd : DictOk d st.length A.shape) {out : Arr M} (hout : out.shape = A.shape)
    (hval : ∀ idx, InB A.shape idx → (∀ k ∈ st.map (·.1), idx k % step = r k) →
      out.get idx = A.get idx) :
    ∃ y : Arr M, y.shape = A.shape ∧
      iswtnFirst ⟨(st.map (·.1)).map Int.ofNat, st.map (·.1), st.map (·.2), A.shape.length,
        st.length⟩ step ((st.map (·.1)).map fun k => A.shape.getD k 0) d out ((st.map (·.1)).map r) =
        .ok y ∧
      ∀ idx, InB A.shape idx → y.get idx =
        if (∀ k ∈ st.map (fun s : SStage R => s.1), idx k % step = r k) then
          (Arr.iswtnStep st step (bandOf d A st.length) A.shape).get idx
        else out.get idx := by
  have hlat := isLat_first hf hr
  obtain ⟨y, y1, y2, y3⟩ := iswtnOdds_ok hf hr hd hout hval (product [0, 1] st.length)
    (fun o ho => (mem_product.mp ho).1)
    (out.updStrides (firstSl (st.map (·.1)) A.shape step r) fun _ _ => 0) (by rw [Arr.updStrides_shape, hout])
  refine ⟨y.updStrides (firstSl (st.map (·.1)) A.shape step r) fun _ v => ((⅟2 : R) ^ st.length) • v, y1, ?_, ?_⟩
  · unfold iswtnFirst
    simp only
    rw [y2]
    rfl
  · intro idx hidx
    rw [IsLat.upd (a := y) (by rw [y1]; exact hlat) (by rw [y1]; exact hf.axes_lt)
      (fun v p q _ => rfl) (by rw [y1]; exact hidx), y3 idx hidx]
    have h0 := IsLat.upd (a := out) (f := fun _ _ => 0) (by rw [hout]; exact hlat)
      (by rw [hout]; exact hf.axes_lt) (fun v p q _ => rfl) (idx := idx) (by rw [hout]; exact hidx)
    rw [h0]
    by_cases hc : ∀ k ∈ st.map (·.1), idx k % step = r k
    · simp only [if_pos hc, zero_add]
      rw [iswtnStep_get hf (fun k _ => bandOf_shape hd k) hidx, sum_comm_list]
      congr 2
      apply List.map_congr_left
      intro k hk
      rw [odds_total hf hr (mem_words.mp hk).1, IsLat.back hc]
    · simp only [if_neg hc]

/-- The loop over the residue classes. -/
theorem iswtnFirsts_ok {st : List (SStage R)} {step : ℕ} {A : Arr M} (hf : SwtFits st step A.shape)
    {d : ADict M} (hd : DictOk d st.length A.shape) (L : List (List ℕ)) (hn : L.Nodup)
    (hL : ∀ f ∈ L, f.length = st.length ∧ ∀ a ∈ f, a < step) :
    ∀ out : Arr M, out.shape = A.shape →
      (∀ idx, InB A.shape idx → ((st.map (·.1)).map fun k => idx k % step) ∈ L →
        out.get idx = A.get idx) →
      ∃ y : Arr M, y.shape = A.shape ∧
      L.foldlM (iswtnFirst ⟨(st.map (·.1)).map Int.ofNat, st.map (·.1), st.map (·.2), A.shape.length,
        st.length⟩ step ((st.map (·.1)).map fun k => A.shape.getD k 0) d) out = .ok y ∧
      ∀ idx, InB A.shape idx → y.get idx =
        if ((st.map (·.1)).map fun k => idx k % step) ∈ L then
          (Arr.iswtnStep st step (bandOf d A st.length) A.shape).get idx
        else out.get idx := by
  induction L with
  | nil => intro out hout _; exact ⟨out, hout, rfl, fun idx _ => by simp⟩
  | cons f L ih =>
    intro out hout hval
    simp only [List.nodup_cons] at hn
    obtain ⟨hl, hlt⟩ := hL f (by simp)
    obtain ⟨r, rfl⟩ := exists_fun_of_list hf.1 (l := f) (by rw [hl]; simp)
    have hmem : ∀ idx : ℕ → ℕ, ((st.map (·.1)).map fun k => idx k % step) = (st.map (·.1)).map r ↔
        ∀ k ∈ st.map (·.1), idx k % step = r k := by
      intro idx
      exact List.map_inj_left
    obtain ⟨y, y1, y2, y3⟩ := iswtnFirst_ok hf
      (fun k hk => hlt _ (List.mem_map_of_mem hk)) hd hout (fun idx hidx hc =>
        hval idx hidx (by rw [(hmem idx).mpr hc]; simp))
    obtain ⟨z, z1, z2, z3⟩ := ih hn.2 (fun f hf => hL f (by simp [hf])) y y1 (by
      intro idx hidx hc
      rw [y3 idx hidx, if_neg, hval idx hidx (List.mem_cons_of_mem _ hc)]
      intro h
      exact hn.1 ((hmem idx).mpr h ▸ hc))
    refine ⟨z, z1, ?_, ?_⟩
    · rw [List.foldlM_cons, y2]
      exact z2
    · intro idx hidx
      rw [z3 idx hidx, y3 idx hidx]
      by_cases h1 : ((st.map (·.1)).map fun k => idx k % step) ∈ L
      · rw [if_pos h1, if_pos (List.mem_cons_of_mem _ h1)]
      · rw [if_neg h1]
        by_cases h2 : ∀ k ∈ st.map (·.1), idx k % step = r k
        · rw [if_pos h2, if_pos (by rw [(hmem idx).mpr h2]; exact List.mem_cons_self)]
        · rw [if_neg h2, if_neg]
          simp only [List.mem_cons, not_or]
          exact ⟨fun h => h2 ((hmem idx).mp h), h1⟩

theorem listIx_nat {n a : ℕ} (h : a < n) : listIx n (Int.ofNat a) = .ok a := by
  unfold listIx
  rw [if_pos ⟨by simp, by simpa using h⟩]
  simp

theorem mapM_listIx {n : ℕ} {l : List ℕ} (h : ∀ a ∈ l, a < n) :
    (l.map Int.ofNat).mapM (listIx n) = .ok l := by
  induction l with
  | nil => rfl
  | cons a l ih =>
    rw [List.map_cons, List.mapM_cons, listIx_nat (h a (by simp)), ih fun b hb => h b (by simp [hb])]
    rfl

theorem iswtnLevel_ok {st : List (SStage R)} {step : ℕ} {A : Arr M} (hf : SwtFits st step A.shape)
    {d : ADict M} (hd : DictOk d st.length A.shape) (hne : d ≠ []) :
    iswtnLevel ((st.map (·.1)).map Int.ofNat) (st.map (·.2)) st.length step d A =
      .ok (Arr.iswtnStep st step (bandOf d A st.length) A.shape) := by
  obtain ⟨⟨k0, d0⟩, d', rfl⟩ : ∃ p d', d = p :: d' := by
    cases d with
    | nil => exact absurd rfl hne
    | cons p d' => exact ⟨p, d', rfl⟩
  have hd0 : d0.shape = A.shape := (hd.2 (k0, d0) (by simp)).2
  unfold iswtnLevel
  simp only
  rw [if_neg (by
    simp only [List.any_eq_true, not_exists, not_and, decide_eq_true_eq, not_not]
    intro p hp
    rw [(hd.2 p hp).2, hd0])]
  unfold Arr.ndim
  rw [hd0, mapM_listIx hf.axes_lt]
  simp only [Py_bind_ok]
  obtain ⟨y, y1, y2, y3⟩ := iswtnFirsts_ok hf hd (product (List.range step) st.length)
    (product_nodup List.nodup_range _) (fun f hf => by
      obtain ⟨h1, h2⟩ := mem_product.mp hf
      exact ⟨h1, fun a ha => List.mem_range.mp (h2 a ha)⟩) A rfl (fun _ _ _ => rfl)
  have hy : y = Arr.iswtnStep st step (bandOf ((k0, d0) :: d') A st.length) A.shape := by
    apply Arr.ext_get (by rw [y1]; rfl)
    intro idx hidx
    rw [y1] at hidx
    rw [y3 idx hidx, if_pos]
    rw [mem_product]
    refine ⟨by simp, ?_⟩
    intro a ha
    obtain ⟨k, hk, rfl⟩ := List.mem_map.mp ha
    obtain ⟨s, hs, rfl⟩ := List.mem_map.mp hk
    exact List.mem_range.mpr (Nat.mod_lt _ (hf.div hs).1)
  rw [hy] at y2
  exact y2

end Pywt
