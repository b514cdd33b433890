import Verif.Proof.IswtNLoop
import Verif.Proof.SwtTop
import Verif.Proof.AxisMulti
import Verif.Spec.Layout

/-! The n-D stationary transform. -/

namespace Pywt

open Finset Spec

set_option linter.unusedSectionVars false

variable {R M : Type} [Ring R] [AddCommGroup M] [Module R M]

theorem Mem.along_copy {c : Mem M} {axis : ℕ} (ha : axis < c.info.shape.length) (n : ℕ)
    (g : List M → List M) : c.along axis n g = c.copy.along axis n g := by
  have hsh : c.copy.shape = c.info.shape := rfl
  apply Arr.ext_get (by rfl)
  intro idx hidx
  have hidx' : InB (c.info.shape.set axis n) idx := hidx
  rw [Arr.along_get (by rw [hsh]; exact ha) hidx']
  unfold Mem.along
  rw [Arr.get_ofFn (Local_memline c axis g (by simp [Info.ndim]) (by simpa [Info.ndim] using ha)) hidx']
  congr 2
  unfold Mem.line Arr.line
  rw [hsh]
  apply List.map_congr_left
  intro j hj
  rw [Mem.copy, Arr.get_ofFn]
  · intro f h hfh; exact c.get_congr hfh
  · rw [inB_set ha] at hidx'
    intro k hk
    by_cases hka : k = axis
    · subst hka; simpa using hj
    · rw [Function.update_of_ne hka]; exact hidx'.2 k hk hka

theorem Arr.copy_toMem (a : Arr M) : a.toMem.copy = a := by
  apply Arr.ext_get (by rfl)
  intro idx hidx
  rw [Mem.copy, Arr.get_ofFn (shape := a.toMem.info.shape) _ hidx, Arr.toMem_get]
  intro f h hfh
  rw [Arr.toMem_get, Arr.toMem_get]
  exact a.get_congr hfh

theorem list_set_getD (l : List ℕ) (i : ℕ) : l.set i (l.getD i 0) = l := by
  apply List.ext_getElem (by simp)
  intro j h1 h2
  rw [List.getElem_set]
  split
  · next h => subst h; rw [List.getD_eq_getElem _ _ h2]
  · rfl

theorem callC_ok {α : Type} {c : C (Option α)} {a : α} (h : callC c = .ok a) : c = .ok (some a) := by
  unfold callC at h
  split at h <;> simp_all

theorem swtCall_ok {f : List R} {w : Wavelet R} {approx : Bool} (hw : w.Ok)
    (hf : f = if approx then w.dec_lo else w.dec_hi) {axis : ℕ} {c : Mem M} (hc : c.Ok)
    (ha : axis < c.info.shape.length) {i : ℕ} (h1 : 1 ≤ c.info.shape.getD axis 0)
    (hd : 2 ^ (i + 1) ∣ c.info.shape.getD axis 0) :
    downcoefAxisCall w axis approx (.swt (i + 1)) c c.info.shape =
      .ok (c.copy.along axis (c.info.shape.getD axis 0) (atrous f (2 ^ i))) := by
  have h := downcoefAxisCall_eq (w := w) (approx := approx) (t := .swt (i + 1)) hc ha
    (n := c.info.shape.getD axis 0) (g := atrous f (2 ^ i)) rfl ?_ ?_
  · rw [list_set_getD, Mem.along_copy ha] at h
    exact h
  · intro row orow hr ho
    have hF : f.length = w.dec_lo.length := by
      subst hf
      cases approx
      · exact hw.2.2.1
      · rfl
    have := swtStep_eq (f := f) (x := row) (out := orow) (level := i + 1)
      (by rw [hF]; exact hw.1) (by rw [hF]; exact hw.2.1) (by omega) (by omega) (by rw [hr]; exact hd)
      (by omega)
    have := callC_ok this
    subst hf
    cases approx <;> exact this
  · intro row hr
    simp [hr]

theorem swtAxisLoop_arr {w : Wavelet R} (hw : w.Ok) {axis : ℕ} (m : ℕ) {x : Arr M}
    (ha : axis < x.shape.length) (h1 : 1 ≤ x.shape.getD axis 0) (n : ℕ) :
    ∀ (j : ℕ) (ret : List (Arr M × Arr M)) (c : Mem M), c.Ok →
      c.copy = x.along axis (x.shape.getD axis 0) (fun u => swtApprox w.dec_lo m u j) →
      2 ^ (m + j + n) ∣ x.shape.getD axis 0 →
      swtAxisLoop w axis n (m + j + 1) c ret =
        .ok (ret ++ (List.range n).map fun i =>
          (x.along axis (x.shape.getD axis 0) (fun u => swtApprox w.dec_lo m u (j + i + 1)),
           x.along axis (x.shape.getD axis 0) (fun u => swtDetail w.dec_lo w.dec_hi m u (j + i)))) := by
  induction n with
  | zero => intro j ret c _ _ _; simp [swtAxisLoop]
  | succ n ih =>
    intro j ret c hc hcx hd
    have hsh : c.info.shape = x.shape := by
      have : c.copy.shape = c.info.shape := rfl
      rw [← this, hcx, Arr.shape_along, list_set_getD]
    have hd1 : 2 ^ (m + j + 1) ∣ c.info.shape.getD axis 0 := by
      rw [hsh]; exact (pow_dvd_pow 2 (by omega)).trans hd
    have eA : c.copy.along axis (c.info.shape.getD axis 0) (atrous w.dec_lo (2 ^ (m + j))) =
        x.along axis (x.shape.getD axis 0) (fun u => swtApprox w.dec_lo m u (j + 1)) := by
      rw [hcx, hsh, Arr.along_along ha (fun l hl => by simp [hl])]
      rfl
    have eD : c.copy.along axis (c.info.shape.getD axis 0) (atrous w.dec_hi (2 ^ (m + j))) =
        x.along axis (x.shape.getD axis 0) (fun u => swtDetail w.dec_lo w.dec_hi m u j) := by
      rw [hcx, hsh, Arr.along_along ha (fun l hl => by simp [hl])]
      rfl
    simp only [swtAxisLoop]
    rw [swtCall_ok (f := w.dec_lo) (approx := true) hw rfl hc (by rw [hsh]; exact ha) (by rw [hsh]; exact h1) hd1,
      swtCall_ok (f := w.dec_hi) (approx := false) hw rfl hc (by rw [hsh]; exact ha) (by rw [hsh]; exact h1) hd1,
      eA, eD]
    simp only [Py_bind_ok]
    have := ih (j + 1) (ret ++ [(x.along axis (x.shape.getD axis 0) (fun u => swtApprox w.dec_lo m u (j + 1)),
      x.along axis (x.shape.getD axis 0) (fun u => swtDetail w.dec_lo w.dec_hi m u j))])
      (x.along axis (x.shape.getD axis 0) (fun u => swtApprox w.dec_lo m u (j + 1))).toMem
      (Arr.toMem_ok _) (Arr.copy_toMem _)
      (by rw [show m + (j + 1) + n = m + j + (n + 1) by ring]; exact hd)
    rw [show m + (j + 1) + 1 = m + j + 1 + 1 by ring] at this
    rw [this]
    congr 1
    rw [List.range_succ_eq_map]
    simp only [List.append_assoc, List.map_cons, List.map_map, List.cons_append, List.nil_append,
      add_zero]
    congr 2
    apply List.map_congr_left
    intro i _
    simp only [Function.comp, Nat.succ_eq_add_one, show j + 1 + i = j + (i + 1) by ring]

theorem swtAxisMem_eq {w : Wavelet R} (hw : w.Ok) (l m : ℕ) {axis : ℕ} (trim : Bool) {c : Mem M}
    (hc : c.Ok) (ha : axis < c.info.shape.length) :
    swtAxisMem w l m axis trim c =
      if 1 ≤ l ∧ 1 ≤ c.info.shape.getD axis 0 ∧ 2 ^ (m + l) ∣ c.info.shape.getD axis 0 then
        .ok (swtLines w m l trim axis c.copy)
      else .error .value := by
  have hsh : c.copy.shape = c.info.shape := rfl
  by_cases h : 1 ≤ l ∧ 1 ≤ c.info.shape.getD axis 0 ∧ 2 ^ (m + l) ∣ c.info.shape.getD axis 0
  · obtain ⟨h1, h2, h3⟩ := h
    have hle := (le_swtMaxLevelC h2).mpr h3
    have hev : c.info.shape.getD axis 0 % 2 = 0 := by
      apply Nat.mod_eq_zero_of_dvd
      exact (dvd_pow_self 2 (by omega)).trans h3
    have hloop := swtAxisLoop_arr hw m (x := c.copy) ha h2 l 0 [] c hc (by
      apply Arr.ext_get
      · rw [Arr.shape_along, list_set_getD]
      · intro idx hidx
        rw [Arr.along_get ha (by rw [list_set_getD]; exact hidx)]
        simp only [swtApprox]
        rw [List.getD_eq_getElem (hn := by rw [Arr.line_length]; exact hidx _ ha), Arr.line_getElem,
          Function.update_eq_self]) (by rw [add_zero]; exact h3)
    simp only [add_zero, zero_add, List.nil_append] at hloop
    rw [if_pos (show 1 ≤ l ∧ 1 ≤ c.info.shape.getD axis 0 ∧ 2 ^ (m + l) ∣ c.info.shape.getD axis 0
      from ⟨h1, h2, h3⟩)]
    have e1 : ¬ c.info.shape.getD axis 0 % 2 ≠ 0 := by omega
    have e2 : ¬ c.info.shape.getD axis 0 < 1 := by omega
    have e3 : ¬ l < 1 := by omega
    have e4 : ¬ m ≥ swtMaxLevelC (c.info.shape.getD axis 0) := by omega
    have e5 : ¬ m + l > swtMaxLevelC (c.info.shape.getD axis 0) := by omega
    simp only [swtAxisMem, if_neg e1, if_neg e2, if_neg e3, if_neg e4, if_neg e5, Py_pure]
    rw [hloop]
    simp only [Py_bind_ok]
    cases trim with
    | false => rfl
    | true =>
      obtain ⟨k, rfl⟩ : ∃ k, l = k + 1 := ⟨l - 1, by omega⟩
      simp only [if_true, swtLines, List.getLast?_map, List.getLast?_range]
      simp [Function.comp_def]
  · rw [if_neg h]
    by_cases e1 : c.info.shape.getD axis 0 % 2 ≠ 0
    · simp only [swtAxisMem, if_pos e1]; rfl
    by_cases e2 : c.info.shape.getD axis 0 < 1
    · simp only [swtAxisMem, if_neg e1, if_pos e2]; rfl
    by_cases e3 : l < 1
    · simp only [swtAxisMem, if_neg e1, if_neg e2, if_pos e3]; rfl
    by_cases e4 : m ≥ swtMaxLevelC (c.info.shape.getD axis 0)
    · simp only [swtAxisMem, if_neg e1, if_neg e2, if_neg e3, if_pos e4]; rfl
    have e5 : m + l > swtMaxLevelC (c.info.shape.getD axis 0) := by
      by_contra h5
      exact h ⟨by omega, by omega, (le_swtMaxLevelC (by omega)).mp (by omega)⟩
    simp only [swtAxisMem, if_neg e1, if_neg e2, if_neg e3, if_neg e4, if_pos e5]; rfl

/-- `swt` along an axis. -/
theorem swtA_eq {w : Wavelet R} (hw : w.Ok) (l m : ℕ) (trim : Bool) (norm : Option R) {axis : ℤ} {ax : ℕ}
    {x : Arr M} (hax : AxisIs x.ndim axis ax) :
    swtA w (some (l : ℤ)) (m : ℤ) trim norm axis x =
      if 1 ≤ l ∧ 1 ≤ x.shape.getD ax 0 ∧ 2 ^ (m + l) ∣ x.shape.getD ax 0 then
        .ok (swtLines (w.normed norm) m l trim ax x)
      else .error .value := by
  unfold swtA
  simp only [hax.normAxis, Py_bind_ok, swtLevel, show ¬ ((l : ℤ) < 0) by omega,
    show ¬ ((m : ℤ) < 0) by omega, if_false, Int.toNat_natCast]
  by_cases h1 : x.ndim = 1
  · obtain ⟨n, hn⟩ : ∃ n, x.shape = [n] := List.length_eq_one_iff.mp h1
    have hax0 : ax = 0 := by have := hax.2; omega
    subst hax0
    have hdl : x.data.length = n := by rw [x.ok, hn]; simp
    rw [if_pos h1, swtC_eq (hw.normed norm), hn]
    simp only [List.getD_cons_zero, hdl]
    split
    · simp only [Py_bind_ok, Py_pure]
      congr 1
      have e : ∀ g : List M → List M, (∀ u, (g u).length = u.length) →
          x.along 0 (x.shape.getD 0 0) g = Arr.of1 (g x.data) := by
        intro g hg
        exact Arr.along_one h1 (by rw [hg, hdl, hn]; rfl)
      unfold swtResult swtLines
      simp only
      rw [e _ (fun u => swtApprox_length _ _ _ _)]
      have e2 : ∀ j, x.along 0 (x.shape.getD 0 0)
          (fun u => swtApprox (w.normed norm).dec_lo m u j) = Arr.of1 (swtApprox (w.normed norm).dec_lo m x.data j) :=
        fun j => e _ (fun u => swtApprox_length _ _ _ _)
      have e3 : ∀ j, x.along 0 (x.shape.getD 0 0)
          (fun u => swtDetail (w.normed norm).dec_lo (w.normed norm).dec_hi m u j) =
            Arr.of1 (swtDetail (w.normed norm).dec_lo (w.normed norm).dec_hi m x.data j) :=
        fun j => e _ (fun u => swtDetail_length _ _ _ _ _)
      simp only [e2, e3]
      cases trim <;> simp [SwtCoeffs.toArr, Function.comp_def]
    · rfl
  · rw [if_neg h1, swtAxisMem_eq (hw.normed norm) l m trim x.toMem_ok hax.2, Arr.copy_toMem]
    rfl

/-! ### `swtn` -/

theorem swtOne_ok {w : Wavelet R} (hw : w.Ok) {i axis : ℕ} {x : Arr M} (ha : axis < x.shape.length)
    (h1 : 1 ≤ x.shape.getD axis 0) (hd : 2 ^ (i + 1) ∣ x.shape.getD axis 0) :
    swtOne w (i : ℤ) axis x =
      .ok (x.along axis (x.shape.getD axis 0) (atrous (w.decFilter 'a') (2 ^ i)),
        x.along axis (x.shape.getD axis 0) (atrous (w.decFilter 'd') (2 ^ i))) := by
  unfold swtOne
  rw [if_neg (by omega), Int.toNat_natCast, swtAxisMem_eq hw 1 i false x.toMem_ok ha, Arr.copy_toMem,
    if_pos (show 1 ≤ 1 ∧ 1 ≤ x.toMem.info.shape.getD axis 0 ∧ 2 ^ (i + 1) ∣ x.toMem.info.shape.getD axis 0
      from ⟨le_rfl, h1, hd⟩)]
  rfl

theorem swtOne_err {w : Wavelet R} (hw : w.Ok) {i axis : ℕ} {x : Arr M} (ha : axis < x.shape.length)
    (h : ¬ (1 ≤ x.shape.getD axis 0 ∧ 2 ^ (i + 1) ∣ x.shape.getD axis 0)) :
    swtOne w (i : ℤ) axis x = .error .value := by
  unfold swtOne
  rw [if_neg (by omega), Int.toNat_natCast, swtAxisMem_eq hw 1 i false x.toMem_ok ha,
    if_neg (fun h' => h h'.2)]
  rfl

theorem swtnStep_ok {w : Wavelet R} (hw : w.Ok) {i axis : ℕ} {S : List ℕ} {cs : List (Key × Arr M)}
    (hcs : ∀ p ∈ cs, p.2.shape = S) (ha : axis < S.length) (h1 : 1 ≤ S.getD axis 0)
    (hd : 2 ^ (i + 1) ∣ S.getD axis 0) :
    swtnStep (i : ℤ) axis w cs = .ok (cs.flatMap fun p =>
      [(p.1 ++ ['a'], p.2.along axis (S.getD axis 0) (atrous (w.decFilter 'a') (2 ^ i))),
       (p.1 ++ ['d'], p.2.along axis (S.getD axis 0) (atrous (w.decFilter 'd') (2 ^ i)))]) := by
  induction cs with
  | nil => rfl
  | cons p cs ih =>
    obtain ⟨k, x⟩ := p
    have hx : x.shape = S := hcs (k, x) (by simp)
    simp only [swtnStep]
    rw [swtOne_ok hw (by rw [hx]; exact ha) (by rw [hx]; exact h1) (by rw [hx]; exact hd),
      ih fun p hp => hcs p (by simp [hp]), hx]
    rfl

theorem swtnAxes_ok {i : ℕ} {S : List ℕ} (st : List (SStage R))
    (hst : ∀ s ∈ st, s.1 < S.length ∧ s.2.Ok ∧ 1 ≤ S.getD s.1 0 ∧ 2 ^ (i + 1) ∣ S.getD s.1 0) :
    ∀ cs : List (Key × Arr M), (∀ p ∈ cs, p.2.shape = S) →
      swtnAxes (i : ℤ) st cs = .ok (cs.flatMap fun p =>
        (words st.length).map fun k => (p.1 ++ k, p.2.swtBand st (2 ^ i) k)) := by
  induction st with
  | nil =>
    intro cs _
    simp [swtnAxes, words, Arr.swtBand]
  | cons s st ih =>
    intro cs hcs
    obtain ⟨h1, h2, h3, h4⟩ := hst s (by simp)
    obtain ⟨ax, w⟩ := s
    simp only [swtnAxes]
    rw [swtnStep_ok h2 hcs h1 h3 h4]
    simp only [Py_bind_ok]
    rw [ih (fun s hs => hst s (by simp [hs]))]
    · congr 1
      rw [List.flatMap_assoc]
      apply List.flatMap_congr
      intro p hp
      have hx := hcs p hp
      simp only [List.flatMap_cons, List.flatMap_nil, List.append_nil, List.length_cons, words,
        List.map_append, List.map_map, Function.comp_def, List.append_assoc, List.cons_append,
        List.nil_append, Arr.swtBand, hx]
    · intro q hq
      obtain ⟨p, hp, hq⟩ := List.mem_flatMap.mp hq
      simp only [List.mem_cons, List.not_mem_nil, or_false] at hq
      rcases hq with rfl | rfl <;>
      · rw [Arr.shape_along, hcs p hp, list_set_getD]

theorem swtnAxes_err {i : ℕ} {S : List ℕ} (st : List (SStage R))
    (hst : ∀ s ∈ st, s.1 < S.length ∧ s.2.Ok)
    (h : ∃ s ∈ st, ¬ (1 ≤ S.getD s.1 0 ∧ 2 ^ (i + 1) ∣ S.getD s.1 0)) :
    ∀ cs : List (Key × Arr M), cs ≠ [] → (∀ p ∈ cs, p.2.shape = S) →
      swtnAxes (i : ℤ) st cs = .error .value := by
  induction st with
  | nil => simp at h
  | cons s st ih =>
    intro cs hne hcs
    obtain ⟨h1, h2⟩ := hst s (by simp)
    obtain ⟨ax, w⟩ := s
    by_cases hs : 1 ≤ S.getD ax 0 ∧ 2 ^ (i + 1) ∣ S.getD ax 0
    · simp only [swtnAxes]
      rw [swtnStep_ok h2 hcs h1 hs.1 hs.2]
      simp only [Py_bind_ok]
      apply ih (fun s hs => hst s (by simp [hs]))
      · obtain ⟨t, ht, hn⟩ := h
        rcases List.mem_cons.mp ht with rfl | ht
        · exact absurd hs hn
        · exact ⟨t, ht, hn⟩
      · cases cs with
        | nil => exact absurd rfl hne
        | cons p cs => simp
      · intro q hq
        obtain ⟨p, hp, hq⟩ := List.mem_flatMap.mp hq
        simp only [List.mem_cons, List.not_mem_nil, or_false] at hq
        rcases hq with rfl | rfl <;>
        · rw [Arr.shape_along, hcs p hp, list_set_getD]
    · cases cs with
      | nil => exact absurd rfl hne
      | cons p cs =>
        obtain ⟨k, x⟩ := p
        have hx : x.shape = S := hcs (k, x) (by simp)
        simp only [swtnAxes, swtnStep]
        rw [swtOne_err h2 (by rw [hx]; exact h1) (by rw [hx]; exact hs)]
        rfl

theorem swtBand_shape (st : List (SStage R)) (step : ℕ) (k : Key) (x : Arr M) :
    (x.swtBand st step k).shape = x.shape := by
  induction st generalizing k x with
  | nil => cases k <;> rfl
  | cons s st ih =>
    cases k with
    | nil => rfl
    | cons c k => rw [Arr.swtBand, ih, Arr.shape_along, list_set_getD]

theorem swtnApprox_shape (st : List (SStage R)) (m : ℕ) (x : Arr M) (j : ℕ) :
    (swtnApprox st m x j).shape = x.shape := by
  induction j with
  | zero => rfl
  | succ j ih => rw [swtnApprox, swtBand_shape, ih]

theorem swtnLevel_ok {i : ℕ} {st : List (SStage R)} {x : Arr M} (h : SwtnFits st (i + 1) x.shape) :
    swtnAxes (i : ℤ) st [([], x)] = .ok ((words st.length).map fun k => (k, x.swtBand st (2 ^ i) k)) := by
  rw [swtnAxes_ok st h.2 [([], x)] (by simp)]
  simp

theorem SwtnFits.mono {st : List (SStage R)} {L L' : ℕ} {S : List ℕ} (h : SwtnFits st L S) (hl : L' ≤ L) :
    SwtnFits st L' S :=
  ⟨h.1, fun s hs => ⟨(h.2 s hs).1, (h.2 s hs).2.1, (h.2 s hs).2.2.1,
    (pow_dvd_pow 2 hl).trans (h.2 s hs).2.2.2⟩⟩

theorem swtnDict_false (st : List (SStage R)) (m : ℕ) (x : Arr M) (j : ℕ) :
    swtnDict st m false x j = (words st.length).map fun k => (k, swtnBand st m x j k) := by
  simp [swtnDict]

theorem swtnDict_true (st : List (SStage R)) (m : ℕ) (x : Arr M) (j : ℕ) :
    swtnDict st m true x j = (swtnDict st m false x j).filter fun p => p.1 ≠ aKey st.length := by
  unfold swtnDict
  rw [List.filter_map, List.filter_filter]
  congr 2
  funext k
  by_cases h : k = List.replicate st.length 'a' <;> simp [aKey, h]

theorem swtnLoop_ok {st : List (SStage R)} (m : ℕ) (trim : Bool) {x : Arr M} (n : ℕ) :
    ∀ (j : ℕ) (ret : List (ADict M)), SwtnFits st (m + j + n) x.shape →
      swtnLoop st trim n ((m + j : ℕ) : ℤ) (swtnApprox st m x j) ret =
        .ok (ret ++ (List.range n).map fun i => swtnDict st m trim x (j + i), swtnApprox st m x (j + n)) := by
  induction n with
  | zero => intro j ret _; simp [swtnLoop]
  | succ n ih =>
    intro j ret hf
    have hl := swtnLevel_ok (i := m + j) (x := swtnApprox st m x j) (st := st)
      (by rw [swtnApprox_shape]; exact hf.mono (by omega))
    have hlk : lookupKey ((words st.length).map fun k => (k, (swtnApprox st m x j).swtBand st (2 ^ (m + j)) k))
        (aKey st.length) = .ok (swtnApprox st m x (j + 1)) := by
      unfold lookupKey
      rw [lookup_map (aKey_mem_words _)]
      rfl
    have ih' := ih (j + 1) (ret ++ [swtnDict st m trim x j])
      (by rw [show m + (j + 1) + n = m + j + (n + 1) by ring]; exact hf)
    have e : ret ++ (List.range (n + 1)).map (fun i => swtnDict st m trim x (j + i)) =
        ret ++ [swtnDict st m trim x j] ++ (List.range n).map fun i => swtnDict st m trim x (j + 1 + i) := by
      rw [List.range_succ_eq_map]
      simp only [List.append_assoc, List.map_cons, List.map_map, List.cons_append, List.nil_append,
        add_zero]
      congr 2
      apply List.map_congr_left
      intro i _
      simp only [Function.comp, Nat.succ_eq_add_one, show j + 1 + i = j + (i + 1) by ring]
    rw [e, show j + (n + 1) = j + 1 + n by ring, ← ih']
    simp only [swtnLoop, hl, Py_bind_ok, hlk]
    have ei : ((m + j : ℕ) : ℤ) + 1 = ((m + (j + 1) : ℕ) : ℤ) := by push_cast; ring
    rw [ei]
    cases trim with
    | false =>
      simp only [Bool.false_eq_true, if_false]
      rw [swtnDict_false]
      rfl
    | true =>
      simp only [if_true]
      have : ADict.pop ((words st.length).map fun k => (k, (swtnApprox st m x j).swtBand st (2 ^ (m + j)) k))
          (aKey st.length) = .ok (swtnApprox st m x (j + 1), swtnDict st m true x j) := by
        unfold ADict.pop
        rw [lookup_map (aKey_mem_words _), swtnDict_true, swtnDict_false]
        rfl
      rw [this]
      rfl

theorem swtnLoop_err {st : List (SStage R)} (m : ℕ) (trim : Bool) {x : Arr M}
    (hn : (st.map (·.1)).Nodup) (hst : ∀ s ∈ st, s.1 < x.shape.length ∧ s.2.Ok) (n : ℕ) :
    ∀ (j : ℕ) (ret : List (ADict M)), 1 ≤ n →
      (∃ s ∈ st, ¬ (1 ≤ x.shape.getD s.1 0 ∧ 2 ^ (m + j + n) ∣ x.shape.getD s.1 0)) →
      swtnLoop st trim n ((m + j : ℕ) : ℤ) (swtnApprox st m x j) ret = .error .value := by
  induction n with
  | zero => intro j ret h _; omega
  | succ n ih =>
    intro j ret _ hex
    by_cases hc : ∃ s ∈ st, ¬ (1 ≤ x.shape.getD s.1 0 ∧ 2 ^ (m + j + 1) ∣ x.shape.getD s.1 0)
    · simp only [swtnLoop]
      rw [swtnAxes_err (S := x.shape) st hst hc _ (by simp) (by simp [swtnApprox_shape])]
      rfl
    · have hall : ∀ s ∈ st, 1 ≤ x.shape.getD s.1 0 ∧ 2 ^ (m + j + 1) ∣ x.shape.getD s.1 0 := by
        intro s hs
        by_contra h
        exact hc ⟨s, hs, h⟩
      have hn1 : 1 ≤ n := by
        rcases Nat.eq_zero_or_pos n with h | h
        · subst h; exact absurd hex hc
        · exact h
      have hf : SwtnFits st (m + j + 1) x.shape :=
        ⟨hn, fun s hs => ⟨(hst s hs).1, (hst s hs).2, hall s hs⟩⟩
      have h1 := swtnLoop_ok m trim 1 j ret hf
      have hsplit : ∀ d, swtnLoop st trim 1 ((m + j : ℕ) : ℤ) (swtnApprox st m x j) ret = .ok d →
          swtnLoop st trim (n + 1) ((m + j : ℕ) : ℤ) (swtnApprox st m x j) ret =
            swtnLoop st trim n (((m + j : ℕ) : ℤ) + 1) d.2 d.1 := by
        intro d hd
        simp only [swtnLoop] at hd ⊢
        cases he : swtnAxes ((m + j : ℕ) : ℤ) st [([], swtnApprox st m x j)] with
        | error e => rw [he] at hd; simp at hd
        | ok cs =>
          rw [he] at hd
          simp only [Py_bind_ok] at hd ⊢
          cases hk : lookupKey cs (aKey st.length) with
          | error e => rw [hk] at hd; simp at hd
          | ok a =>
            rw [hk] at hd
            simp only [Py_bind_ok] at hd ⊢
            cases trim with
            | false => simp only [Bool.false_eq_true, if_false] at hd ⊢; cases hd; rfl
            | true =>
              simp only [if_true] at hd ⊢
              cases hp : ADict.pop cs (aKey st.length) with
              | error e => rw [hp] at hd; simp at hd
              | ok p => rw [hp] at hd; simp only [Py_bind_ok] at hd ⊢; cases hd; rfl
      rw [hsplit _ h1]
      have ei : ((m + j : ℕ) : ℤ) + 1 = ((m + (j + 1) : ℕ) : ℤ) := by push_cast; ring
      rw [ei]
      apply ih (j + 1) _ hn1
      obtain ⟨s, hs, h⟩ := hex
      exact ⟨s, hs, by rw [show m + (j + 1) + n = m + j + (n + 1) by ring]; exact h⟩

theorem SwtResolves.axes_eq {ndim : ℕ} {wavelet : PerAxis (Wavelet R)} {norm : Option R}
    {axes : Option (List ℤ)} {st : List (SStage R)} (h : SwtResolves ndim wavelet axes norm st) :
    normAxes ndim (axes.getD (rangeAxes ndim)) = (st.map (·.1)).map Int.ofNat := by
  obtain ⟨h1, -⟩ := h
  cases axes with
  | none =>
    simp only at h1
    simp only [Option.getD_none, normAxes, rangeAxes]
    rw [← h1, List.map_map]
    apply List.map_congr_left
    intro s _
    simp only [Function.comp_apply, Int.ofNat_eq_natCast]
    rw [if_neg (by omega)]
  | some l =>
    simp only at h1
    rw [List.map_map]
    exact h1.symm

theorem swtn_unfold {wavelet : PerAxis (Wavelet R)} {axes : Option (List ℤ)} {norm : Option R}
    {st : List (SStage R)} {x : Arr M} (hr : SwtResolves x.ndim wavelet axes norm st)
    (hnd : 1 ≤ x.ndim) (hlt : ∀ s ∈ st, s.1 < x.ndim) (hn : (st.map (·.1)).Nodup) (level start : ℤ)
    (trim : Bool) :
    swtn x wavelet level start axes trim norm =
      (swtnLoop st trim level.toNat start x []).bind fun r =>
        .ok (if trim then .trimmed r.2 r.1.reverse else .dicts r.1.reverse) := by
  unfold swtn
  have e1 : ¬ x.ndim < 1 := by omega
  obtain ⟨ws, hws, hst⟩ := hr.2
  have e2 : ¬ (((st.map (·.1)).map Int.ofNat).any fun a : ℤ => decide (a < 0 ∨ a ≥ x.ndim)) = true := by
    simp only [List.any_eq_true, not_exists, not_and, List.mem_map, decide_eq_true_eq]
    rintro a ⟨n, ⟨s, hs, rfl⟩, rfl⟩
    have := hlt s hs
    simp only [Int.ofNat_eq_natCast]
    omega
  have e3 : ¬ ¬ ((st.map (·.1)).map Int.ofNat).Nodup := by
    rw [not_not]
    exact hn.map Int.ofNat_injective
  have e4 : (((st.map (·.1)).map Int.ofNat).map Int.toNat).zip (ws.map fun w => w.normed norm) = st := by
    rw [← hst, List.map_map, List.map_congr_left (g := id) (by intro a _; simp), List.map_id]
    exact (List.zip_of_prod rfl rfl).symm
  simp only [hr.axes_eq, if_neg e1, if_neg e2, if_neg e3, List.length_map, hws, Py_bind_ok, e4]
  cases swtnLoop st trim level.toNat start x [] with
  | error e => cases trim <;> rfl
  | ok r => cases trim <;> rfl

theorem swtn_ok {wavelet : PerAxis (Wavelet R)} {axes : Option (List ℤ)} {norm : Option R}
    {st : List (SStage R)} {x : Arr M} (hr : SwtResolves x.ndim wavelet axes norm st)
    (hnd : 1 ≤ x.ndim) {l m : ℕ} (hf : SwtnFits st (m + l) x.shape) (trim : Bool) :
    swtn x wavelet (l : ℤ) (m : ℤ) axes trim norm =
      .ok (if trim then .trimmed (swtnApprox st m x l) ((List.range l).map (swtnDict st m true x)).reverse
        else .dicts ((List.range l).map (swtnDict st m false x)).reverse) := by
  rw [swtn_unfold hr hnd (fun s hs => (hf.2 s hs).1) hf.1]
  have := swtnLoop_ok (x := x) m trim l 0 [] (by simpa using hf)
  simp only [add_zero, swtnApprox, zero_add, List.nil_append] at this
  rw [Int.toNat_natCast, this]
  cases trim <;> rfl

theorem swtn_err {wavelet : PerAxis (Wavelet R)} {axes : Option (List ℤ)} {norm : Option R}
    {st : List (SStage R)} {x : Arr M} (hr : SwtResolves x.ndim wavelet axes norm st)
    (hnd : 1 ≤ x.ndim) (hn : (st.map (·.1)).Nodup) (hst : ∀ s ∈ st, s.1 < x.ndim ∧ s.2.Ok) {l m : ℕ}
    (hl : 1 ≤ l) (h : ¬ SwtnFits st (m + l) x.shape) (trim : Bool) :
    swtn x wavelet (l : ℤ) (m : ℤ) axes trim norm = .error .value := by
  rw [swtn_unfold hr hnd (fun s hs => (hst s hs).1) hn]
  have := swtnLoop_err m trim (x := x) hn hst l 0 [] hl (by
    by_contra hc
    push Not at hc
    exact h ⟨hn, fun s hs => ⟨(hst s hs).1, (hst s hs).2, by simpa using hc s hs⟩⟩)
  simp only [add_zero, swtnApprox] at this
  rw [Int.toNat_natCast, this]
  rfl

end Pywt
