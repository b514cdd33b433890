import Verif.Proof.SwtNFwd
import Verif.Proof.Iswt

/-! `iswtn` as a whole. -/

namespace Pywt

open Finset Spec

set_option linter.unusedSectionVars false

variable {R M : Type} [Ring R] [AddCommGroup M] [Module R M]

theorem SwtnFits.step {st : List (SStage R)} {n : ℕ} {S : List ℕ} (h : SwtnFits st (n + 1) S) :
    SwtFits st (2 ^ n) S :=
  ⟨h.1, fun s hs => ⟨(h.2 s hs).1, (h.2 s hs).2.1, (h.2 s hs).2.2.1, by
    rw [← pow_succ']; exact (h.2 s hs).2.2.2⟩⟩

theorem DictOk.filter {d : ADict M} {m : ℕ} {S : List ℕ} (h : DictOk d m S) (P : Key × Arr M → Bool) :
    DictOk (d.filter P) m S :=
  ⟨h.1.sublist (List.filter_sublist.map _), fun p hp => h.2 p (List.mem_filter.mp hp).1⟩

theorem lookup_filter_ne {d : ADict M} {k k' : Key} (h : k ≠ k') :
    (d.filter fun p => p.1 ≠ k').lookup k = d.lookup k := by
  induction d with
  | nil => rfl
  | cons p d ih =>
    obtain ⟨k0, v⟩ := p
    by_cases h0 : k0 = k'
    · subst h0
      rw [List.filter_cons_of_neg (by simp), ih, List.lookup_cons]
      rw [show (k == k0) = false by simpa using h]
    · rw [List.filter_cons_of_pos (by simpa using h0), List.lookup_cons, List.lookup_cons, ih]

theorem bandOf_filter (d : ADict M) (A : Arr M) (m : ℕ) :
    bandOf (d.filter fun p => p.1 ≠ aKey m) A m = bandOf d A m := by
  funext k
  unfold bandOf
  by_cases h : k = List.replicate m 'a'
  · rw [if_pos h, if_pos h]
  · rw [if_neg h, if_neg h, lookup_filter_ne (k' := aKey m) h]

section Inverse
variable [Invertible (2 : R)]

theorem iswtnStep_shape (st : List (SStage R)) (step : ℕ) (band : Key → Arr M) (S : List ℕ) :
    (Arr.iswtnStep st step band S).shape = S := rfl

theorem iswtnCascade_shape (st : List (SStage R)) (ds : List (ADict M)) :
    ∀ A : Arr M, (iswtnCascade st ds A).shape = A.shape := by
  induction ds with
  | nil => intro A; rfl
  | cons d ds ih => intro A; rw [iswtnCascade, ih, iswtnStep_shape]

/-- The caller's dict after a level without `trim_approx`: the approximation has moved to the end. -/
def putBack (m : ℕ) (d : ADict M) : ADict M :=
  match d.lookup (aKey m) with
  | some a => (d.filter fun p => p.1 ≠ aKey m) ++ [(aKey m, a)]
  | none => d

theorem dictSet_new {d : ADict M} {k : Key} (a : Arr M) (h : k ∉ d.map (·.1)) :
    dictSet d k a = d ++ [(k, a)] := by
  induction d with
  | nil => rfl
  | cons p d ih =>
    simp only [List.map_cons, List.mem_cons, not_or] at h
    simp only [dictSet, if_neg (Ne.symm h.1), ih h.2, List.cons_append]

theorem iswtnLoop_trim {st : List (SStage R)} (ds : List (ADict M)) :
    ∀ (done : List (ADict M)) (A : Arr M), SwtnFits st ds.length A.shape →
      (∀ d ∈ ds, DictOk d st.length A.shape ∧ d ≠ []) →
      iswtnLoop true ((st.map (·.1)).map Int.ofNat) (st.map (·.2)) st.length done ds A =
        (.ok (iswtnCascade st ds A), done ++ ds) := by
  induction ds with
  | nil => intro done A _ _; simp [iswtnLoop, iswtnCascade]
  | cons d ds ih =>
    intro done A hf hd
    have hf1 : SwtFits st (2 ^ ds.length) A.shape := SwtnFits.step (by simpa using hf)
    simp only [iswtnLoop, if_true]
    rw [iswtnLevel_ok hf1 (hd d (by simp)).1 (hd d (by simp)).2]
    simp only
    rw [ih _ _ (by rw [iswtnStep_shape]; exact hf.mono (by simp))
      (by rw [iswtnStep_shape]; exact fun d' hd' => hd d' (by simp [hd']))]
    simp [iswtnCascade]

theorem iswtnLoop_dicts {st : List (SStage R)} (ds : List (ADict M)) :
    ∀ (done : List (ADict M)) (A : Arr M), SwtnFits st ds.length A.shape →
      (∀ d ∈ ds, DictOk d st.length A.shape ∧ aKey st.length ∈ d.map (·.1) ∧
        ∃ k ∈ d.map (·.1), k ≠ aKey st.length) →
      iswtnLoop false ((st.map (·.1)).map Int.ofNat) (st.map (·.2)) st.length done ds A =
        (.ok (iswtnCascade st ds A), done ++ ds.map (putBack st.length)) := by
  induction ds with
  | nil => intro done A _ _; simp [iswtnLoop, iswtnCascade]
  | cons d ds ih =>
    intro done A hf hd
    obtain ⟨hd1, hd2, hd3⟩ := hd d (by simp)
    have hf1 : SwtFits st (2 ^ ds.length) A.shape := SwtnFits.step (by simpa using hf)
    obtain ⟨a, ha⟩ : ∃ a, d.lookup (aKey st.length) = some a := by
      cases h : d.lookup (aKey st.length) with
      | some a => exact ⟨a, rfl⟩
      | none =>
        rw [List.lookup_eq_none_iff] at h
        obtain ⟨p, hp, he⟩ := List.mem_map.mp hd2
        have := h p hp
        rw [he] at this
        simp at this
    have hne : (d.filter fun p => p.1 ≠ aKey st.length) ≠ [] := by
      obtain ⟨k, hk, hka⟩ := hd3
      obtain ⟨p, hp, rfl⟩ := List.mem_map.mp hk
      intro h
      rw [List.filter_eq_nil_iff] at h
      exact h p hp (by simpa using hka)
    simp only [iswtnLoop, Bool.false_eq_true, if_false, ADict.pop, ha]
    rw [iswtnLevel_ok hf1 (hd1.filter _) hne]
    simp only
    rw [ih _ _ (by rw [iswtnStep_shape]; exact hf.mono (by simp))
      (by rw [iswtnStep_shape]; exact fun d' hd' => hd d' (by simp [hd'])), bandOf_filter]
    have hp : dictSet (d.filter fun p => p.1 ≠ aKey st.length) (aKey st.length) a = putBack st.length d := by
      rw [dictSet_new, putBack, ha]
      simp
    rw [hp]
    simp [iswtnCascade]

/-! ### The checks before the loop -/

theorem foldl_max_const {l : List ℕ} {m : ℕ} (h : ∀ a ∈ l, a = m) : ∀ b, b ≤ m → l ≠ [] → l.foldl max b = m := by
  induction l with
  | nil => intro b _ h; exact absurd rfl h
  | cons a l ih =>
    intro b hb _
    have ha := h a (by simp)
    simp only [List.foldl_cons]
    rw [ha, max_eq_right hb]
    cases l with
    | nil => rfl
    | cons c l => exact ih (fun a ha => h a (by simp [ha])) m le_rfl (by simp)

theorem maxKeyLen_ok {d : ADict M} {m : ℕ} {S : List ℕ} (hd : DictOk d m S) (hne : d ≠ []) :
    maxKeyLen d = .ok m := by
  cases d with
  | nil => exact absurd rfl hne
  | cons p d =>
    simp only [maxKeyLen]
    rw [foldl_max_const (m := m) _ 0 (Nat.zero_le _) (by simp)]
    intro a ha
    obtain ⟨q, hq, rfl⟩ := List.mem_map.mp ha
    exact (mem_words.mp (hd.2 q hq).1).1

theorem swtnKeyLen_trimmed {a : Arr M} {ds : List (ADict M)} {m : ℕ} {S : List ℕ}
    (hd : ∀ d ∈ ds, DictOk d m S ∧ d ≠ []) (hne : ds ≠ []) : swtnKeyLen (.trimmed a ds) = .ok m := by
  cases ds with
  | nil => exact absurd rfl hne
  | cons d ds =>
    simp only [swtnKeyLen]
    have hm : (d :: ds).getLast?.getD d ∈ d :: ds := by
      rw [List.getLast?_eq_some_getLast (by simp)]
      exact List.getLast_mem _
    exact maxKeyLen_ok (hd _ hm).1 (hd _ hm).2

theorem swtnKeyLen_dicts {ds : List (ADict M)} {m : ℕ} {S : List ℕ}
    (hd : ∀ d ∈ ds, DictOk d m S ∧ d ≠ []) (hne : ds ≠ []) : swtnKeyLen (.dicts ds) = .ok m := by
  cases ds with
  | nil => exact absurd rfl hne
  | cons d ds =>
    simp only [swtnKeyLen]
    have hm : (d :: ds).getLast?.getD d ∈ d :: ds := by
      rw [List.getLast?_eq_some_getLast (by simp)]
      exact List.getLast_mem _
    exact maxKeyLen_ok (hd _ hm).1 (hd _ hm).2

theorem iswtnPrep_ok {c : SwtN M} {A : Arr M} {wavelet : PerAxis (Wavelet R)} {axes : Option (List ℤ)}
    {norm : Option R} {st : List (SStage R)} (hk : swtnKeyLen c = .ok st.length)
    (ha : swtnApprox0 st.length c = .ok A) (hr : SwtResolves A.ndim wavelet axes norm st)
    (hn : (st.map (·.1)).Nodup) :
    iswtnPrep c wavelet axes norm =
      .ok (st.length, A, (st.map (·.1)).map Int.ofNat, st.map (·.2)) := by
  obtain ⟨ws, hws, hst⟩ := hr.2
  have e3 : ¬ ¬ ((st.map (·.1)).map Int.ofNat).Nodup := by
    rw [not_not]
    exact hn.map Int.ofNat_injective
  have e4 : ¬ (st.length ≠ ((st.map (·.1)).map Int.ofNat).length) := by simp
  unfold iswtnPrep
  rw [hk]
  simp only [Py_bind_ok]
  rw [ha]
  simp only [Py_bind_ok]
  rw [hr.axes_eq, if_neg e3, if_neg e4]
  simp only [List.length_map, hws, Py_bind_ok, Py_pure, hst]

theorem iswtn_trimmed {A : Arr M} {ds : List (ADict M)} {wavelet : PerAxis (Wavelet R)}
    {axes : Option (List ℤ)} {norm : Option R} {st : List (SStage R)}
    (hr : SwtResolves A.ndim wavelet axes norm st) (hf : SwtnFits st ds.length A.shape) (hne : ds ≠ [])
    (hd : ∀ d ∈ ds, DictOk d st.length A.shape ∧ d ≠ []) :
    iswtnFull (.trimmed A ds) wavelet axes norm = (.ok (iswtnCascade st ds A), .trimmed A ds) := by
  unfold iswtnFull
  rw [iswtnPrep_ok (swtnKeyLen_trimmed hd hne) rfl hr hf.1]
  simp only
  rw [iswtnLoop_trim ds [] A hf hd]
  rfl

theorem iswtn_dicts {A : Arr M} {d : ADict M} {ds : List (ADict M)} {wavelet : PerAxis (Wavelet R)}
    {axes : Option (List ℤ)} {norm : Option R} {st : List (SStage R)}
    (hA : d.lookup (aKey st.length) = some A)
    (hr : SwtResolves A.ndim wavelet axes norm st) (hf : SwtnFits st (ds.length + 1) A.shape)
    (hd : ∀ e ∈ d :: ds, DictOk e st.length A.shape ∧ aKey st.length ∈ e.map (·.1) ∧
        ∃ k ∈ e.map (·.1), k ≠ aKey st.length) :
    iswtnFull (.dicts (d :: ds)) wavelet axes norm =
      (.ok (iswtnCascade st (d :: ds) A), .dicts ((d :: ds).map (putBack st.length))) := by
  have hd' : ∀ e ∈ d :: ds, DictOk e st.length A.shape ∧ e ≠ [] := by
    intro e he
    refine ⟨(hd e he).1, ?_⟩
    rintro rfl
    exact absurd (hd [] he).2.1 (by simp)
  unfold iswtnFull
  rw [iswtnPrep_ok (A := A) (swtnKeyLen_dicts hd' (by simp))
    (by simp only [swtnApprox0, lookupKey, hA]) hr hf.1]
  simp only
  rw [iswtnLoop_dicts (d :: ds) [] A (by simpa using hf) hd]
  rfl

/-! ### Round trip -/

/-- Forward stages and inverse stages on the same axes whose filters form perfect-reconstruction
banks. -/
def StagesPR (st st' : List (SStage R)) : Prop :=
  List.Forall₂ (fun s s' : SStage R => s.1 = s'.1 ∧ s'.2.Ok ∧
    PR s.2.dec_lo s.2.dec_hi s'.2.rec_lo s'.2.rec_hi ∧ s.2.dec_lo.length = s'.2.rec_len ∧
    s.2.dec_hi.length = s'.2.rec_len) st st'

theorem atrous_inverse {w : Wavelet R} (hw : w.Ok) {dlo dhi : List R}
    (hpr : PR dlo dhi w.rec_lo w.rec_hi) (hl1 : dlo.length = w.rec_len)
    (hl2 : dhi.length = w.rec_len) {a : List M} {s : ℕ} (hd : 2 * s ∣ a.length)
    (ha : 1 ≤ a.length) {n : ℕ} (hn : n < a.length) :
    (atrousInv w.rec_lo s (atrous dlo s a)).getD n 0 + (atrousInv w.rec_hi s (atrous dhi s a)).getD n 0 =
      (2 : ℕ) • a.getD n 0 := by
  have h1 := iswt_level hw hpr hl1 hl2 hd ha
  rw [iswt_level_gen hw (by simpa using hd) (by simpa using ha) (by simp)] at h1
  simp only [Except.ok.injEq] at h1
  have h2 := congrArg (fun l => l.getD n 0) h1
  simp only [iswtStep] at h2
  rw [List.getD_eq_getElem (hn := by simpa [atrousInv] using hn)] at h2
  rw [List.getElem_zipWith] at h2
  rw [← h2, List.getD_eq_getElem (hn := by simpa [atrousInv] using hn),
    List.getD_eq_getElem (hn := by simpa [atrousInv] using hn)]
  rw [← Nat.cast_smul_eq_nsmul R, smul_smul]
  simp

theorem unband_sum {st st' : List (SStage R)} {step : ℕ} {S : List ℕ} (hf : SwtFits st' step S)
    (hpr : StagesPR st st') :
    ∀ x : Arr M, x.shape = S → ∀ idx, InB S idx →
      ((words st'.length).map fun k => nest (ainvOps st' k S step) (x.swtBand st step k).get idx).sum =
        (2 ^ st'.length : ℕ) • x.get idx := by
  induction hpr with
  | nil =>
    intro x hx idx _
    simp [words, ainvOps, nest, Arr.swtBand]
  | @cons s s' st st' h hpr ih =>
    intro x hx idx hidx
    obtain ⟨hax, hw, hPR, hl1, hl2⟩ := h
    have hf' : SwtFits st' step S :=
      ⟨(List.nodup_cons.mp hf.1).2, fun t ht => hf.2 t (by simp [ht])⟩
    obtain ⟨g1, g2, g3, g4⟩ := hf.2 s' (by simp)
    have ih := ih hf'
    have key : ∀ c : Char, ((words st'.length).map fun k =>
        nest (ainvOps (s' :: st') (c :: k) S step) (x.swtBand (s :: st) step (c :: k)).get idx).sum =
        (2 ^ st'.length : ℕ) •
          (atrousInv (s'.2.recFilter c) step (atrous (s.2.decFilter c) step (x.line s'.1 idx))).getD
            (idx s'.1) 0 := by
      intro c
      have hxs : (x.along s.1 (x.shape.getD s.1 0) (atrous (s.2.decFilter c) step)).shape = S := by
        rw [Arr.shape_along, list_set_getD, hx]
      have e1 : ((words st'.length).map fun k =>
          nest (ainvOps (s' :: st') (c :: k) S step) (x.swtBand (s :: st) step (c :: k)).get idx).sum =
          liftAx s'.1 (ainv (s'.2.recFilter c) step (S.getD s'.1 0))
            ((words st'.length).map fun k => nest (ainvOps st' k S step)
              ((x.along s.1 (x.shape.getD s.1 0) (atrous (s.2.decFilter c) step)).swtBand st step k).get).sum
            idx := by
        rw [map_list_sum, List.map_map, ← list_sum_apply]
        rfl
      rw [e1, liftAx_apply]
      have e2 : ainv (s'.2.recFilter c) step (S.getD s'.1 0) (fun j =>
          ((words st'.length).map fun k => nest (ainvOps st' k S step)
              ((x.along s.1 (x.shape.getD s.1 0) (atrous (s.2.decFilter c) step)).swtBand st step k).get).sum
            (Function.update idx s'.1 j)) =
          ainv (s'.2.recFilter c) step (S.getD s'.1 0) ((2 ^ st'.length : ℕ) • fun j =>
            (x.along s.1 (x.shape.getD s.1 0) (atrous (s.2.decFilter c) step)).get
              (Function.update idx s'.1 j)) := by
        apply ainv_local g3
        intro j hj
        rw [list_sum_apply, ih _ hxs]
        · rfl
        · intro k hk
          by_cases hka : k = s'.1
          · subst hka; simpa using hj
          · rw [Function.update_of_ne hka]; exact hidx k hk
      rw [e2, map_nsmul]
      simp only [Pi.smul_apply]
      congr 1
      rw [← atrousInv_getD g3 _ (hidx _ g1)]
      have e3 : (List.range (S.getD s'.1 0)).map (fun j =>
          (x.along s.1 (x.shape.getD s.1 0) (atrous (s.2.decFilter c) step)).get
            (Function.update idx s'.1 j)) = atrous (s.2.decFilter c) step (x.line s'.1 idx) := by
        have h5 := Arr.line_along (x := x) (axis := s.1) (n := x.shape.getD s.1 0)
          (g := atrous (s.2.decFilter c) step) (by rw [hx, hax]; exact g1) (idx := idx) (fun k hk _ => by
            rw [hx] at hk ⊢; exact hidx k hk) (by simp)
        rw [← hax, ← h5]
        conv_rhs => unfold Arr.line
        rw [hxs]
      rw [e3]
    have ew : words (s' :: st').length = (words st'.length).map ('a' :: ·) ++ (words st'.length).map ('d' :: ·) := rfl
    rw [ew, List.map_append, List.sum_append, List.map_map, List.map_map]
    have ka := key 'a'
    have kd := key 'd'
    simp only [Function.comp_def]
    rw [ka, kd, ← nsmul_add]
    have := atrous_inverse hw hPR hl1 hl2 (a := x.line s'.1 idx) (s := step)
      (by rw [Arr.line_length, hx]; exact g4) (by rw [Arr.line_length, hx]; exact g3)
      (n := idx s'.1) (by rw [Arr.line_length, hx]; exact hidx _ g1)
    have hl : (x.line s'.1 idx).getD (idx s'.1) 0 = x.get idx := by
      rw [List.getD_eq_getElem (hn := by rw [Arr.line_length, hx]; exact hidx _ g1), Arr.line_getElem,
        Function.update_eq_self]
    rw [hl] at this
    have e : (atrousInv (s'.2.recFilter 'a') step (atrous (s.2.decFilter 'a') step (x.line s'.1 idx))).getD
            (idx s'.1) 0 + (atrousInv (s'.2.recFilter 'd') step (atrous (s.2.decFilter 'd') step (x.line s'.1 idx))).getD
            (idx s'.1) 0 = (2 : ℕ) • x.get idx := this
    rw [e, smul_smul, List.length_cons, pow_succ]

theorem StagesPR.length {st st' : List (SStage R)} (h : StagesPR st st') : st.length = st'.length :=
  h.length_eq

theorem iswtnStep_band {st st' : List (SStage R)} {step : ℕ} {x : Arr M} (hf : SwtFits st' step x.shape)
    (hpr : StagesPR st st') {band : Key → Arr M}
    (hb : ∀ k ∈ words st'.length, band k = x.swtBand st step k) :
    Arr.iswtnStep st' step band x.shape = x := by
  apply Arr.ext_get (by rfl)
  intro idx hidx
  have hidx' : InB x.shape idx := hidx
  rw [iswtnStep_get hf (fun k hk => by rw [hb k hk, swtBand_shape]) hidx']
  rw [List.map_congr_left fun k hk => by rw [hb k hk], unband_sum hf hpr x rfl idx hidx',
    ← Nat.cast_smul_eq_nsmul R, smul_smul]
  push_cast
  rw [← (Commute.ofNat_right (⅟2 : R) 2).mul_pow, invOf_mul_self, one_pow, one_smul]

omit [Invertible (2 : R)] in
theorem swtnDict_lookup {st : List (SStage R)} {m : ℕ} (trim : Bool) (x : Arr M) (j : ℕ) {k : Key}
    (hk : k ∈ words st.length) (hne : k ≠ aKey st.length) :
    (swtnDict st m trim x j).lookup k = some (swtnBand st m x j k) := by
  unfold swtnDict
  rw [lookup_map]
  rw [List.mem_filter]
  refine ⟨hk, ?_⟩
  have : k ≠ List.replicate st.length 'a' := hne
  simp [this]

/-- The inverse of the forward transform. -/
theorem cascade_roundtrip {st st' : List (SStage R)} (hpr : StagesPR st st') {x : Arr M} (trim : Bool)
    (L : ℕ) (hf : SwtnFits st' L x.shape) :
    iswtnCascade st' ((List.range L).map (swtnDict st 0 trim x)).reverse (swtnApprox st 0 x L) = x := by
  induction L with
  | zero => rfl
  | succ L ih =>
    have hlen := hpr.length
    rw [List.range_succ, List.map_append, List.reverse_append]
    simp only [List.map_cons, List.map_nil, List.reverse_cons, List.reverse_nil, List.nil_append,
      List.cons_append, iswtnCascade, List.length_reverse, List.length_map, List.length_range]
    have hs : (swtnApprox st 0 x (L + 1)).shape = (swtnApprox st 0 x L).shape := by
      rw [swtnApprox_shape, swtnApprox_shape]
    rw [hs, iswtnStep_band (x := swtnApprox st 0 x L) (step := 2 ^ L) (st := st)
      (by rw [swtnApprox_shape]; exact hf.step) hpr, ih (hf.mono (by omega))]
    intro k hk
    unfold bandOf
    split
    · next h =>
      subst h
      rw [swtnApprox, ← hlen, Nat.zero_add]
    · next h =>
      rw [swtnDict_lookup trim x L (by rw [hlen]; exact hk) (by rw [hlen]; exact h)]
      simp [swtnBand]

omit [Invertible (2 : R)] in
theorem swtnDict_keys (st : List (SStage R)) (m : ℕ) (trim : Bool) (x : Arr M) (j : ℕ) :
    (swtnDict st m trim x j).map (·.1) =
      (words st.length).filter fun k => !trim || decide (k ≠ List.replicate st.length 'a') := by
  simp [swtnDict, Function.comp_def]

omit [Invertible (2 : R)] in
theorem swtnDict_ok (st : List (SStage R)) (m : ℕ) (trim : Bool) (x : Arr M) (j : ℕ) :
    DictOk (swtnDict st m trim x j) st.length x.shape := by
  constructor
  · rw [swtnDict_keys]
    exact (words_nodup _).filter _
  · intro p hp
    obtain ⟨k, hk, rfl⟩ := List.mem_map.mp hp
    refine ⟨(List.mem_filter.mp hk).1, ?_⟩
    simp only
    rw [swtnBand, swtBand_shape, swtnApprox_shape]

omit [Invertible (2 : R)] in
/-- The key `d…d`. -/
theorem dKey_mem {n : ℕ} (hn : 1 ≤ n) :
    List.replicate n 'd' ∈ words n ∧ List.replicate n 'd' ≠ List.replicate n 'a' := by
  constructor
  · rw [mem_words]
    simp
  · obtain ⟨n, rfl⟩ : ∃ m, n = m + 1 := ⟨n - 1, by omega⟩
    simp [List.replicate_succ]

theorem swtn_iswtn {wavelet wavelet' : PerAxis (Wavelet R)} {axes axes' : Option (List ℤ)} {norm norm' : Option R}
    {st st' : List (SStage R)} {x : Arr M} (hr : SwtResolves x.ndim wavelet axes norm st)
    (hr' : SwtResolves x.ndim wavelet' axes' norm' st') (hnd : 1 ≤ x.ndim) {l : ℕ} (hl : 1 ≤ l)
    (hf : SwtnFits st l x.shape) (hf' : SwtnFits st' l x.shape) (hst : st ≠ []) (hpr : StagesPR st st')
    (trim : Bool) :
    ∃ r, swtn x wavelet (l : ℤ) 0 axes trim norm = .ok r ∧ iswtn r wavelet' axes' norm' = .ok x := by
  have hlen := hpr.length
  have h1 : 1 ≤ st.length := List.length_pos_iff.mpr hst
  have hfw := swtn_ok (m := 0) (l := l) hr hnd (by simpa using hf) trim
  rw [Nat.cast_zero] at hfw
  refine ⟨_, hfw, ?_⟩
  obtain ⟨d1, d2⟩ := dKey_mem h1
  cases trim with
  | true =>
    simp only [if_true, iswtn]
    rw [iswtn_trimmed (st := st') (by unfold Arr.ndim at hr' ⊢; rw [swtnApprox_shape]; exact hr')
      (by rw [swtnApprox_shape]; simpa using hf')
      (by simp; omega)]
    · simp only
      rw [cascade_roundtrip hpr true l hf']
    · intro d hd
      obtain ⟨j, hj, rfl⟩ := List.mem_map.mp (List.mem_reverse.mp hd)
      refine ⟨by rw [swtnApprox_shape, ← hlen]; exact swtnDict_ok st 0 true x j, ?_⟩
      intro h
      have := congrArg (List.map (·.1)) h
      rw [swtnDict_keys] at this
      simp only [List.map_nil, List.filter_eq_nil_iff] at this
      exact this _ d1 (by simp [d2])
  | false =>
    obtain ⟨l, rfl⟩ : ∃ k, l = k + 1 := ⟨l - 1, by omega⟩
    simp only [Bool.false_eq_true, if_false, iswtn]
    have hrt := cascade_roundtrip (x := x) hpr false (l + 1) hf'
    have hok : ∀ e ∈ ((List.range (l + 1)).map (swtnDict st 0 false x)).reverse,
        DictOk e st'.length (swtnApprox st 0 x (l + 1)).shape ∧ aKey st'.length ∈ e.map (·.1) ∧
        ∃ k ∈ e.map (·.1), k ≠ aKey st'.length := by
      intro d hd
      obtain ⟨j, hj, rfl⟩ := List.mem_map.mp (List.mem_reverse.mp hd)
      rw [swtnApprox_shape, ← hlen, swtnDict_keys]
      refine ⟨swtnDict_ok st 0 false x j, ?_, List.replicate st.length 'd', ?_, d2⟩
      · rw [List.mem_filter]
        exact ⟨aKey_mem_words _, by simp⟩
      · rw [List.mem_filter]
        exact ⟨d1, by simp⟩
    rw [List.range_succ, List.map_append, List.reverse_append] at hrt hok ⊢
    simp only [List.map_cons, List.map_nil, List.reverse_cons, List.reverse_nil, List.nil_append,
      List.cons_append] at hrt hok ⊢
    rw [iswtn_dicts (A := swtnApprox st 0 x (l + 1)) (st := st') _
      (by unfold Arr.ndim at hr' ⊢; rw [swtnApprox_shape]; exact hr')
      (by rw [swtnApprox_shape]; simpa using hf') hok]
    · simp only
      rw [hrt]
    · rw [← hlen, swtnDict_false, lookup_map (aKey_mem_words _)]
      simp [swtnBand, swtnApprox, aKey]

end Inverse

end Pywt
