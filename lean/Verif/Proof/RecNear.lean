import Verif.Props.NearStages
import Verif.Props.Adjoint
import Verif.Proof.SwtNAdjoint
import Verif.Proof.EditN

/-!
# Proofs for C81
-/

namespace Pywt

open Finset Spec

set_option autoImplicit false
set_option linter.unusedSectionVars false

/-! ### Coefficients as one list -/

/-- The entries of all arrays of `[A] + ds`, one after the other. -/
def flatC (A : Arr ℝ) (ds : List (List (Key × Arr ℝ))) : List ℝ :=
  A.data ++ (ds.map fun d => (d.map fun p => p.2.data).flatten).flatten

theorem energy_app (u v : List ℝ) : energy (u ++ v) = energy u + energy v := by
  unfold energy
  rw [List.map_append, List.sum_append]

theorem energy_flatten (us : List (List ℝ)) : energy us.flatten = (us.map energy).sum := by
  induction us with
  | nil => simp [energy]
  | cons u us ih => rw [List.flatten_cons, energy_app, ih, List.map_cons, List.sum_cons]

theorem energy_flatC (A : Arr ℝ) (ds : List (List (Key × Arr ℝ))) :
    energy (flatC A ds) = energy A.data + (ds.map fun d => (d.map fun p => energy p.2.data).sum).sum := by
  unfold flatC
  rw [energy_app, energy_flatten, List.map_map]
  congr 2
  refine List.map_congr_left fun d _ => ?_
  rw [Function.comp_apply, energy_flatten, List.map_map]
  rfl

theorem arr_len {a b : Arr ℝ} (h : a.shape = b.shape) : a.data.length = b.data.length := by
  rw [a.ok, b.ok, h]

/-- A way of combining two lists that respects concatenation respects the arrays. -/
theorem zip_flatD {γ : Type} (f : ℝ → ℝ → γ) : ∀ {d e : List (Key × Arr ℝ)}, dictShape d = dictShape e →
    List.zipWith f (d.map fun p => p.2.data).flatten (e.map fun p => p.2.data).flatten =
      (List.zipWith (fun p q : Key × Arr ℝ => List.zipWith f p.2.data q.2.data) d e).flatten ∧
    (d.map fun p => p.2.data).flatten.length = (e.map fun p => p.2.data).flatten.length
  | [], [], _ => by simp
  | [], _ :: _, h => by simp [dictShape] at h
  | _ :: _, [], h => by simp [dictShape] at h
  | p :: d, q :: e, h => by
      simp only [dictShape, List.map_cons, List.cons.injEq, Prod.mk.injEq] at h
      have ih := zip_flatD f (d := d) (e := e) h.2
      have hl := arr_len h.1.2
      simp only [List.map_cons, List.flatten_cons, List.zipWith_cons_cons, List.length_append]
      rw [List.zipWith_append hl, ih.1, ih.2, hl]
      exact ⟨rfl, rfl⟩

theorem zip_flatDs {γ : Type} (f : ℝ → ℝ → γ) : ∀ {ds es : List (List (Key × Arr ℝ))}, ds.map dictShape = es.map dictShape →
    List.zipWith f (ds.map fun d => (d.map fun p => p.2.data).flatten).flatten
        (es.map fun d => (d.map fun p => p.2.data).flatten).flatten =
      (List.zipWith (fun d e => (List.zipWith (fun p q : Key × Arr ℝ => List.zipWith f p.2.data q.2.data) d e).flatten)
        ds es).flatten ∧
    (ds.map fun d => (d.map fun p => p.2.data).flatten).flatten.length =
      (es.map fun d => (d.map fun p => p.2.data).flatten).flatten.length
  | [], [], _ => by simp
  | [], _ :: _, h => by simp at h
  | _ :: _, [], h => by simp at h
  | d :: ds, e :: es, h => by
      simp only [List.map_cons, List.cons.injEq] at h
      have ih := zip_flatDs f (ds := ds) (es := es) h.2
      have h1 := zip_flatD f h.1
      simp only [List.map_cons, List.flatten_cons, List.zipWith_cons_cons, List.length_append]
      rw [List.zipWith_append h1.2, ih.1, ih.2, h1.1, h1.2]
      exact ⟨rfl, rfl⟩

theorem zip_flatC {γ : Type} (f : ℝ → ℝ → γ) {A B : Arr ℝ} {ds es : List (List (Key × Arr ℝ))} (hA : A.shape = B.shape)
    (h : ds.map dictShape = es.map dictShape) :
    List.zipWith f (flatC A ds) (flatC B es) = List.zipWith f A.data B.data ++
      (List.zipWith (fun d e => (List.zipWith (fun p q : Key × Arr ℝ => List.zipWith f p.2.data q.2.data) d e).flatten)
        ds es).flatten ∧ (flatC A ds).length = (flatC B es).length := by
  unfold flatC
  have h1 := zip_flatDs f h
  rw [List.zipWith_append (arr_len hA), h1.1, List.length_append, List.length_append, h1.2, arr_len hA]
  exact ⟨rfl, rfl⟩

theorem sum_flatten_zip (us : List (List ℝ)) : us.flatten.sum = (us.map List.sum).sum := by
  induction us with
  | nil => rfl
  | cons u us ih => rw [List.flatten_cons, List.sum_append, ih, List.map_cons, List.sum_cons]

theorem sum_zip_flatC (f : ℝ → ℝ → ℝ) {A B : Arr ℝ} {ds es : List (List (Key × Arr ℝ))} (hA : A.shape = B.shape)
    (h : ds.map dictShape = es.map dictShape) :
    (List.zipWith f (flatC A ds) (flatC B es)).sum = (List.zipWith f A.data B.data).sum +
      (List.zipWith (fun d e => (List.zipWith (fun p q : Key × Arr ℝ => (List.zipWith f p.2.data q.2.data).sum) d e).sum)
        ds es).sum := by
  rw [(zip_flatC f hA h).1, List.sum_append, sum_flatten_zip, List.map_zipWith]
  simp only [sum_flatten_zip, List.map_zipWith]

theorem dist2_flatC {A B : Arr ℝ} {ds es : List (List (Key × Arr ℝ))} (hA : A.shape = B.shape)
    (h : ds.map dictShape = es.map dictShape) :
    dist2 (flatC A ds) (flatC B es) = Spec.Arr.dist2 A B + dist2D ds es := by
  unfold dist2 Spec.Arr.dist2 dist2D
  rw [sum_zip_flatC _ hA h]
  rfl

theorem dictProd_data : ∀ {d e : List (Key × Arr ℝ)}, dictShape d = dictShape e →
    dictProd d e = (List.zipWith (fun p q : Key × Arr ℝ => (List.zipWith (· * ·) p.2.data q.2.data).sum) d e).sum
  | [], [], _ => by simp [dictProd]
  | [], _ :: _, h => by simp [dictShape] at h
  | _ :: _, [], h => by simp [dictShape] at h
  | p :: d, q :: e, h => by
      simp only [dictShape, List.map_cons, List.cons.injEq, Prod.mk.injEq] at h
      have ih := dictProd_data (d := d) (e := e) h.2
      unfold dictProd at *
      simp only [List.zipWith_cons_cons, List.sum_cons]
      rw [ih, Arr.sprod_data h.1.2.symm]
      rfl

theorem dictProds_data : ∀ {ds es : List (List (Key × Arr ℝ))}, ds.map dictShape = es.map dictShape →
    (List.zipWith dictProd ds es).sum = (List.zipWith (fun d e =>
      (List.zipWith (fun p q : Key × Arr ℝ => (List.zipWith (· * ·) p.2.data q.2.data).sum) d e).sum) ds es).sum
  | [], [], _ => by simp
  | [], _ :: _, h => by simp at h
  | _ :: _, [], h => by simp at h
  | d :: ds, e :: es, h => by
      simp only [List.map_cons, List.cons.injEq] at h
      have ih := dictProds_data (ds := ds) (es := es) h.2
      simp only [List.zipWith_cons_cons, List.sum_cons]
      rw [ih, dictProd_data h.1]

theorem sprod_flatC {A B : Arr ℝ} {ds es : List (List (Key × Arr ℝ))} (hA : A.shape = B.shape)
    (h : ds.map dictShape = es.map dictShape) :
    sprod (flatC A ds) (flatC B es) = A.sprod B + (List.zipWith dictProd ds es).sum := by
  unfold sprod
  rw [sum_zip_flatC _ hA h, dictProds_data h, Arr.sprod_data hA.symm]
  rfl

theorem lincomb_data (p q : ℝ) {a b : Arr ℝ} (h : a.shape = b.shape) :
    (Arr.lincomb p q a b).data = List.zipWith (fun u v => p * u + q * v) a.data b.data := by
  have e1 := congrArg Arr.data (Arr.pair_lc p q a b)
  have e2 := congrArg Arr.data (Arr.pair_fst (R := ℝ) a b)
  have e3 := congrArg Arr.data (Arr.pair_snd (R := ℝ) h)
  rw [← e1, ← e2, ← e3]
  show ((Arr.pair a b).data.map _) = List.zipWith _ ((Arr.pair a b).data.map _) ((Arr.pair a b).data.map _)
  rw [List.zipWith_map, List.zipWith_self]
  rfl

theorem lincombDs_data (p q : ℝ) : ∀ {ds es : List (List (Key × Arr ℝ))}, ds.map dictShape = es.map dictShape →
    ((List.zipWith (lincombD p q) ds es).map fun d => (d.map fun u => u.2.data).flatten) =
      List.zipWith (fun d e => (List.zipWith (fun u v : Key × Arr ℝ =>
        List.zipWith (fun a b => p * a + q * b) u.2.data v.2.data) d e).flatten) ds es
  | [], [], _ => by simp
  | [], _ :: _, h => by simp at h
  | _ :: _, [], h => by simp at h
  | d :: ds, e :: es, h => by
      simp only [List.map_cons, List.cons.injEq] at h
      simp only [List.zipWith_cons_cons, List.map_cons, lincombDs_data p q h.2]
      congr 2
      have : ∀ {d e : List (Key × Arr ℝ)}, dictShape d = dictShape e → ((lincombD p q d e).map fun u => u.2.data) =
          List.zipWith (fun u v : Key × Arr ℝ => List.zipWith (fun a b => p * a + q * b) u.2.data v.2.data) d e := by
        intro d
        induction d with
        | nil => intro e _; simp [lincombD]
        | cons u d ih =>
          intro e h
          cases e with
          | nil => simp [lincombD]
          | cons v e =>
            simp only [dictShape, List.map_cons, List.cons.injEq, Prod.mk.injEq] at h
            have i := ih (e := e) h.2
            unfold lincombD at *
            simp only [List.zipWith_cons_cons, List.map_cons, i, lincomb_data p q h.1.2]
      exact this h.1

theorem flatC_lincomb (p q : ℝ) {A B : Arr ℝ} {ds es : List (List (Key × Arr ℝ))} (hA : A.shape = B.shape)
    (h : ds.map dictShape = es.map dictShape) :
    flatC (Arr.lincomb p q A B) (List.zipWith (lincombD p q) ds es) =
      List.zipWith (fun a b => p * a + q * b) (flatC A ds) (flatC B es) := by
  rw [(zip_flatC _ hA h).1]
  unfold flatC
  rw [lincomb_data p q hA, lincombDs_data p q h]

/-! ### Energy of combinations -/

theorem energy_lin (p q : ℝ) : ∀ {u v : List ℝ}, u.length = v.length →
    energy (List.zipWith (fun a b => p * a + q * b) u v) = p ^ 2 * energy u + 2 * (p * q) * sprod u v + q ^ 2 * energy v
  | [], [], _ => by simp [energy, sprod]
  | [], _ :: _, h => by simp at h
  | _ :: _, [], h => by simp at h
  | a :: u, b :: v, h => by
      have ih := energy_lin p q (u := u) (v := v) (by simpa using h)
      unfold energy sprod at *
      simp only [List.zipWith_cons_cons, List.sum_cons, List.map_cons]
      rw [ih]
      ring

theorem sprod_sub_right {u v w : List ℝ} (h1 : v.length = u.length) (h2 : w.length = u.length) :
    (sprod u v - sprod u w) ^ 2 ≤ energy u * dist2 v w := by
  rw [dist2_sum (h2.trans h1.symm), energy_sum, sprod_eq, sprod_eq, h1, ← sum_sub_distrib]
  have := cauchy u.length (fun n => u.getD n 0) (fun n => v.getD n 0 - w.getD n 0)
  refine le_trans (le_of_eq ?_) this
  congr 1
  exact sum_congr rfl fun n _ => by ring

/-- Polarization: a bound for the change of the energies is a bound for the change of the products. -/
theorem polar {X Z P U V Q δ : ℝ} (hU : ∀ t : ℝ, |(U + 2 * t * Q + t ^ 2 * V) - (X + 2 * t * P + t ^ 2 * Z)| ≤
    δ * (X + 2 * t * P + t ^ 2 * Z)) : (Q - P) ^ 2 ≤ δ ^ 2 * (X * Z) := by
  have h : ∀ t : ℝ, 0 ≤ δ * Z * (t * t) + -(2 * (Q - P)) * t + δ * X := by
    intro t
    have h1 := (abs_le.mp (hU t)).2
    have h2 := (abs_le.mp (hU (-t))).1
    nlinarith
  have := discrim_le_zero h
  unfold discrim at this
  nlinarith

/-! ### Synthesis -/

theorem Spec.NearStages.adj {ε : ℝ} {st : List (Stage ℝ)} {shape : List ℕ} {l : ℕ} (h : NearStages ε st shape (2 ^ l)) :
    StagesAdj l st shape :=
  ⟨h.1, fun s hs => ⟨(h.2 s hs).2.2.1, (h.2 s hs).2.1.1, (h.2 s hs).2.2.2.1, .inr ⟨(h.2 s hs).1, (h.2 s hs).2.2.2.2⟩⟩⟩

theorem inverse_of_near {ε : ℝ} {w : Wavelet ℝ} (h : NearOrthogonal ε w) : w.inverse = w := by
  obtain ⟨-, h1, h2, -⟩ := h
  unfold Wavelet.inverse
  rw [h1, h2, List.reverse_reverse, List.reverse_reverse, ← h1, ← h2]

theorem invStages_near {ε : ℝ} {st : List (Stage ℝ)} {shape : List ℕ} {m : ℕ} (h : NearStages ε st shape m) :
    invStages st = st := by
  unfold invStages
  conv_rhs => rw [← List.map_id st]
  exact List.map_congr_left fun s hs => by rw [inverse_of_near (h.2 s hs).2.1]; rfl

theorem perAxis_inverse_near {ε : ℝ} {st : List (Stage ℝ)} {shape : List ℕ} {m : ℕ} (h : NearStages ε st shape m)
    (hne : st ≠ []) {n : ℕ} {wavelet : PerAxis (Wavelet ℝ)} {mode : PerAxis Mode} {axes : Option (List ℤ)}
    (hr : Resolves n wavelet mode axes st) : wavelet.inverse = wavelet := by
  have hall : ∀ w ∈ given wavelet, w.inverse = w := by
    intro w hw
    obtain ⟨v, hv, e⟩ := (expand_exists hr.2.1 (fun v => v = w)).mpr ⟨by simpa using hne, w, hw, rfl⟩
    subst e
    obtain ⟨s, hs, rfl⟩ := List.mem_map.mp hv
    exact inverse_of_near (h.2 s hs).2.1
  cases wavelet with
  | one w => exact congrArg PerAxis.one (hall w (by simp [given]))
  | many ws =>
    refine congrArg PerAxis.many ?_
    conv_rhs => rw [← List.map_id ws]
    exact List.map_congr_left fun w hw => hall w (by simpa [given] using hw)

theorem waverecnCascade_doubling {st : List (Stage ℝ)} : ∀ {ds : List (List (Key × Arr ℝ))} {A : Arr ℝ},
    DoublingDicts st ds A.shape → (waverecnCascade st ds A).shape = (synthShape st)^[ds.length] A.shape
  | [], _, _ => rfl
  | d :: ds, A, h => by
      obtain ⟨-, h2, h3⟩ := h
      rw [waverecnCascade, detailShape_eq h2, List.length_cons, Function.iterate_succ_apply]
      exact waverecnCascade_doubling (ds := ds) (A := Arr.idwtnStep st _ A.shape) h3

/-- Synthesis from edited coefficients: the shape of the result and its products with any array. -/
theorem waverecn_near {ε : ℝ} {st : List (Stage ℝ)} (hne : st ≠ []) {x : Arr ℝ} {wavelet : PerAxis (Wavelet ℝ)}
    {mode : PerAxis Mode} {axes : Option (List ℤ)} {l : ℕ} (hr : Resolves x.ndim wavelet mode axes st)
    (hst : NearStages ε st x.shape (2 ^ l)) {A B : Arr ℝ} {ds es : List (List (Key × Arr ℝ))}
    (hx : wavedecn x wavelet mode (some (l : ℤ)) axes = .ok (.arr A :: ds.map Item.ofDict))
    (hB : B.shape = A.shape) (hes : layout es = layout ds) :
    ∃ y, waverecn (.arr B :: es.map Item.ofDict) wavelet mode axes = .ok (.arr y) ∧ y.shape = x.shape ∧
      ∀ {z C : Arr ℝ} {fs : List (List (Key × Arr ℝ))}, z.shape = x.shape →
        wavedecn z wavelet mode (some (l : ℤ)) axes = .ok (.arr C :: fs.map Item.ofDict) →
        C.shape = B.shape ∧ layout fs = layout es ∧ sprod (flatC C fs) (flatC B es) = sprod z.data y.data := by
  have hinv := perAxis_inverse_near hst hne hr
  obtain ⟨y, y1, -, -, -⟩ := C71_wavedecn_adjoint hne hr hst.adj hx hB hes
  rw [hinv] at y1
  have hsh : y.shape = x.shape := by
    have hx' := hx
    rw [C20_wavedecn_explicit_level hne hr (fun s hs => ⟨(hst.2 s hs).2.2.1, (hst.2 s hs).2.1.1⟩) hst.1, if_neg (by omega),
      Int.toNat_natCast] at hx'
    split at hx'
    swap
    · simp at hx'
    simp only [Except.ok.injEq, Arr.cascadeN, List.cons.injEq, Item.arr.injEq] at hx'
    obtain ⟨rfl, hx'⟩ := hx'
    have hds : ds = ((List.range l).map fun j => x.detailsN st j).reverse := by
      refine map_ofDict_inj ?_
      rw [← hx', List.map_reverse, List.map_map]
      rfl
    obtain ⟨g1, g2⟩ := doubling_cascadeN (x := x) hne hst.1 (k := l) fun s hs =>
      ⟨(hst.2 s hs).1, (hst.2 s hs).2.2.1, (hst.2 s hs).2.2.2.2⟩
    rw [← hds] at g1
    have g3 := doublingDicts_layout hes g1
    rw [← hB] at g3
    have hlen : es.length = l := by
      rw [← layout_length hes, hds]
      simp
    have hBs : B.shape = (decShape st)^[l] x.shape := hB.trans (Arr.shape_approxN _ _ _)
    obtain ⟨f1, -, -⟩ := waverecnCascade_adjoint hne (x := x) l B es (fun j hj => hst.adj.level hj)
      (by rw [hBs]; exact ⟨rfl, fun _ _ => .inl rfl⟩) (by
        have : es.map dictShape = ds.map dictShape := hes
        rw [this, hds, List.map_reverse, List.map_map]; rfl)
    rw [invStages_near hst] at f1
    have hBd : B.ndim = x.ndim := (congrArg List.length hB).trans (Arr.approxN_ndim st l x)
    have := waverecn_values (A := B) (ds := es) (by rw [hBd]; exact hr) f1 (by
      intro d hd
      cases es with
      | nil => simp at hd
      | cons e es =>
        simp only [List.head?_cons, Option.mem_def, Option.some.injEq] at hd
        subst hd
        exact detailShape_eq g3.2.1)
    rw [this] at y1
    simp only [Except.ok.injEq, Item.arr.injEq] at y1
    rw [← y1, waverecnCascade_doubling g3, hlen, hB, g2]
  refine ⟨y, y1, hsh, ?_⟩
  intro z C fs hz hzd
  have hzn : x.ndim = z.ndim := by unfold Arr.ndim; rw [hz]
  obtain ⟨A', ds', C', fs', c1, c2, c3, c4, -⟩ := C51_wavedecn_linear (x := x) (y := z) hne hr
    (fun s hs => ⟨(hst.2 s hs).2.2.1, (hst.2 s hs).2.1.1⟩) hst.1 hz.symm hx (1 : ℝ) (-1)
  simp only [List.cons.injEq, Item.arr.injEq] at c1
  obtain ⟨rfl, c1⟩ := c1
  obtain rfl := map_ofDict_inj c1
  rw [hzd] at c2
  simp only [Except.ok.injEq, List.cons.injEq, Item.arr.injEq] at c2
  obtain ⟨rfl, c2⟩ := c2
  obtain rfl := map_ofDict_inj c2
  have hCB : C.shape = B.shape := (hB.trans c3).symm
  have hfe : layout fs = layout es := (hes.trans c4).symm
  refine ⟨hCB, hfe, ?_⟩
  obtain ⟨y', z1, -, -, z4⟩ := C71_wavedecn_adjoint hne (hzn ▸ hr) (hz.symm ▸ hst.adj) hzd hCB.symm hfe.symm
  rw [hinv, y1] at z1
  simp only [Except.ok.injEq, Item.arr.injEq] at z1
  subst z1
  rw [sprod_flatC hCB hfe, z4, Arr.sprod_data (hsh.trans hz.symm)]

theorem sprod_cs {u v : List ℝ} (h : v.length = u.length) : sprod u v ^ 2 ≤ energy u * energy v := by
  rw [sprod_eq, energy_sum, energy_sum, h]
  exact cauchy _ _ _

theorem le_of_sq_le_mul {a b : ℝ} (ha : 0 ≤ a) (hb : 0 ≤ b) (h : a ^ 2 ≤ b * a) : a ≤ b := by
  rcases ha.eq_or_lt with e | e
  · rw [← e]; exact hb
  · nlinarith

/-- The energy of the synthesis. -/
theorem waverecn_near_energy {ε : ℝ} (h0 : 0 ≤ ε) (hε : ε ≤ 1) {st : List (Stage ℝ)} (hne : st ≠ []) {x : Arr ℝ}
    {wavelet : PerAxis (Wavelet ℝ)} {mode : PerAxis Mode} {axes : Option (List ℤ)} {l : ℕ}
    (hr : Resolves x.ndim wavelet mode axes st) (hst : NearStages ε st x.shape (2 ^ l)) {A B : Arr ℝ}
    {ds es : List (List (Key × Arr ℝ))}
    (hx : wavedecn x wavelet mode (some (l : ℤ)) axes = .ok (.arr A :: ds.map Item.ofDict))
    (hB : B.shape = A.shape) (hes : layout es = layout ds) :
    ∃ y, waverecn (.arr B :: es.map Item.ofDict) wavelet mode axes = .ok (.arr y) ∧ y.shape = x.shape ∧
      energy y.data ≤ (1 + ε) ^ (st.length * l) * energy (flatC B es) := by
  obtain ⟨y, y1, y2, y3⟩ := waverecn_near hne hr hst hx hB hes
  refine ⟨y, y1, y2, ?_⟩
  have hn : x.ndim = y.ndim := by unfold Arr.ndim; rw [y2]
  obtain ⟨C, fs, c1, -, -, c4⟩ := C79_wavedecn_energy h0 hε hne (hn ▸ hr) (y2.symm ▸ hst)
  obtain ⟨d1, d2, d3⟩ := y3 y2 c1
  rw [← energy_flatC] at c4
  rw [sprod_self] at d3
  have hcs := sprod_cs (u := flatC C fs) (v := flatC B es) ((zip_flatC (· * ·) d1 d2).2).symm
  rw [d3] at hcs
  refine le_of_sq_le_mul (energy_nonneg _) (mul_nonneg (by positivity) (energy_nonneg _)) (hcs.trans ?_)
  calc _ ≤ (1 + ε) ^ (st.length * l) * energy y.data * energy (flatC B es) :=
        mul_le_mul_of_nonneg_right c4 (energy_nonneg _)
    _ = _ := by ring

theorem two_le_pow_sum {ε : ℝ} (h0 : 0 ≤ ε) (hε : ε ≤ 1) (m : ℕ) : 2 ≤ (1 - ε) ^ m + (1 + ε) ^ m := by
  have h1 := one_add_mul_le_pow (a := -ε) (by linarith) m
  have h2 := one_add_mul_le_pow (a := ε) (by linarith) m
  rw [show 1 - ε = 1 + -ε by ring]
  linarith

/-- The products of the coefficients of two arrays are nearly those of the arrays. -/
theorem wavedecn_near_products {ε : ℝ} (h0 : 0 ≤ ε) (hε : ε ≤ 1) {st : List (Stage ℝ)} (hne : st ≠ []) {x z : Arr ℝ}
    {wavelet : PerAxis (Wavelet ℝ)} {mode : PerAxis Mode} {axes : Option (List ℤ)} {l : ℕ}
    (hr : Resolves x.ndim wavelet mode axes st) (hst : NearStages ε st x.shape (2 ^ l)) (hz : z.shape = x.shape)
    {A C : Arr ℝ} {ds fs : List (List (Key × Arr ℝ))}
    (hx : wavedecn x wavelet mode (some (l : ℤ)) axes = .ok (.arr A :: ds.map Item.ofDict))
    (hzd : wavedecn z wavelet mode (some (l : ℤ)) axes = .ok (.arr C :: fs.map Item.ofDict)) :
    (sprod (flatC A ds) (flatC C fs) - sprod x.data z.data) ^ 2 ≤
      ((1 + ε) ^ (st.length * l) - 1) ^ 2 * (energy x.data * energy z.data) := by
  refine polar (U := energy (flatC A ds)) (V := energy (flatC C fs)) fun t => ?_
  obtain ⟨A', ds', C', fs', c1, c2, c3, c4, c5⟩ := C51_wavedecn_linear (x := x) (y := z) hne hr
    (fun s hs => ⟨(hst.2 s hs).2.2.1, (hst.2 s hs).2.1.1⟩) hst.1 hz.symm hx (1 : ℝ) t
  simp only [List.cons.injEq, Item.arr.injEq] at c1
  obtain ⟨rfl, c1⟩ := c1
  obtain rfl := map_ofDict_inj c1
  rw [hzd] at c2
  simp only [Except.ok.injEq, List.cons.injEq, Item.arr.injEq] at c2
  obtain ⟨rfl, c2⟩ := c2
  obtain rfl := map_ofDict_inj c2
  have hs : (Arr.lincomb (1 : ℝ) t x z).shape = x.shape := rfl
  obtain ⟨D, gs, d1, -, d3, d4⟩ := C79_wavedecn_energy (x := Arr.lincomb (1 : ℝ) t x z) h0 hε hne hr hst
  rw [c5] at d1
  simp only [Except.ok.injEq, List.cons.injEq, Item.arr.injEq] at d1
  obtain ⟨rfl, d1⟩ := d1
  obtain rfl := map_ofDict_inj d1
  rw [← energy_flatC, flatC_lincomb _ _ c3 c4, energy_lin _ _ (zip_flatC (· * ·) c3 c4).2, lincomb_data _ _ hz.symm,
    energy_lin _ _ (arr_len hz.symm)] at d3 d4
  have hE := energy_nonneg (List.zipWith (fun a b => 1 * a + t * b) x.data z.data)
  rw [energy_lin _ _ (arr_len hz.symm)] at hE
  have h2 := two_le_pow_sum h0 hε (st.length * l)
  have e : ∀ a b c : ℝ, a + 2 * t * b + t ^ 2 * c = 1 ^ 2 * a + 2 * (1 * t) * b + t ^ 2 * c := fun a b c => by ring
  rw [e, e, abs_le]
  set E := 1 ^ 2 * energy x.data + 2 * (1 * t) * sprod x.data z.data + t ^ 2 * energy z.data
  have h3 := mul_le_mul_of_nonneg_right h2 hE
  constructor <;> linarith

theorem sprod_diff {x y : List ℝ} (h : y.length = x.length) :
    sprod (List.zipWith (fun a b => 1 * a + -1 * b) y x) y - sprod (List.zipWith (fun a b => 1 * a + -1 * b) y x) x =
      dist2 y x := by
  induction y generalizing x with
  | nil => simp [sprod, dist2]
  | cons b y ih =>
    cases x with
    | nil => simp at h
    | cons a x =>
      have i := ih (x := x) (by simpa using h)
      unfold sprod dist2 at *
      simp only [List.zipWith_cons_cons, List.sum_cons]
      linear_combination i

/-- The error of the synthesis from edited coefficients. -/
theorem waverecn_near_edit {ε : ℝ} (h0 : 0 ≤ ε) (hε : ε ≤ 1) {st : List (Stage ℝ)} (hne : st ≠ []) {x : Arr ℝ}
    {wavelet : PerAxis (Wavelet ℝ)} {mode : PerAxis Mode} {axes : Option (List ℤ)} {l : ℕ}
    (hr : Resolves x.ndim wavelet mode axes st) (hst : NearStages ε st x.shape (2 ^ l)) {A B : Arr ℝ}
    {ds es : List (List (Key × Arr ℝ))}
    (hx : wavedecn x wavelet mode (some (l : ℤ)) axes = .ok (.arr A :: ds.map Item.ofDict))
    (hB : B.shape = A.shape) (hes : layout es = layout ds) :
    ∃ y, waverecn (.arr B :: es.map Item.ofDict) wavelet mode axes = .ok (.arr y) ∧ y.shape = x.shape ∧
      √(dist2 y.data x.data) ≤ √((1 + ε) ^ (st.length * l)) * √(dist2 (flatC B es) (flatC A ds)) +
        ((1 + ε) ^ (st.length * l) - 1) * √(energy x.data) := by
  obtain ⟨y, y1, y2, y3⟩ := waverecn_near hne hr hst hx hB hes
  refine ⟨y, y1, y2, ?_⟩
  set K := (1 + ε) ^ (st.length * l) with hK
  have hK1 : 1 ≤ K := one_le_pow₀ (by linarith)
  set r := Arr.lincomb (1 : ℝ) (-1) y x with hrd
  have hrs : r.shape = x.shape := y2
  have hn : x.ndim = r.ndim := by unfold Arr.ndim; rw [hrs]
  obtain ⟨C, fs, c1, -, -, c4⟩ := C79_wavedecn_energy h0 hε hne (hn ▸ hr) (hrs.symm ▸ hst)
  rw [← energy_flatC, ← hK] at c4
  obtain ⟨d1, d2, d3⟩ := y3 hrs c1
  have p1 := wavedecn_near_products h0 hε hne hr hst hrs hx c1
  rw [← hK] at p1
  have hdat : r.data = List.zipWith (fun a b => 1 * a + -1 * b) y.data x.data := lincomb_data _ _ y2
  have e1 := sprod_diff (arr_len y2)
  rw [← hdat] at e1
  have e2 : energy r.data = dist2 y.data x.data := by
    rw [hdat, energy_lin _ _ (arr_len y2), dist2_expand (arr_len y2)]
    ring
  have p2 := sprod_sub_right (u := flatC C fs) (v := flatC B es) (w := flatC A ds)
    ((zip_flatC (· * ·) d1 d2).2).symm ((zip_flatC (· * ·) (d1.trans hB) (d2.trans hes)).2).symm
  have hD : 0 ≤ dist2 (flatC B es) (flatC A ds) := by
    rw [dist2_sum ((zip_flatC (· * ·) hB hes).2).symm]
    exact sum_nonneg fun _ _ => mul_self_nonneg _
  have hR := energy_nonneg r.data
  have hX := energy_nonneg x.data
  set D := dist2 (flatC B es) (flatC A ds)
  rw [← e2]
  have q1 : sprod (flatC C fs) (flatC B es) - sprod (flatC C fs) (flatC A ds) ≤ √K * √D * √(energy r.data) := by
    rw [← Real.sqrt_mul (by linarith), ← Real.sqrt_mul (by positivity)]
    refine Real.le_sqrt_of_sq_le (p2.trans ?_)
    calc _ ≤ K * energy r.data * D := mul_le_mul_of_nonneg_right c4 hD
      _ = _ := by ring
  have q2 : sprod (flatC C fs) (flatC A ds) - sprod r.data x.data ≤ (K - 1) * √(energy x.data) * √(energy r.data) := by
    rw [mul_assoc, ← Real.sqrt_mul hX]
    have : |sprod (flatC A ds) (flatC C fs) - sprod x.data r.data| ≤ √((K - 1) ^ 2 * (energy x.data * energy r.data)) :=
      Real.abs_le_sqrt p1
    rw [Real.sqrt_mul (sq_nonneg _), Real.sqrt_sq (by linarith)] at this
    rw [sprod_comm (flatC C fs), sprod_comm r.data]
    exact (le_abs_self _).trans this
  refine le_of_sq_le_mul (Real.sqrt_nonneg _) (by
    have := Real.sqrt_nonneg (energy x.data)
    have h1 : 0 ≤ (K - 1) * √(energy x.data) := mul_nonneg (by linarith) this
    positivity) ?_
  rw [Real.sq_sqrt hR]
  have : energy r.data = sprod r.data y.data - sprod r.data x.data := by rw [e1, e2]
  rw [d3] at q1
  linarith [this]

end Pywt
