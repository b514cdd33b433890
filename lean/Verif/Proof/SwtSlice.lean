import Verif.Proof.SynthN
import Verif.Spec.SwtN

/-! Slices, rolls and dicts of the inverse stationary transform. -/

namespace Pywt

open Finset Spec

set_option linter.unusedSectionVars false

variable {R M : Type} [Ring R] [AddCommGroup M] [Module R M]

/-! ### Lists -/

theorem exists_fun_of_list {axs : List ℕ} (hn : axs.Nodup) {l : List ℕ} (hl : l.length = axs.length) :
    ∃ r : ℕ → ℕ, l = axs.map r := by
  induction axs generalizing l with
  | nil => exact ⟨id, by simpa using hl⟩
  | cons a axs ih =>
    cases l with
    | nil => simp at hl
    | cons b l =>
      simp only [List.nodup_cons] at hn
      obtain ⟨r, hr⟩ := ih hn.2 (l := l) (by simpa using hl)
      refine ⟨Function.update r a b, ?_⟩
      rw [List.map_cons, Function.update_self, hr]
      congr 1
      apply List.map_congr_left
      intro k hk
      rw [Function.update_of_ne]
      rintro rfl
      exact hn.1 hk

theorem mem_product {α : Type} {l : List α} {m : ℕ} {o : List α} :
    o ∈ product l m ↔ o.length = m ∧ ∀ a ∈ o, a ∈ l := by
  induction m generalizing o with
  | zero =>
    simp only [product, List.mem_singleton, List.length_eq_zero_iff]
    constructor
    · rintro rfl; simp
    · exact fun h => h.1
  | succ m ih =>
    simp only [product, List.mem_flatMap, List.mem_map]
    constructor
    · rintro ⟨a, ha, o', ho', rfl⟩
      obtain ⟨h1, h2⟩ := ih.mp ho'
      exact ⟨by simp [h1], by
        intro b hb
        rcases List.mem_cons.mp hb with rfl | hb
        · exact ha
        · exact h2 b hb⟩
    · rintro ⟨h1, h2⟩
      cases o with
      | nil => simp at h1
      | cons a o =>
        exact ⟨a, h2 a (by simp), o, ih.mpr ⟨by simpa using h1, fun b hb => h2 b (by simp [hb])⟩, rfl⟩

theorem product_nodup {α : Type} {l : List α} (hl : l.Nodup) (m : ℕ) : (product l m).Nodup := by
  induction m with
  | zero => simp [product]
  | succ m ih =>
    simp only [product]
    rw [List.nodup_flatMap]
    refine ⟨fun a _ => ih.map (fun x y h => by simpa using h), ?_⟩
    refine hl.imp fun {a b} hab => ?_
    intro x hx hy
    simp only [List.mem_map] at hx hy
    obtain ⟨u, -, rfl⟩ := hx
    obtain ⟨v, -, h⟩ := hy
    simp only [List.cons.injEq] at h
    exact hab h.1.symm

theorem zip_map_map {α β γ : Type} (l : List α) (f : α → β) (g : α → γ) :
    (l.map f).zip (l.map g) = l.map fun a => (f a, g a) := by
  induction l with
  | nil => rfl
  | cons a l ih => simp [ih]

theorem foldl_set_length (l : List (ℕ × Stride)) : ∀ base : List Stride,
    (l.foldl (fun l p => l.set p.1 p.2) base).length = base.length := by
  induction l with
  | nil => intro base; rfl
  | cons p l ih => intro base; rw [List.foldl_cons, ih, List.length_set]

theorem placeSlices_length (ndim : ℕ) (axs : List ℕ) (vals : List Stride) :
    (placeSlices ndim axs vals).length = ndim := by
  unfold placeSlices
  rw [foldl_set_length, List.length_replicate]

theorem placeSlices_getD {ndim : ℕ} {axs : List ℕ} (h : ∀ a ∈ axs, a < ndim) (φ : ℕ → Stride) (k : ℕ) :
    (placeSlices ndim axs (axs.map φ)).getD k .all = if k ∈ axs then φ k else .all := by
  have key : ∀ (axs : List ℕ) (base : List Stride), (∀ a ∈ axs, a < base.length) →
      ((axs.zip (axs.map φ)).foldl (fun l p => l.set p.1 p.2) base).getD k .all =
        if k ∈ axs then φ k else base.getD k .all := by
    intro axs
    induction axs with
    | nil => intro base _; simp
    | cons a axs ih =>
      intro base hb
      rw [List.map_cons, List.zip_cons_cons, List.foldl_cons,
        ih _ (fun b hb' => by rw [List.length_set]; exact hb b (by simp [hb']))]
      have ha := hb a (by simp)
      by_cases hk : k ∈ axs
      · rw [if_pos hk, if_pos (by simp [hk])]
      · rw [if_neg hk]
        by_cases hka : k = a
        · subst hka
          rw [if_pos (by simp)]
          simp [List.getD_eq_getElem?_getD, ha]
        · rw [if_neg (by simp [hk, hka])]
          rw [List.getD_eq_getElem?_getD, List.getElem?_set_ne (Ne.symm hka),
            ← List.getD_eq_getElem?_getD]
  unfold placeSlices
  rw [key _ _ (by simpa using h)]
  by_cases hk : k ∈ axs
  · rw [if_pos hk, if_pos hk]
  · rw [if_neg hk, if_neg hk, List.getD_eq_getElem?_getD, List.getElem?_replicate]
    split <;> rfl

/-! ### Slices with one step on the transformed axes -/

/-- The slices select the positions `off k, off k + T, …` on the axes `axs`. -/
structure IsLat (sl : List Stride) (axs : List ℕ) (S : List ℕ) (T : ℕ) (off : ℕ → ℕ) : Prop where
  len : sl.length ≤ S.length
  sub : ∀ k, sl.getD k .all = if k ∈ axs then .by (off k) (S.getD k 0) T else .all
  lt : ∀ k ∈ axs, off k < T
  dvd : ∀ k ∈ axs, T ∣ S.getD k 0

/-- The shape of the selection. -/
def latShape (axs : List ℕ) (S : List ℕ) (T : ℕ) : List ℕ :=
  (List.range S.length).map fun k => if k ∈ axs then S.getD k 0 / T else S.getD k 0

theorem latShape_length (axs S : List ℕ) (T : ℕ) : (latShape axs S T).length = S.length := by
  simp [latShape]

theorem latShape_getD {axs S : List ℕ} {T k : ℕ} (hk : k < S.length) :
    (latShape axs S T).getD k 0 = if k ∈ axs then S.getD k 0 / T else S.getD k 0 := by
  unfold latShape
  rw [List.getD_eq_getElem (hn := by simpa using hk)]
  simp

theorem IsLat.shape {sl : List Stride} {axs S : List ℕ} {T : ℕ} {off : ℕ → ℕ}
    (h : IsLat sl axs S T off) : strideShape S sl = latShape axs S T := by
  unfold strideShape latShape
  apply List.map_congr_left
  intro k _
  rw [h.sub]
  by_cases hk : k ∈ axs
  · rw [if_pos hk, if_pos hk]
    obtain ⟨c, hc⟩ := h.dvd k hk
    have hlt := h.lt k hk
    simp only [Stride.len, min_self]
    rw [hc, Nat.mul_div_cancel_left _ (by omega)]
    rcases Nat.eq_zero_or_pos c with h0 | h0
    · subst h0
      rw [Nat.mul_zero, Nat.zero_sub, Nat.zero_add]
      exact Nat.div_eq_of_lt (by omega)
    · have : T ≤ T * c := Nat.le_mul_of_pos_right _ h0
      rw [show T * c - off k + T - 1 = (T - 1 - off k) + T * c by omega,
        Nat.add_mul_div_left _ _ (by omega), Nat.div_eq_of_lt (by omega), Nat.zero_add]
  · rw [if_neg hk, if_neg hk]
    rfl

/-- Position `idx` of the selection in the array. -/
def latPos (axs : List ℕ) (T : ℕ) (off : ℕ → ℕ) (k i : ℕ) : ℕ :=
  if k ∈ axs then off k + i * T else i

theorem IsLat.pos {sl : List Stride} {axs S : List ℕ} {T : ℕ} {off : ℕ → ℕ}
    (h : IsLat sl axs S T off) (idx : ℕ → ℕ) :
    (fun k => (sl.getD k .all).pos (idx k)) = fun k => latPos axs T off k (idx k) := by
  funext k
  rw [h.sub]
  unfold latPos
  by_cases hk : k ∈ axs
  · rw [if_pos hk, if_pos hk]; rfl
  · rw [if_neg hk, if_neg hk]; rfl

/-- The selected part of an array. -/
def Arr.latSlice (a : Arr M) (axs : List ℕ) (T : ℕ) (off : ℕ → ℕ) : Arr M :=
  Arr.ofFn (latShape axs a.shape T) fun idx => a.get fun k => latPos axs T off k (idx k)

theorem Arr.latSlice_shape (a : Arr M) (axs : List ℕ) (T : ℕ) (off : ℕ → ℕ) :
    (a.latSlice axs T off).shape = latShape axs a.shape T := rfl

theorem Arr.latSlice_get (a : Arr M) (axs : List ℕ) (T : ℕ) (off : ℕ → ℕ) {idx : ℕ → ℕ}
    (h : InB (latShape axs a.shape T) idx) :
    (a.latSlice axs T off).get idx = a.get fun k => latPos axs T off k (idx k) := by
  unfold Arr.latSlice
  rw [Arr.get_ofFn _ h]
  intro f g hfg
  apply a.get_congr
  intro k hk
  rw [hfg k (by rw [latShape_length]; exact hk)]

theorem IsLat.getStrides {sl : List Stride} {axs : List ℕ} {T : ℕ} {off : ℕ → ℕ} {a : Arr M}
    (h : IsLat sl axs a.shape T off) : a.getStrides sl = .ok (a.latSlice axs T off) := by
  have := h.len
  unfold Arr.getStrides Arr.latSlice
  unfold Arr.ndim
  rw [if_neg (by omega), h.shape]
  simp only [h.pos]

theorem IsLat.has {sl : List Stride} {axs S : List ℕ} {T : ℕ} {off : ℕ → ℕ}
    (h : IsLat sl axs S T off) (ha : ∀ k ∈ axs, k < S.length) {idx : ℕ → ℕ} (hidx : InB S idx) :
    strideHas sl S.length idx = true ↔ ∀ k ∈ axs, idx k % T = off k := by
  unfold strideHas
  simp only [List.all_eq_true, List.mem_range]
  have hmod : ∀ k ∈ axs, ((sl.getD k .all).find (idx k)).isSome = true ↔ idx k % T = off k := by
    intro k hk
    have hlt := h.lt k hk
    have := hidx k (ha k hk)
    rw [h.sub, if_pos hk]
    simp only [Stride.find]
    have hiff : (off k ≤ idx k ∧ idx k < S.getD k 0 ∧ (idx k - off k) % T = 0) ↔ idx k % T = off k := by
      constructor
      · rintro ⟨h1, -, h3⟩
        obtain ⟨c, hc⟩ := Nat.dvd_of_mod_eq_zero h3
        rw [show idx k = off k + T * c by omega, Nat.add_mul_mod_self_left, Nat.mod_eq_of_lt hlt]
      · intro h1
        have h2 := Nat.div_add_mod (idx k) T
        have h3 := Nat.mod_le (idx k) T
        refine ⟨by omega, this, ?_⟩
        rw [show idx k - off k = T * (idx k / T) by omega, Nat.mul_mod_right]
    by_cases hc : idx k % T = off k
    · rw [if_pos (hiff.mpr hc)]; simp [hc]
    · rw [if_neg (fun h' => hc (hiff.mp h'))]; simp [hc]
  constructor
  · intro h' k hk
    exact (hmod k hk).mp (h' k (ha k hk))
  · intro h' k _
    by_cases hk : k ∈ axs
    · exact (hmod k hk).mpr (h' k hk)
    · rw [h.sub, if_neg hk]; rfl

theorem IsLat.idx {sl : List Stride} {axs S : List ℕ} {T : ℕ} {off : ℕ → ℕ}
    (h : IsLat sl axs S T off) (ha : ∀ k ∈ axs, k < S.length) {idx : ℕ → ℕ} (hidx : InB S idx)
    (hh : ∀ k ∈ axs, idx k % T = off k) :
    strideIdx sl idx = fun k => if k ∈ axs then idx k / T else idx k := by
  funext k
  unfold strideIdx
  rw [h.sub]
  by_cases hk : k ∈ axs
  · rw [if_pos hk, if_pos hk]
    have := hh k hk
    have h2 := Nat.div_add_mod (idx k) T
    have h3 := Nat.mod_le (idx k) T
    have hlt := h.lt k hk
    have e : idx k - off k = T * (idx k / T) := by omega
    simp only [Stride.find]
    rw [if_pos ⟨by omega, hidx k (ha k hk), by rw [e, Nat.mul_mod_right]⟩, e,
      Nat.mul_div_cancel_left _ (by omega)]
    rfl
  · rw [if_neg hk, if_neg hk]; rfl

theorem IsLat.inB {sl : List Stride} {axs S : List ℕ} {T : ℕ} {off : ℕ → ℕ}
    (h : IsLat sl axs S T off) {idx : ℕ → ℕ} (hidx : InB S idx) :
    InB (latShape axs S T) fun k => if k ∈ axs then idx k / T else idx k := by
  intro k hk
  rw [latShape_length] at hk
  rw [latShape_getD hk]
  have := hidx k hk
  by_cases hm : k ∈ axs
  · simp only [if_pos hm]
    exact Nat.div_lt_div_of_lt_of_dvd (h.dvd k hm) this
  · simp only [if_neg hm]
    exact this

theorem IsLat.back {axs : List ℕ} {T : ℕ} {off : ℕ → ℕ} {idx : ℕ → ℕ}
    (hh : ∀ k ∈ axs, idx k % T = off k) :
    (fun k => latPos axs T off k (if k ∈ axs then idx k / T else idx k)) = idx := by
  funext k
  unfold latPos
  by_cases hk : k ∈ axs
  · simp only [if_pos hk]
    have := hh k hk
    have h2 := Nat.div_add_mod (idx k) T
    rw [mul_comm] at h2
    omega
  · simp only [if_neg hk]

theorem IsLat.upd {sl : List Stride} {axs : List ℕ} {T : ℕ} {off : ℕ → ℕ} {a : Arr M}
    (h : IsLat sl axs a.shape T off) (ha : ∀ k ∈ axs, k < a.shape.length)
    {f : (ℕ → ℕ) → M → M}
    (hf : ∀ v, Arr.Local a.shape.length fun c => f c v) {idx : ℕ → ℕ} (hidx : InB a.shape idx) :
    (a.updStrides sl f).get idx =
      if (∀ k ∈ axs, idx k % T = off k) then
        f (fun k => if k ∈ axs then idx k / T else idx k) (a.get idx) else a.get idx := by
  unfold Arr.updStrides
  rw [Arr.get_ofFn _ hidx]
  · by_cases hc : ∀ k ∈ axs, idx k % T = off k
    · rw [if_pos ((h.has ha hidx).mpr hc), if_pos hc, h.idx ha hidx hc]
    · rw [if_neg hc, if_neg (fun h' => hc ((h.has ha hidx).mp h'))]
  · intro p q hpq
    have e1 : strideHas sl a.shape.length p = strideHas sl a.shape.length q := by
      unfold strideHas
      rw [Bool.eq_iff_iff]
      simp only [List.all_eq_true, List.mem_range]
      exact forall₂_congr fun k hk => by rw [hpq k hk]
    have e2 : a.get p = a.get q := a.get_congr hpq
    have e3 : ∀ v, f (strideIdx sl p) v = f (strideIdx sl q) v := by
      intro v
      apply hf v
      intro k hk
      unfold strideIdx
      rw [hpq k hk]
    simp only [e1, e2, e3]

theorem Arr.updStrides_shape (a : Arr M) (sl : List Stride) (f : (ℕ → ℕ) → M → M) :
    (a.updStrides sl f).shape = a.shape := rfl

/-! ### Rolls -/

theorem Arr.roll1_get {x : Arr M} {axis : ℕ} (ha : axis < x.shape.length) {idx : ℕ → ℕ}
    (hidx : InB x.shape idx) :
    (x.roll1 axis).get idx = x.get (Function.update idx axis
      ((idx axis + x.shape.getD axis 0 - 1) % x.shape.getD axis 0)) := by
  unfold Arr.roll1
  rw [Arr.get_ofFn _ hidx]
  intro f g hfg
  apply x.get_congr
  intro k hk
  by_cases hka : k = axis
  · subst hka; rw [Function.update_self, Function.update_self, hfg k ha]
  · rw [Function.update_of_ne hka, Function.update_of_ne hka, hfg k hk]

theorem Arr.roll1_shape (x : Arr M) (axis : ℕ) : (x.roll1 axis).shape = x.shape := rfl

theorem rollOdds_map (axs : List ℕ) (o : ℕ → ℕ) : ∀ x : Arr M, (∀ k ∈ axs, k < x.shape.length) →
    axs.Nodup → (rollOdds axs (axs.map o) x).shape = x.shape ∧ ∀ idx, InB x.shape idx →
      (rollOdds axs (axs.map o) x).get idx = x.get fun k =>
        if k ∈ axs then
          (if o k ≠ 0 then (idx k + x.shape.getD k 0 - 1) % x.shape.getD k 0 else idx k)
        else idx k := by
  induction axs with
  | nil => intro x _ _; exact ⟨rfl, fun idx _ => by simp [rollOdds]⟩
  | cons a axs ih =>
    intro x hx hn
    simp only [List.nodup_cons] at hn
    have ha := hx a (by simp)
    have hstep : rollOdds (a :: axs) ((a :: axs).map o) x =
        rollOdds axs (axs.map o) (if o a ≠ 0 then x.roll1 a else x) := rfl
    rw [hstep]
    by_cases ho : o a ≠ 0
    · rw [if_pos ho]
      obtain ⟨i1, i2⟩ := ih (x.roll1 a) (fun k hk => hx k (by simp [hk])) hn.2
      refine ⟨i1, fun idx hidx => ?_⟩
      rw [i2 idx hidx, Arr.roll1_get ha]
      · apply x.get_congr
        intro k _
        by_cases hka : k = a
        · subst hka
          rw [Function.update_self, if_neg hn.1, if_pos (by simp), if_pos ho]
        · rw [Function.update_of_ne hka]
          by_cases hk : k ∈ axs
          · have h1 : k ∈ a :: axs := by simp [hk]
            simp only [if_pos hk, if_pos h1]; rfl
          · have h1 : k ∉ a :: axs := by simp [hk, hka]
            simp only [if_neg hk, if_neg h1]
      · intro k hk
        have := hidx k hk
        by_cases hka : k ∈ axs
        · simp only [if_pos hka]
          split
          · exact Nat.mod_lt _ (by rw [Arr.roll1_shape]; omega)
          · exact this
        · simp only [if_neg hka]; exact this
    · rw [if_neg ho]
      obtain ⟨i1, i2⟩ := ih x (fun k hk => hx k (by simp [hk])) hn.2
      refine ⟨i1, fun idx hidx => ?_⟩
      rw [i2 idx hidx]
      apply x.get_congr
      intro k _
      by_cases hk : k ∈ axs
      · have h1 : k ∈ a :: axs := by simp [hk]
        simp only [if_pos hk, if_pos h1]
      · rw [if_neg hk]
        by_cases hka : k = a
        · subst hka
          rw [if_pos (by simp), if_neg ho]
        · rw [if_neg (by simp [hk, hka])]

/-! ### Dicts -/

theorem dictSet_lookup {α : Type} (c : List (Key × α)) (k : Key) (v : α) (q : Key) :
    (dictSet c k v).lookup q = if q = k then some v else c.lookup q := by
  induction c with
  | nil =>
    by_cases h : q = k
    · subst h; simp [dictSet]
    · rw [dictSet, List.lookup_cons, beq_false_of_ne h, if_neg h]
  | cons p c ih =>
    obtain ⟨k', v'⟩ := p
    simp only [dictSet]
    by_cases hk : k' = k
    · subst hk
      rw [if_pos rfl, List.lookup_cons]
      by_cases h : q = k'
      · subst h; simp
      · rw [if_neg h, beq_false_of_ne h, List.lookup_cons, beq_false_of_ne h]
    · rw [if_neg hk, List.lookup_cons, List.lookup_cons]
      by_cases h : q = k'
      · subst h
        simp [hk]
      · rw [beq_false_of_ne h]
        exact ih

theorem mem_dictSet {α : Type} {c : List (Key × α)} {k : Key} {v : α} {p : Key × α}
    (h : p ∈ dictSet c k v) : p = (k, v) ∨ p ∈ c := by
  induction c with
  | nil => simpa [dictSet] using h
  | cons q c ih =>
    obtain ⟨k', v'⟩ := q
    simp only [dictSet] at h
    by_cases hk : k' = k
    · rw [if_pos hk] at h
      rcases List.mem_cons.mp h with h | h
      · exact Or.inl h
      · exact Or.inr (by simp [h])
    · rw [if_neg hk] at h
      rcases List.mem_cons.mp h with h | h
      · exact Or.inr (by simp [h])
      · rcases ih h with h | h
        · exact Or.inl h
        · exact Or.inr (by simp [h])

theorem mem_dictSet_self {α : Type} (c : List (Key × α)) (k : Key) (v : α) :
    (k, v) ∈ dictSet c k v := by
  induction c with
  | nil => simp [dictSet]
  | cons q c ih =>
    obtain ⟨k', v'⟩ := q
    simp only [dictSet]
    split
    · simp
    · simp [ih]

theorem mem_keys_dictSet {α : Type} {c : List (Key × α)} {k : Key} {v : α} {q : Key}
    (h : q ∈ (dictSet c k v).map (·.1)) : q = k ∨ q ∈ c.map (·.1) := by
  obtain ⟨p, hp, rfl⟩ := List.mem_map.mp h
  rcases mem_dictSet hp with h | h
  · exact Or.inl (by rw [h])
  · exact Or.inr (List.mem_map_of_mem h)

theorem dictSet_keys_nodup {α : Type} {c : List (Key × α)} (hc : (c.map (·.1)).Nodup) (k : Key) (v : α) :
    ((dictSet c k v).map (·.1)).Nodup := by
  induction c with
  | nil => simp [dictSet]
  | cons p c ih =>
    obtain ⟨k', v'⟩ := p
    simp only [List.map_cons, List.nodup_cons] at hc
    simp only [dictSet]
    split
    · next h => subst h; simpa using hc
    · next h =>
      simp only [List.map_cons, List.nodup_cons]
      refine ⟨fun hm => ?_, ih hc.2⟩
      rcases mem_keys_dictSet hm with h' | h'
      · exact h h'
      · exact hc.1 h'

theorem lookup_map_val {α β : Type} (f : α → β) (c : List (Key × α)) (k : Key) :
    (c.map fun p => (p.1, f p.2)).lookup k = (c.lookup k).map f := by
  induction c with
  | nil => rfl
  | cons p c ih =>
    rw [List.map_cons, List.lookup_cons, List.lookup_cons]
    split
    · rfl
    · exact ih

theorem CDict.get_map_some (c : List (Key × Arr M)) (k : Key) :
    CDict.get (c.map fun p => (p.1, some p.2)) k = c.lookup k := by
  unfold CDict.get
  rw [lookup_map_val (some : Arr M → Option (Arr M))]
  cases c.lookup k <;> rfl

theorem sliceDict_ok {sl : List Stride} {axs S : List ℕ} {T : ℕ} {off : ℕ → ℕ}
    (h : IsLat sl axs S T off) {d : ADict M} (hd : ∀ p ∈ d, p.2.shape = S) :
    sliceDict sl d = .ok (d.map fun p => (p.1, p.2.latSlice axs T off)) := by
  induction d with
  | nil => rfl
  | cons p d ih =>
    obtain ⟨k, v⟩ := p
    have hv : v.shape = S := hd (k, v) (by simp)
    subst hv
    simp only [sliceDict, h.getStrides, Py_bind_ok, ih fun p hp => hd p (by simp [hp])]
    rfl

end Pywt
