import Verif.Proof.DsPer
import Verif.Model.UpConv

/-! The upsampling kernels refine filtering of the zero-upsampled coefficients. -/

namespace Pywt

open Finset Spec

set_option linter.unusedSectionVars false

variable {R M : Type} [Ring R] [AddCommGroup M] [Module R M]

section sim

theorem map_ok {α β : Type} (g : α → β) (a : α) : (Except.ok a : C α).map g = .ok (g a) := rfl

theorem loop_sim {σ τ : Type} {cond : σ → C Bool} {body : σ → C σ} {cond' : τ → C Bool}
    {body' : τ → C τ} (φ : σ → τ) (hc : ∀ s, cond' (φ s) = cond s)
    (hb : ∀ s, body' (φ s) = (body s).map φ) (fuel : ℕ) (s : σ) :
    loop cond' body' fuel (φ s) = (loop cond body fuel s).map φ := by
  induction fuel generalizing s with
  | zero => rfl
  | succ n ih =>
    simp only [loop, hc]
    cases cond s with
    | error e => rfl
    | ok b =>
      simp only [C_bind_ok]
      cases b with
      | false => rfl
      | true =>
        simp only [if_true, hb]
        cases body s with
        | error e => rfl
        | ok s' => simp only [map_ok, C_bind_ok]; exact ih s'

variable {σ : Type} {A : Type} [AddCommGroup A]

theorem forKJs_sim {fuel N k0 : ℕ} {more : ℕ → C Bool} {body : ℕ → ℕ → σ → C σ}
    {term : ℕ → ℕ → C A} (φ : A → σ)
    (hb : ∀ j k m, body j k (φ m) = (term j k).map fun v => φ (m + v)) (j : ℕ) (m : A) :
    forKJs fuel N k0 more body (j, φ m) =
      (forKJ fuel N k0 1 1 more term (j, m)).map fun s => (s.1, φ s.2) := by
  unfold forKJs forKJ
  have := loop_sim (σ := ℕ × ℕ × A) (τ := ℕ × ℕ × σ)
    (cond := fun s => if s.1 < N then more s.2.1 else pure false)
    (body := fun s => do
      let v ← term s.2.1 s.1
      pure (s.1 + 1, s.2.1 + 1, s.2.2 + v))
    (cond' := fun s => if s.1 < N then more s.2.1 else pure false)
    (body' := fun s => do
      let v ← body s.2.1 s.1 s.2.2
      pure (s.1 + 1, s.2.1 + 1, v)) (fun s => (s.1, s.2.1, φ s.2.2)) (fun s => rfl) (by
        intro s
        simp only [hb]
        cases term s.2.1 s.1 with
        | error e => rfl
        | ok v => rfl) fuel (k0, j, m)
  simp only at this ⊢
  rw [this]
  cases loop (σ := ℕ × ℕ × A) (fun s => if s.1 < N then more s.2.1 else pure false)
    (fun s => do
      let v ← term s.2.1 s.1
      pure (s.1 + 1, s.2.1 + 1, s.2.2 + v)) fuel (k0, j, m) with
  | error e => rfl
  | ok v => rfl

theorem forJs_sim {fuel : ℕ} {more : ℕ → C Bool} {body : ℕ → σ → C σ}
    {term : ℕ → C A} (φ : A → σ)
    (hb : ∀ j m, body j (φ m) = (term j).map fun v => φ (m + v)) (j : ℕ) (m : A) :
    forJs fuel more body (j, φ m) =
      (forJ fuel 1 more term (j, m)).map fun s => (s.1, φ s.2) := by
  unfold forJs forJ
  exact loop_sim (σ := ℕ × A) (τ := ℕ × σ) (cond := fun s => more s.1)
    (body := fun s => do
      let v ← term s.1
      pure (s.1 + 1, s.2 + v))
    (cond' := fun s => more s.1)
    (body' := fun s => do
      let v ← body s.1 s.2
      pure (s.1 + 1, v)) (fun s => (s.1, φ s.2)) (fun s => rfl) (by
        intro s
        simp only [hb]
        cases term s.1 with
        | error e => rfl
        | ok v => rfl) fuel (j, m)

theorem whileKJs_sim {fuel N k0 : ℕ} {cond : ℕ → C Bool} {more : ℕ → C Bool}
    {body : ℕ → ℕ → σ → C σ} {term : ℕ → ℕ → C A} (φ : A → σ)
    (hb : ∀ j k m, body j k (φ m) = (term j k).map fun v => φ (m + v)) (j : ℕ) (m : A) :
    loop (σ := ℕ × σ) (fun s => cond s.1) (fun s => forKJs fuel N k0 more body s) fuel (j, φ m) =
      (loop (σ := ℕ × A) (fun s => cond s.1) (fun s => forKJ fuel N k0 1 1 more term s) fuel
        (j, m)).map fun s => (s.1, φ s.2) :=
  loop_sim (σ := ℕ × A) (τ := ℕ × σ) (fun s => (s.1, φ s.2)) (fun _ => rfl)
    (fun s => forKJs_sim φ hb s.1 s.2) fuel (j, m)

end sim

/-- Add a pair of values at two positions. -/
def bump2 (out : List M) (oe oo : ℕ) (v : M × M) : List M :=
  (out.modify oe (· + v.1)).modify oo (· + v.2)

@[simp] theorem bump2_length (out : List M) (oe oo : ℕ) (v : M × M) :
    (bump2 out oe oo v).length = out.length := by simp [bump2]

theorem getD_modify (out : List M) (o q : ℕ) (g : M → M) (hq : q < out.length) :
    (out.modify o g).getD q 0 = if o = q then g (out.getD q 0) else out.getD q 0 := by
  simp only [List.getD_eq_getElem?_getD, List.getElem?_modify]
  rw [List.getElem?_eq_getElem hq]
  split <;> simp

theorem getD_bump2 (out : List M) (oe oo q : ℕ) (v : M × M) (hq : q < out.length)
    (hne : oe ≠ oo) :
    (bump2 out oe oo v).getD q 0 =
      out.getD q 0 + (if q = oe then v.1 else if q = oo then v.2 else 0) := by
  unfold bump2
  rw [getD_modify _ _ _ _ (by simpa using hq), getD_modify _ _ _ _ hq]
  by_cases h1 : oo = q
  · subst h1
    simp [hne, hne.symm]
  · by_cases h2 : oe = q
    · subst h2; simp [h1]
    · simp [h1, h2, Ne.symm h1, Ne.symm h2]

theorem ext_getD {a b : List M} (hl : a.length = b.length)
    (h : ∀ q < a.length, a.getD q 0 = b.getD q 0) : a = b := by
  apply List.ext_getElem hl
  intro q h1 h2
  have := h q h1
  rwa [List.getD_eq_getElem _ _ h1, List.getD_eq_getElem _ _ h2] at this

theorem bump2_zero (out : List M) (oe oo : ℕ) : bump2 out oe oo (0 : M × M) = out := by
  apply ext_getD (by simp)
  intro q hq
  simp only [bump2_length] at hq
  unfold bump2
  rw [getD_modify _ _ _ _ (by simpa using hq), getD_modify _ _ _ _ hq]
  simp

theorem bump2_oob (out : List M) (oe oo : ℕ) (v : M × M) (he : out.length ≤ oe)
    (ho : out.length ≤ oo) : bump2 out oe oo v = out := by
  apply ext_getD (by simp)
  intro q hq
  simp only [bump2_length] at hq
  unfold bump2
  rw [getD_modify _ _ _ _ (by simpa using hq), getD_modify _ _ _ _ hq, if_neg (by omega),
    if_neg (by omega)]

theorem bump2_add (out : List M) (oe oo : ℕ) (hne : oe ≠ oo) (v w : M × M) :
    bump2 (bump2 out oe oo v) oe oo w = bump2 out oe oo (v + w) := by
  apply ext_getD (by simp)
  intro q hq
  simp only [bump2_length] at hq
  rw [getD_bump2 _ _ _ _ _ (by simpa using hq) hne, getD_bump2 _ _ _ _ _ hq hne,
    getD_bump2 _ _ _ _ _ hq hne]
  split
  · simp [add_assoc]
  · split
    · simp [add_assoc]
    · simp

theorem addTo_eq (out : List M) (o : ℕ) (v : M) (h : o < out.length) :
    addTo out o v = .ok (out.modify o (· + v)) := by
  unfold addTo
  rw [rd_eq h, C_bind_ok, wr_eq h]
  congr 1
  apply ext_getD (by simp)
  intro q hq
  simp only [List.length_set] at hq
  rw [getD_modify _ _ _ _ hq]
  simp only [List.getD_eq_getElem?_getD, List.getElem?_set]
  split
  · rename_i he; subst he; simp [h]
  · rfl

theorem acc2_eq {f : List R} {x : List M} {oe oo j k : ℕ} {out : List M} (he : oe < out.length)
    (ho : oo < out.length) :
    acc2 f x oe oo j k out = (pairProd f x j k).map fun v => bump2 out oe oo v := by
  unfold acc2 pairProd
  cases prod f (2 * j) x k with
  | error e => rfl
  | ok a =>
    simp only [C_bind_ok]
    rw [addTo_eq _ _ _ he]
    simp only [C_bind_ok]
    cases prod f (2 * j + 1) x k with
    | error e => rfl
    | ok b =>
      simp only [C_bind_ok]
      rw [addTo_eq _ _ _ (by simpa using ho)]
      rfl

theorem acc2_sim {f : List R} {x : List M} {oe oo : ℕ} {out : List M} (he : oe < out.length)
    (ho : oo < out.length) (hne : oe ≠ oo) (j k : ℕ) (m : M × M) :
    acc2 f x oe oo j k (bump2 out oe oo m) =
      (pairProd f x j k).map fun v => bump2 out oe oo (m + v) := by
  rw [acc2_eq (by simpa using he) (by simpa using ho)]
  congr 1
  funext v
  rw [bump2_add _ _ _ hne]

theorem bind_sim {α β γ : Type} (c : C α) (g : α → C γ) (h : α → C β) (φ : β → γ)
    (hg : ∀ a, g a = (h a).map φ) : (c >>= g) = (c >>= h).map φ := by
  cases c with
  | error e => rfl
  | ok a => exact hg a

/-- Terms of the two convolution sums at input position `i`. -/
def pairTerm (f : List R) (e : ℤ → M) (i : ℕ) (j : ℕ) : M × M :=
  (f.getD (2 * j) 0 • e ((i : ℤ) - j), f.getD (2 * j + 1) 0 • e ((i : ℤ) - j))

theorem pairProd_eq {f : List R} {x : List M} {j k : ℕ} (hj : 2 * j + 1 < f.length)
    (hk : k < x.length) :
    pairProd f x j k = .ok (f.getD (2 * j) 0 • x.getD k 0, f.getD (2 * j + 1) 0 • x.getD k 0) := by
  unfold pairProd
  rw [prod_eq (by omega) hk, C_bind_ok, prod_eq hj hk]
  rfl

/-- Direct loops: taps with `0 ≤ i - j < N`. -/
theorem upDirect_eq {fuel : ℕ} {x : List M} {f : List R} {e : ℤ → M} {i B j0 oe oo : ℕ}
    {more : ℕ → C Bool} {out : List M} (he : oe < out.length)
    (ho : oo < out.length) (hne : oe ≠ oo)
    (hex : ∀ k, k < x.length → e (k : ℤ) = x.getD k 0)
    (hmore : ∀ j, more j = .ok (decide (j < B)))
    (hB : 2 * B ≤ f.length) (hBi : B ≤ i + 1) (hj0 : i < j0 + x.length) (hfuel : B < fuel) :
    forJs fuel more (fun j out => do acc2 f x oe oo j (← sub i j) out)
        (j0, bump2 out oe oo (∑ l ∈ range j0, pairTerm f e i l)) =
      .ok (max j0 B, bump2 out oe oo (∑ l ∈ range (max j0 B), pairTerm f e i l)) := by
  rw [forJs_sim (term := fun j => do pairProd f x j (← sub i j)) (fun m => bump2 out oe oo m)
    (fun j m => bind_sim _ _ _ _ (fun k => acc2_sim he ho hne j k m))]
  rw [forJ_eq (g := pairTerm f e i) (B := B) (fun j _ => hmore j) _ rfl hfuel]
  · rfl
  · intro j h1 h2
    rw [sub_eq (by omega), C_bind_ok, pairProd_eq (by omega) (by omega), pairTerm,
      show (i : ℤ) - j = ((i - j : ℕ) : ℤ) by omega, hex _ (by omega)]

theorem upLeft_eq {fuel : ℕ} {x : List M} {f : List R} {i oe oo j0 : ℕ} {out : List M}
    (he : oe < out.length) (ho : oo < out.length) (hne : oe ≠ oo) (hN : 1 ≤ x.length)
    (hi : j0 < f.length / 2 → i + 1 = j0) (hj : j0 ≤ f.length / 2)
    (hfuel : x.length + f.length < fuel) :
    upLeft fuel x f oe oo
        (j0, bump2 out oe oo (∑ l ∈ range j0, pairTerm f (ext .periodic x) i l)) =
      .ok (f.length / 2,
        bump2 out oe oo (∑ l ∈ range (f.length / 2), pairTerm f (ext .periodic x) i l)) := by
  unfold upLeft
  simp only
  rw [whileKJs_sim (cond := ltF (f.length / 2)) (term := fun j k => do
      let a ← sub x.length 1
      let b ← sub a k
      pairProd f x j b) (fun m => bump2 out oe oo m) (by
    intro j k m
    unfold acc2Rev
    refine bind_sim _ _ _ _ (fun a => ?_)
    refine bind_sim _ _ _ _ (fun b => acc2_sim he ho hne j b m))]
  rw [while_one (P := x.length) (g := pairTerm f (ext .periodic x) i) (by omega) (by omega) hj
    (fun j s _ => ltF_eq _ _) (fun j _ => ltF_eq _ _) _ (by omega) (by omega)]
  · rfl
  · intro t u h1 h2
    rw [sub_eq (by omega), C_bind_ok, sub_eq (by omega), C_bind_ok,
      pairProd_eq (by omega) (by omega), pairTerm,
      ext_per x (q := - t - 1) (k := x.length - 1 - (0 + u)) (by omega)
      (by rw [show ((x.length - 1 - (0 + u) : ℕ) : ℤ) = x.length - 1 - u by omega]
          have : (j0 : ℤ) = i + 1 := by omega
          push_cast
          rw [this]; ring)]

/-- Sum over the taps `l ≤ i - N`, visited in decreasing order. -/
theorem pair_flip {f : List R} {e : ℤ → M} {i N : ℕ} (hi : N ≤ i) :
    ∑ t ∈ range (i + 1 - N), ((f.getD (2 * (i - N - t)) 0 • e ((N : ℤ) + t),
        f.getD (2 * (i - N - t) + 1) 0 • e ((N : ℤ) + t)) : M × M) =
      ∑ l ∈ range (i + 1 - N), pairTerm f e i l := by
  rw [← sum_range_reflect]
  apply sum_congr rfl
  intro l hl
  have hl' : l < i + 1 - N := by simpa using hl
  have h1 : i - N - (i + 1 - N - 1 - l) = l := by omega
  have h2 : (N : ℤ) + ((i + 1 - N - 1 - l : ℕ) : ℤ) = (i : ℤ) - l := by omega
  rw [h1, h2, pairTerm]

/-- Right overhang, in the general form that covers both ways the code writes it. -/
theorem upRight_gen {fuel : ℕ} {x : List M} {f : List R} {i oe oo : ℕ} {out : List M}
    {cond : ℕ → C Bool} {idx : ℕ → C ℕ}
    (he : oe < out.length) (ho : oo < out.length) (hne : oe ≠ oo) (hN : 1 ≤ x.length)
    (hi : x.length ≤ i) (hif : 2 * (i - x.length) + 1 < f.length)
    (hcond : ∀ j ≤ i + 1 - x.length, cond j = .ok (decide (j < i + 1 - x.length)))
    (hidx : ∀ j < i + 1 - x.length, idx j = .ok (i - x.length - j))
    (hfuel : x.length + f.length < fuel) :
    loop (fun s => cond s.1) (fun s =>
      forKJs fuel x.length 0 cond (fun j k out => do acc2 f x oe oo (← idx j) k out) s) fuel
        (0, out) =
      .ok (i + 1 - x.length,
        bump2 out oe oo (∑ l ∈ range (i + 1 - x.length), pairTerm f (ext .periodic x) i l)) := by
  have h0 : out = bump2 out oe oo (∑ l ∈ range 0,
    ((f.getD (2 * (i - x.length - l)) 0 • (ext .periodic x) ((x.length : ℤ) + l),
        f.getD (2 * (i - x.length - l) + 1) 0 • (ext .periodic x) ((x.length : ℤ) + l)) : M × M)) := by
    simp [bump2_zero]
  conv_lhs => rw [h0]
  rw [whileKJs_sim (cond := cond) (term := fun j k => do pairProd f x (← idx j) k)
    (fun m => bump2 out oe oo m)
    (fun j k m => bind_sim _ _ _ _ (fun l => acc2_sim he ho hne l k m))]
  rw [while_one (P := x.length) (B := i + 1 - x.length) (g := fun t =>
    ((f.getD (2 * (i - x.length - t)) 0 • (ext .periodic x) ((x.length : ℤ) + t),
        f.getD (2 * (i - x.length - t) + 1) 0 • (ext .periodic x) ((x.length : ℤ) + t)) : M × M))
    (by omega) (by omega) (by omega)
    (fun j s h => hcond j h) hcond _ (by omega) (by omega)]
  · rw [pair_flip hi]; rfl
  · intro t u h1 h2
    rw [hidx _ h2, C_bind_ok, pairProd_eq (by omega) (by omega),
      ext_per x (q := t + 1) (k := 0 + u) (by omega) (by push_cast; ring)]

theorem upRight_eq {fuel : ℕ} {x : List M} {f : List R} {i oe oo : ℕ} {out : List M}
    (he : oe < out.length) (ho : oo < out.length) (hne : oe ≠ oo) (hN : 1 ≤ x.length)
    (hi : x.length ≤ i) (hif : 2 * (i - x.length) + 1 < f.length)
    (hfuel : x.length + f.length < fuel) :
    upRight fuel x f i oe oo (0, out) =
      .ok (i + 1 - x.length,
        bump2 out oe oo (∑ l ∈ range (i + 1 - x.length), pairTerm f (ext .periodic x) i l)) := by
  exact upRight_gen he ho hne hN hi hif (geN_lt hN hi) (fun j hj => sub3_eq (by omega)) hfuel

/-- State of the output loops of the upsampling kernels. -/
def UpInv (base : List M) (h : ℕ → M) (i0 lo i : ℕ) (s : ℕ × ℕ × List M) : Prop :=
  i0 ≤ i ∧ s.1 = i ∧ s.2.1 = lo + 2 * (i - i0) ∧ s.2.2.length = base.length ∧
    ∀ q < base.length, s.2.2.getD q 0 = base.getD q 0 +
      if lo ≤ q ∧ q < lo + 2 * (i - i0) then h q else 0

theorem forUp_inv {fuel : ℕ} {base : List M} {h : ℕ → M} {i0 lo : ℕ} {cond : ℕ → Bool}
    {inner : ℕ → ℕ → List M → C (List M)} {i1 B : ℕ} {s : ℕ × ℕ × List M}
    (hI : UpInv base h i0 lo i1 s)
    (hc : ∀ i, cond i = decide (i < B))
    (hstep : ∀ i, i1 ≤ i → i < B → ∀ out : List M, out.length = base.length →
      inner i (lo + 2 * (i - i0)) out =
        .ok (bump2 out (lo + 2 * (i - i0)) (lo + 2 * (i - i0) + 1)
          (h (lo + 2 * (i - i0)), h (lo + 2 * (i - i0) + 1))))
    (hfuel : B < fuel) :
    ∃ s', forUp fuel cond inner s = .ok s' ∧ UpInv base h i0 lo (max i1 B) s' := by
  have key := loop_inv (σ := ℕ × ℕ × List M) (cond := fun s => pure (cond s.1))
    (body := fun s => do
      let out ← inner s.1 s.2.1 s.2.2
      pure (s.1 + 1, s.2.1 + 2, out))
    (fun s => ∃ i, i1 ≤ i ∧ i ≤ max i1 B ∧ UpInv base h i0 lo i s)
    (fun s => UpInv base h i0 lo (max i1 B) s)
    (fun s => B - s.1) (by
      rintro ⟨i', o', out⟩ ⟨i, hi, hi', h0, h1, h2, h3, h4⟩
      simp only at h1 h2 h3 h4
      subst h1 h2
      by_cases hlt : i' < B
      · left
        refine ⟨by simp [hc, hlt], _, by
          simp only [hstep i' hi hlt out h3, C_bind_ok]; rfl, ?_, by simp only; omega⟩
        refine ⟨i' + 1, by omega, by omega, by omega, rfl, by simp only; omega,
          by simpa using h3, ?_⟩
        intro q hq
        simp only
        rw [getD_bump2 _ _ _ _ _ (by omega) (by omega), h4 q hq, add_assoc]
        congr 1
        by_cases q1 : q = lo + 2 * (i' - i0)
        · rw [if_neg (by omega), if_pos q1, if_pos (by omega), ← q1, zero_add]
        · by_cases q2 : q = lo + 2 * (i' - i0) + 1
          · rw [if_neg (by omega), if_neg q1, if_pos q2, if_pos (by omega), ← q2, zero_add]
          · rw [if_neg q1, if_neg q2, add_zero]
            by_cases q3 : lo ≤ q ∧ q < lo + 2 * (i' - i0)
            · rw [if_pos q3, if_pos (by omega)]
            · rw [if_neg q3, if_neg (by omega)]
      · right
        refine ⟨by simp [hc, hlt], ?_⟩
        have : i' = max i1 B := by omega
        rw [← this]
        exact ⟨h0, rfl, rfl, h3, h4⟩) fuel s ⟨i1, le_rfl, by omega, hI⟩ (by omega)
  exact key

theorem conv_even {f : List R} {e : ℤ → M} (hF : f.length % 2 = 0) (i : ℤ) :
    conv f (upsample e) (2 * i) =
      ∑ j ∈ range (f.length / 2), f.getD (2 * j) 0 • e (i - j) := by
  unfold conv
  obtain ⟨H, hH⟩ : ∃ H, f.length = 2 * H := ⟨f.length / 2, by omega⟩
  rw [hH, show 2 * H / 2 = H by omega]
  clear hH hF
  induction H with
  | zero => simp
  | succ H ih =>
    rw [show 2 * (H + 1) = 2 * H + 1 + 1 by ring, sum_range_succ, sum_range_succ, sum_range_succ, ih]
    have h1 : upsample e (2 * i - ((2 * H + 1 : ℕ) : ℤ)) = 0 := by
      unfold upsample; rw [if_neg (by push_cast; omega)]
    have h2 : upsample e (2 * i - ((2 * H : ℕ) : ℤ)) = e (i - H) := by
      unfold upsample
      rw [if_pos (by push_cast; omega)]
      congr 1; push_cast; omega
    rw [h1, h2, smul_zero, add_zero]

theorem conv_odd {f : List R} {e : ℤ → M} (hF : f.length % 2 = 0) (i : ℤ) :
    conv f (upsample e) (2 * i + 1) =
      ∑ j ∈ range (f.length / 2), f.getD (2 * j + 1) 0 • e (i - j) := by
  unfold conv
  obtain ⟨H, hH⟩ : ∃ H, f.length = 2 * H := ⟨f.length / 2, by omega⟩
  rw [hH, show 2 * H / 2 = H by omega]
  clear hH hF
  induction H with
  | zero => simp
  | succ H ih =>
    rw [show 2 * (H + 1) = 2 * H + 1 + 1 by ring, sum_range_succ, sum_range_succ, sum_range_succ, ih]
    have h1 : upsample e (2 * i + 1 - ((2 * H : ℕ) : ℤ)) = 0 := by
      unfold upsample; rw [if_neg (by push_cast; omega)]
    have h2 : upsample e (2 * i + 1 - ((2 * H + 1 : ℕ) : ℤ)) = e (i - H) := by
      unfold upsample
      rw [if_pos (by push_cast; omega)]
      congr 1; push_cast; omega
    rw [h1, h2, smul_zero, add_zero]

theorem pair_sum {f : List R} {e : ℤ → M} (hF : f.length % 2 = 0) (i : ℕ) :
    ∑ l ∈ range (f.length / 2), pairTerm f e i l =
      (conv f (upsample e) (2 * (i : ℤ)), conv f (upsample e) (2 * (i : ℤ) + 1)) := by
  rw [conv_even hF, conv_odd hF]
  ext
  · rw [Prod.fst_sum]; rfl
  · rw [Prod.snd_sum]; rfl

theorem UpInv.final {base : List M} {h : ℕ → M} {i0 i : ℕ} {s : ℕ × ℕ × List M}
    (hI : UpInv base h i0 0 i s) (hi : base.length ≤ 2 * (i - i0)) :
    s.2.2 = List.zipWith (· + ·) base ((List.range base.length).map h) := by
  obtain ⟨-, -, -, h3, h4⟩ := hI
  apply ext_getD (by simp [h3])
  intro q hq
  rw [h4 q (by omega), if_pos (by omega)]
  rw [h3] at hq
  rw [List.getD_eq_getElem _ _ hq, List.getD_eq_getElem _ _ (by simpa using hq)]
  simp

theorem usFull_eq {fuel : ℕ} {x : List M} {f : List R} {out : List M}
    (hN : 1 ≤ x.length) (hF : 2 ≤ f.length) (hF2 : f.length % 2 = 0)
    (hout : out.length = 2 * x.length + f.length - 2)
    (hfuel : x.length + f.length < fuel) :
    usFull fuel x f out =
      .ok (some (List.zipWith (· + ·) out ((List.range out.length).map fun n : ℕ =>
        conv f (upsample (ext .zero x)) n))) := by
  set h : ℕ → M := fun n => conv f (upsample (ext .zero x)) n with hh
  have hex : ∀ k, k < x.length → ext .zero x (k : ℤ) = x.getD k 0 := fun k hk => ext_zero_in x hk
  have hz : ∀ i j : ℕ, (i < j ∨ x.length + j ≤ i) → pairTerm f (ext .zero x) i j = 0 := by
    intro i j hij
    unfold pairTerm
    rw [ext_zero_out x (by omega)]
    simp
  have hsum : ∀ i : ℕ, ∑ l ∈ range (f.length / 2), pairTerm f (ext .zero x) i l =
      (h (0 + 2 * (i - 0)), h (0 + 2 * (i - 0) + 1)) := by
    intro i
    rw [pair_sum hF2]
    simp only [hh, Nat.zero_add, Nat.sub_zero]
    push_cast
    rfl
  unfold usFull
  simp only
  rw [if_neg (by omega), if_neg (by omega)]
  obtain ⟨s1, e1, i1⟩ := forUp_inv (fuel := fuel) (base := out) (h := h) (i0 := 0) (lo := 0)
    (cond := fun i => decide (i < x.length) && decide (i < f.length / 2))
    (inner := fun i o out => do
      let s ← forJs fuel (fun j => pure (decide (j ≤ i)))
        (fun j out => do acc2 f x o (o + 1) j (← sub i j) out) (0, out)
      pure s.2) (i1 := 0) (B := min x.length (f.length / 2)) (s := (0, 0, out))
    ⟨le_rfl, rfl, rfl, rfl, by intro q _; simp⟩ (by intro i; simp) (by
      intro i _ hi out' hl
      have := upDirect_eq (fuel := fuel) (x := x) (f := f) (e := ext .zero x) (i := i)
        (B := i + 1) (j0 := 0) (oe := 0 + 2 * (i - 0)) (oo := 0 + 2 * (i - 0) + 1)
        (more := fun j => pure (decide (j ≤ i))) (out := out') (by omega) (by omega) (by omega) hex
        (by intro j; simp) (by omega) (by omega) (by omega) (by omega)
      simp only [range_zero, sum_empty, bump2_zero] at this
      rw [this]
      simp only [C_bind_ok, C_pure, Nat.zero_max]
      rw [← hsum, ← sum_tail (j := f.length / 2) (fun l hl => hz i l (by omega)) (by omega)]) (by omega)
  rw [e1]
  simp only [C_bind_ok]
  obtain ⟨s2, e2, i2⟩ := forUp_inv (fuel := fuel) (cond := fun i => decide (i < x.length))
    (inner := fun i o out => do
      let s ← forJs fuel (ltF (f.length / 2))
        (fun j out => do acc2 f x o (o + 1) j (← sub i j) out) (0, out)
      pure s.2) (B := x.length) i1 (by intro i; rfl) (by
      intro i hi' hi out' hl
      have := upDirect_eq (fuel := fuel) (x := x) (f := f) (e := ext .zero x) (i := i)
        (B := f.length / 2) (j0 := 0) (oe := 0 + 2 * (i - 0)) (oo := 0 + 2 * (i - 0) + 1)
        (more := ltF (f.length / 2)) (out := out') (by omega) (by omega) (by omega) hex
        (by intro j; rfl) (by omega) (by omega) (by omega) (by omega)
      simp only [range_zero, sum_empty, bump2_zero] at this
      rw [this]
      simp only [C_bind_ok, C_pure, Nat.zero_max]
      rw [← hsum]) (by omega)
  rw [e2]
  simp only [C_bind_ok]
  obtain ⟨s3, e3, i3⟩ := forUp_inv (fuel := fuel) (cond := fun i => decide (i < f.length / 2))
    (inner := fun i o out => do
      let j0 ← sub i (← sub x.length 1)
      let s ← forJs fuel (fun j => pure (decide (j ≤ i)))
        (fun j out => do acc2 f x o (o + 1) j (← sub i j) out) (j0, out)
      pure s.2) (B := f.length / 2) i2 (by intro i; rfl) (by
      intro i hi' hi out' hl
      rw [sub_eq hN, C_bind_ok, sub_eq (by omega), C_bind_ok]
      have := upDirect_eq (fuel := fuel) (x := x) (f := f) (e := ext .zero x) (i := i)
        (B := i + 1) (j0 := i - (x.length - 1)) (oe := 0 + 2 * (i - 0))
        (oo := 0 + 2 * (i - 0) + 1)
        (more := fun j => pure (decide (j ≤ i))) (out := out') (by omega) (by omega) (by omega) hex
        (by intro j; simp) (by omega) (by omega) (by omega) (by omega)
      rw [sum_eq_zero (s := range (i - (x.length - 1))) (by
        intro l hl
        simp only [mem_range] at hl
        exact hz i l (by omega)), bump2_zero] at this
      rw [this]
      simp only [C_bind_ok, C_pure]
      rw [← hsum, max_eq_right (by omega),
        ← sum_tail (j := f.length / 2) (fun l hl => hz i l (by omega)) (by omega)]) (by omega)
  rw [e3]
  simp only [C_bind_ok]
  obtain ⟨s4, e4, i4⟩ := forUp_inv (fuel := fuel)
    (cond := fun i => decide (i < x.length + f.length / 2))
    (inner := fun i o out => do
      let j0 ← sub i (← sub x.length 1)
      let s ← forJs fuel (ltF (f.length / 2))
        (fun j out => do acc2 f x o (o + 1) j (← sub i j) out) (j0, out)
      pure s.2) (B := x.length + f.length / 2) i3 (by intro i; rfl) (by
      intro i hi' hi out' hl
      rw [sub_eq hN, C_bind_ok, sub_eq (by omega), C_bind_ok]
      by_cases hlast : i = x.length + f.length / 2 - 1
      · rw [bump2_oob _ _ _ _ (by omega) (by omega)]
        obtain ⟨n, rfl⟩ : ∃ n, fuel = n + 1 := ⟨fuel - 1, by omega⟩
        have : ¬ (i - (x.length - 1) < f.length / 2) := by omega
        simp [forJs, loop, ltF, this]
      have := upDirect_eq (fuel := fuel) (x := x) (f := f) (e := ext .zero x) (i := i)
        (B := f.length / 2) (j0 := i - (x.length - 1)) (oe := 0 + 2 * (i - 0))
        (oo := 0 + 2 * (i - 0) + 1)
        (more := ltF (f.length / 2)) (out := out') (by omega) (by omega) (by omega) hex
        (by intro j; rfl) (by omega) (by omega) (by omega) (by omega)
      rw [sum_eq_zero (s := range (i - (x.length - 1))) (by
        intro l hl
        simp only [mem_range] at hl
        exact hz i l (by omega)), bump2_zero] at this
      rw [this]
      simp only [C_bind_ok, C_pure]
      rw [← hsum, max_eq_right (by omega)]) (by omega)
  rw [e4]
  simp only [C_bind_ok, C_pure]
  rw [i4.final (by omega)]

theorem usValid_eq {fuel : ℕ} {x : List M} {f : List R} {out : List M}
    (hF : 2 ≤ f.length) (hF2 : f.length % 2 = 0) (hN : f.length / 2 ≤ x.length)
    (hout : out.length = 2 * x.length + 2 - f.length)
    (hfuel : x.length + f.length < fuel) :
    usValid fuel x f out =
      .ok (some (List.zipWith (· + ·) out ((List.range out.length).map fun n : ℕ =>
        conv f (upsample (ext .zero x)) ((n : ℤ) + (f.length - 2))))) := by
  set h : ℕ → M := fun n => conv f (upsample (ext .zero x)) ((n : ℤ) + (f.length - 2)) with hh
  have hex : ∀ k, k < x.length → ext .zero x (k : ℤ) = x.getD k 0 := fun k hk => ext_zero_in x hk
  unfold usValid
  simp only
  rw [if_neg (by omega), sub_eq (by omega), C_bind_ok]
  have hsum : ∀ i : ℕ, f.length / 2 - 1 ≤ i →
      ∑ l ∈ range (f.length / 2), pairTerm f (ext .zero x) i l =
      (h (0 + 2 * (i - (f.length / 2 - 1))), h (0 + 2 * (i - (f.length / 2 - 1)) + 1)) := by
    intro i hi
    rw [pair_sum hF2]
    simp only [hh]
    rw [show (((0 + 2 * (i - (f.length / 2 - 1)) : ℕ) : ℤ) + ((f.length : ℤ) - 2)) = 2 * i by omega,
      show (((0 + 2 * (i - (f.length / 2 - 1)) + 1 : ℕ) : ℤ) + ((f.length : ℤ) - 2)) = 2 * i + 1
        by omega]
  obtain ⟨s1, e1, i1⟩ := forUp_inv (fuel := fuel) (base := out) (h := h) (i0 := f.length / 2 - 1)
    (lo := 0)
    (cond := fun i => decide (i < x.length))
    (inner := fun i o out => do
      let s ← forJ fuel 1 (ltF (f.length / 2)) (fun j => do pairProd f x j (← sub i j))
        (0, (0 : M × M))
      let out ← addTo out o s.2.1
      addTo out (o + 1) s.2.2) (i1 := f.length / 2 - 1) (B := x.length)
    (s := (f.length / 2 - 1, 0, out))
    ⟨le_rfl, rfl, by simp, rfl, by intro q _; simp⟩ (by intro i; rfl) (by
      intro i hi' hi out' hl
      rw [forJ_eq (g := pairTerm f (ext .zero x) i) (B := f.length / 2) (fun j _ => ltF_eq _ _) (by
        intro j h1 h2
        rw [sub_eq (by omega), C_bind_ok, pairProd_eq (by omega) (by omega), pairTerm,
          show (i : ℤ) - j = ((i - j : ℕ) : ℤ) by omega, hex _ (by omega)]) (by simp) (by omega)]
      simp only [C_bind_ok, Nat.zero_max]
      rw [addTo_eq _ _ _ (by omega), C_bind_ok, addTo_eq _ _ _ (by simp; omega), hsum i hi']
      rfl) (by omega)
  rw [e1]
  simp only [C_bind_ok, C_pure]
  rw [i1.final (by omega)]

theorem upPerFirst_eq {fuel : ℕ} {x : List M} {f : List R} {out : List M}
    (hN : 1 ≤ x.length) (hF : 4 ≤ f.length) (hF2 : f.length % 4 = 0)
    (hout : out.length = 2 * x.length)
    (hfuel : x.length + f.length < fuel) :
    upPerFirst fuel x f (f.length / 4) out =
      .ok (bump2 out (2 * x.length - 1) 0 (∑ l ∈ range (f.length / 2),
        pairTerm f (ext .periodic x) (x.length + f.length / 4 - 1) l)) := by
  have hex : ∀ k, k < x.length → ext .periodic x (k : ℤ) = x.getD k 0 :=
    fun k hk => ext_per x (q := 0) hk (by ring)
  unfold upPerFirst
  simp only
  rw [sub_eq (by omega), C_bind_ok, sub_eq (by omega), C_bind_ok]
  have key := upRight_gen (fuel := fuel) (x := x) (f := f) (i := x.length + f.length / 4 - 1)
    (oe := 2 * x.length - 1) (oo := 0) (out := out)
    (cond := fun j => pure (decide (j ≤ f.length / 4 - 1)))
    (idx := fun j => sub (f.length / 4 - 1) j) (by omega) (by omega) (by omega) hN (by omega)
    (by omega) (by
      intro j _
      have : (j ≤ f.length / 4 - 1) ↔ (j < x.length + f.length / 4 - 1 + 1 - x.length) := by omega
      simp only [this, C_pure]) (by
      intro j hj
      rw [sub_eq (by omega)]
      congr 1
      omega) hfuel
  rw [key]
  simp only [C_bind_ok]
  rw [sub_eq (by omega), C_bind_ok]
  rw [upDirect_eq (B := min (x.length + f.length / 4) (f.length / 2)) (by omega) (by omega)
    (by omega) hex (by
      intro j
      rw [← Bool.decide_and]
      have : (j ≤ x.length + f.length / 4 - 1 ∧ j < f.length / 2) ↔
        j < min (x.length + f.length / 4) (f.length / 2) := by omega
      simp only [this, C_pure]) (by omega) (by omega) (by omega) (by omega)]
  simp only [C_bind_ok]
  rw [upLeft_eq (by omega) (by omega) (by omega) hN (by omega) (by omega) hfuel]
  rfl

theorem usPer_eq {fuel : ℕ} {x : List M} {f : List R} {out : List M}
    (hN : 1 ≤ x.length) (hF : 2 ≤ f.length) (hF2 : f.length % 2 = 0)
    (hout : out.length = 2 * x.length)
    (hfuel : x.length + f.length < fuel) :
    usPer fuel x f out =
      .ok (some (List.zipWith (· + ·) out ((List.range out.length).map fun n : ℕ =>
        conv f (upsample (ext .periodic x)) ((n : ℤ) + ((f.length / 2 : ℕ) - 1))))) := by
  set h : ℕ → M := fun n => conv f (upsample (ext .periodic x)) ((n : ℤ) + ((f.length / 2 : ℕ) - 1))
    with hh
  have hex : ∀ k, k < x.length → ext .periodic x (k : ℤ) = x.getD k 0 :=
    fun k hk => ext_per x (q := 0) hk (by ring)
  set lo := if f.length / 2 % 2 = 0 then 1 else 0 with hlo
  set stop := x.length + f.length / 4 - lo with hstop
  have hlo' : (if f.length / 2 % 2 ≠ 0 then 0 else 1) = lo := by rw [hlo]; split <;> simp_all
  have hlo2 : 2 * (f.length / 4) + 1 = f.length / 2 + lo := by
    rw [hlo]; split <;> omega
  have hlo3 : lo ≤ 1 := by rw [hlo]; split <;> omega
  have hsum : ∀ i : ℕ, f.length / 4 ≤ i →
      ∑ l ∈ range (f.length / 2), pairTerm f (ext .periodic x) i l =
      (h (lo + 2 * (i - f.length / 4)), h (lo + 2 * (i - f.length / 4) + 1)) := by
    intro i hi
    rw [pair_sum hF2]
    simp only [hh]
    rw [show (((lo + 2 * (i - f.length / 4) : ℕ) : ℤ) + (((f.length / 2 : ℕ) : ℤ) - 1)) = 2 * i
        by omega,
      show (((lo + 2 * (i - f.length / 4) + 1 : ℕ) : ℤ) + (((f.length / 2 : ℕ) : ℤ) - 1)) = 2 * i + 1
        by omega]
  unfold usPer
  simp only
  rw [hlo', sub_eq (by omega), C_bind_ok, if_neg (by omega), ← hstop, ← hlo]
  -- the buffer after the first block
  obtain ⟨base, hbase, hbl, hbv⟩ : ∃ base : List M,
      upPerShift fuel x f out =
        .ok base ∧ base.length = 2 * x.length ∧ ∀ q < 2 * x.length,
          base.getD q 0 = out.getD q 0 +
            if lo ≤ q ∧ q < lo + 2 * (stop - f.length / 4) then 0 else h q := by
    unfold upPerShift
    by_cases hH : f.length / 2 % 2 = 0
    · have hl1 : lo = 1 := by rw [hlo, if_pos hH]
      rw [if_pos hH, upPerFirst_eq hN (by omega) (by omega) hout hfuel]
      refine ⟨_, rfl, by simp [hout], ?_⟩
      intro q hq
      rw [getD_bump2 _ _ _ _ _ (by omega) (by omega), hsum _ (by omega)]
      congr 1
      by_cases q1 : q = 2 * x.length - 1
      · rw [if_pos q1, if_neg (by omega)]
        show h _ = h _
        congr 1
        omega
      · rw [if_neg q1]
        by_cases q2 : q = 0
        · rw [if_pos q2, if_neg (by omega), q2]
          simp only [hh]
          -- periodicity: position 2N later
          have hper : ∀ p : ℤ, ext .periodic x (p + x.length) = ext .periodic x p := by
            intro p; simp [Spec.ext]
          have hu : ∀ p : ℤ, upsample (ext .periodic x) (p + 2 * x.length) =
              upsample (ext .periodic x) p := by
            intro p
            unfold upsample
            by_cases hp : p % 2 = 0
            · rw [if_pos hp, if_pos (by omega),
                show (p + 2 * (x.length : ℤ)) / 2 = p / 2 + x.length by omega, hper]
            · rw [if_neg hp, if_neg (by omega)]
          unfold conv
          apply sum_congr rfl
          intro l _
          rw [← hu ((0 : ℕ) + (((f.length / 2 : ℕ) : ℤ) - 1) - l)]
          congr 2
          omega
        · rw [if_neg q2, if_pos (by omega)]
    · have hl1 : lo = 0 := by rw [hlo, if_neg hH]
      rw [if_neg hH]
      refine ⟨out, rfl, hout, ?_⟩
      intro q hq
      rw [if_pos (by omega), add_zero]
  rw [hbase, C_bind_ok]
  obtain ⟨s1, e1, i1⟩ := forUp_inv (fuel := fuel) (base := base) (h := h) (i0 := f.length / 4)
    (lo := lo)
    (cond := fun i => decide (i < f.length / 2) && decide (i < x.length))
    (inner := fun i o out => do
      let s ← forJs fuel (fun j => pure (decide (j ≤ i)))
        (fun j out => do acc2 f x o (o + 1) j (← sub i j) out) (0, out)
      let s ← upLeft fuel x f o (o + 1) s
      pure s.2) (i1 := f.length / 4) (B := min (f.length / 2) x.length)
    (s := (f.length / 4, lo, base))
    ⟨le_rfl, rfl, by simp, rfl, by intro q _; rw [if_neg (by omega), add_zero]⟩
    (by intro i; simp) (by
      intro i hi' hi out' hl
      have hil : i < stop ∨ (lo = 1 ∧ i = x.length + f.length / 4 - 1 ∧ f.length < 4) := by
        omega
      have := upDirect_eq (fuel := fuel) (x := x) (f := f) (e := ext .periodic x) (i := i)
        (B := i + 1) (j0 := 0) (oe := lo + 2 * (i - f.length / 4))
        (oo := lo + 2 * (i - f.length / 4) + 1)
        (more := fun j => pure (decide (j ≤ i))) (out := out') (by omega) (by omega) (by omega) hex
        (by intro j; simp) (by omega) (by omega) (by omega) (by omega)
      simp only [range_zero, sum_empty, bump2_zero] at this
      rw [this]
      simp only [C_bind_ok, Nat.zero_max]
      rw [upLeft_eq (by omega) (by omega) (by omega) hN (by omega) (by omega) hfuel]
      rw [← hsum i hi']; rfl) (by omega)
  rw [e1]
  simp only [C_bind_ok]
  obtain ⟨s2, e2, i2⟩ := forUp_inv (fuel := fuel) (cond := fun i => decide (i < x.length))
    (inner := fun i o out => do
      let s ← forJs fuel (ltF (f.length / 2))
        (fun j out => do acc2 f x o (o + 1) j (← sub i j) out) (0, out)
      pure s.2) (B := x.length) i1 (by intro i; rfl) (by
      intro i hi' hi out' hl
      have := upDirect_eq (fuel := fuel) (x := x) (f := f) (e := ext .periodic x) (i := i)
        (B := f.length / 2) (j0 := 0) (oe := lo + 2 * (i - f.length / 4))
        (oo := lo + 2 * (i - f.length / 4) + 1)
        (more := ltF (f.length / 2)) (out := out') (by omega) (by omega) (by omega) hex
        (by intro j; rfl) (by omega) (by omega) (by omega) (by omega)
      simp only [range_zero, sum_empty, bump2_zero] at this
      rw [this]
      simp only [C_bind_ok, C_pure, Nat.zero_max]
      rw [← hsum i (by omega)]) (by omega)
  rw [e2]
  simp only [C_bind_ok]
  obtain ⟨s3, e3, i3⟩ := forUp_inv (fuel := fuel)
    (cond := fun i => decide (i < f.length / 2) && decide (i < stop))
    (inner := fun i o out => do
      let s ← upRight fuel x f i o (o + 1) (0, out)
      let s ← forJs fuel (fun j => pure (decide (j ≤ i) && decide (j < f.length / 2)))
        (fun j out => do acc2 f x o (o + 1) j (← sub i j) out) s
      let s ← upLeft fuel x f o (o + 1) s
      pure s.2) (B := min (f.length / 2) stop) i2 (by intro i; simp) (by
      intro i hi' hi out' hl
      rw [upRight_eq (by omega) (by omega) (by omega) hN (by omega) (by omega) hfuel]
      simp only [C_bind_ok]
      rw [upDirect_eq (B := i + 1) (by omega) (by omega) (by omega) hex (by
        intro j
        rw [← Bool.decide_and]
        have : (j ≤ i ∧ j < f.length / 2) ↔ j < i + 1 := by omega
        simp only [this, C_pure]) (by omega) (by omega) (by omega) (by omega)]
      simp only [C_bind_ok]
      rw [max_eq_right (by omega)]
      rw [upLeft_eq (by omega) (by omega) (by omega) hN (by omega) (by omega) hfuel]
      rw [← hsum i (by omega)]; rfl) (by omega)
  rw [e3]
  simp only [C_bind_ok]
  obtain ⟨s4, e4, i4⟩ := forUp_inv (fuel := fuel)
    (cond := fun i => decide (i < stop))
    (inner := fun i o out => do
      let s ← upRight fuel x f i o (o + 1) (0, out)
      let s ← forJs fuel (fun j => pure (decide (j ≤ i) && decide (j < f.length / 2)))
        (fun j out => do acc2 f x o (o + 1) j (← sub i j) out) s
      pure s.2) (B := stop) i3 (by intro i; rfl) (by
      intro i hi' hi out' hl
      rw [upRight_eq (by omega) (by omega) (by omega) hN (by omega) (by omega) hfuel]
      simp only [C_bind_ok]
      rw [upDirect_eq (B := f.length / 2) (by omega) (by omega) (by omega) hex (by
        intro j
        rw [← Bool.decide_and]
        have : (j ≤ i ∧ j < f.length / 2) ↔ j < f.length / 2 := by omega
        simp only [this, C_pure]) (by omega) (by omega) (by omega) (by omega)]
      simp only [C_bind_ok]
      rw [max_eq_right (by omega), ← hsum i (by omega)]; rfl) (by omega)
  rw [e4]
  simp only [C_bind_ok, C_pure]
  obtain ⟨-, -, -, h3, h4⟩ := i4
  congr 2
  apply ext_getD (by simp [h3, hbl, hout])
  intro q hq
  rw [h3, hbl] at hq
  have hmax : max (max (max (max (f.length / 4) (min (f.length / 2) x.length)) x.length)
    (min (f.length / 2) stop)) stop = max x.length stop := by omega
  rw [h4 q (by omega), hbv q hq, hmax]
  rw [List.getD_eq_getElem out _ (by omega),
    List.getD_eq_getElem (List.zipWith _ _ _) _ (by simp; omega)]
  simp only [List.getElem_zipWith, List.getElem_map, List.getElem_range]
  rw [add_assoc]
  congr 1
  by_cases hc : lo ≤ q ∧ q < lo + 2 * (stop - f.length / 4)
  · rw [if_pos hc, if_pos (by omega), zero_add]
  · rw [if_neg hc, if_neg (by omega), add_zero]

end Pywt
