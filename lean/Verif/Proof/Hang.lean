import Verif.Proof.Loop
import Verif.Model.Dwt
import Verif.Proof.Multi

/-! The modes that reflect about the edge samples never terminate on a one-sample signal. -/

namespace Pywt

set_option linter.unusedSectionVars false

variable {R M : Type} [Ring R] [AddCommGroup M] [Module R M]

theorem loop_stuck {σ : Type} {cond : σ → C Bool} {body : σ → C σ} {s : σ}
    (hc : cond s = .ok true) (hb : body s = .ok s) (n : ℕ) :
    loop cond body n s = .error .fuel := by
  induction n with
  | zero => rfl
  | succ n ih =>
    rw [loop, hc]
    simp only [C_bind_ok, if_true]
    rw [hb]
    simpa using ih

theorem dsConv_reflect_one (fuel : ℕ) (v : M) (f : List R) (out : List M) (hF : 2 ≤ f.length) :
    dsConv fuel [v] f out 2 .reflect = .error .fuel := by
  cases fuel with
  | zero =>
    rfl
  | succ n =>
    have hr : rightSwitch (n + 1) .reflect [v] f 1 = .error .fuel := by
      unfold rightSwitch
      apply loop_stuck
      · simp [geN, sub, C_pure]
      · simp [forKJ, loop, C_pure]
    have hlt : (1 : ℕ) < f.length := hF
    unfold dsConv dsConvBody
    simp [sub, forOut, loop, hr, hlt, C_pure]

theorem loop_stuck_inv {σ : Type} {cond : σ → C Bool} {body : σ → C σ} (P : σ → Prop)
    (hc : ∀ s, P s → cond s = .ok true) (hb : ∀ s, P s → ∃ t, body s = .ok t ∧ P t) (n : ℕ) :
    ∀ s, P s → loop cond body n s = .error .fuel := by
  induction n with
  | zero => intros; rfl
  | succ n ih =>
    intro s hs
    obtain ⟨t, ht, hPt⟩ := hb s hs
    rw [loop, hc s hs]
    simp only [C_bind_ok, if_true]
    rw [ht]
    simpa using ih t hPt

theorem dsConv_antireflect_one (fuel : ℕ) (v : M) (f : List R) (out : List M)
    (hF : 2 ≤ f.length) : dsConv fuel [v] f out 2 .antireflect = .error .fuel := by
  cases fuel with
  | zero =>
    rfl
  | succ n =>
    have hr : rightSwitch (n + 1) .antireflect [v] f 1 = .error .fuel := by
      unfold rightSwitch
      simp only [rdRev, rd, sub, List.length_singleton]
      have := loop_stuck_inv (σ := ℕ × M × M × M) (cond := fun s => geN 1 1 s.1)
        (body := fun s => do
          let (j, re, tmp, sum) := s
          let (j, tmp, sum) ← forTmp (n + 1) 1 (geN 1 1)
            (fun k => do
              let b ← rdRev [v] k
              let c ← rdRev [v] 0
              pure (re - (b - c))) (fun j => sub3 1 1 j) f (j, tmp, sum)
          let re := tmp
          let (j, tmp, sum) ← forTmp (n + 1) 1 (geN 1 1)
            (fun k => do
              let b ← rd [v] k
              let c ← rd [v] 0
              pure (re + (b - c))) (fun j => sub3 1 1 j) f (j, tmp, sum)
          let re := tmp
          pure (j, re, tmp, sum)) (fun s => s.1 = 0)
        (by rintro ⟨j, s⟩ (rfl : j = 0); simp [geN, sub, C_pure])
        (by
          rintro ⟨j, re, tmp, sum⟩ (rfl : j = 0)
          refine ⟨(0, tmp, tmp, sum), ?_, rfl⟩
          simp [forTmp, loop, C_pure]) (n + 1) (0, v, 0, 0) rfl
      simp [C_pure, rdRev, rd, sub] at this ⊢
      rw [this]
      rfl
    have hlt : (1 : ℕ) < f.length := hF
    unfold dsConv dsConvBody
    simp [sub, forOut, loop, hr, hlt, C_pure]

theorem decStep_one {w : Wavelet R} (hw : w.Ok) {mode : Mode}
    (hm : mode = .reflect ∨ mode = .antireflect) {x : List M} (hx : x.length = 1) (n : ℕ)
    (hn : n = dwtBufferLength x.length w.dec_len mode) :
    callC (dec_a w x (zeros n) mode) = .error (.c .fuel) ∧
    callC (dec_d w x (zeros n) mode) = .error (.c .fuel) := by
  obtain ⟨h1, h2, h3, h4, h5⟩ := hw
  obtain ⟨v, rfl⟩ : ∃ v, x = [v] := List.length_eq_one_iff.mp hx
  have h6 : 2 ≤ w.dec_hi.length := by omega
  have e : (zeros n : List M).length = dwtBufferLength 1 w.dec_len mode := by
    simp [zeros, hn]
  unfold dec_a dec_d decStep
  rcases hm with rfl | rfl <;>
    simp [hn, zeros, dsConv_reflect_one _ _ _ _ h1, dsConv_reflect_one _ _ _ _ h6,
      dsConv_antireflect_one _ _ _ _ h1, dsConv_antireflect_one _ _ _ _ h6, callC]

end Pywt
