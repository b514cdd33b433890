import Verif.Model.C
import Verif.Spec.Ext

/-!
# Model of `pywt/_extensions/c/convolution.template.c`

Loop-by-loop model of the C kernels in the checked monad of `Verif.Model.C`.
Simplifications: `TYPE` is an arbitrary type `M` with the operations the code uses, `REAL_TYPE` a type `R` (exact
arithmetic is a module over a ring; `Verif.Model.Float` has arithmetic that rounds); `N`/`F` are the lengths of the buffers actually passed (as in every call site);
`sum -= a*b` is written `sum += -(a*b)`.
-/

namespace Pywt

variable {R M : Type} [Zero M] [Add M] [Neg M] [Sub M] [SMul ℕ M] [SMul R M]

/-- `filter[j] * input[k]`. -/
def prod (f : List R) (j : Nat) (x : List M) (k : Nat) : C M := do
  let a ← rd f j
  let b ← rd x k
  pure (a • b)

/-- The rvalue `input[N-1-k]`, with both subtractions checked. -/
def rdRev {α : Type} (x : List α) (k : Nat) : C α := do
  let a ← sub x.length 1
  let b ← sub a k
  rd x b

/-- `filter[j] * input[N-1-k]`. -/
def prodRev (f : List R) (j : Nat) (x : List M) (k : Nat) : C M := do
  let a ← rd f j
  let b ← rdRev x k
  pure (a • b)

/-- The condition `j < F`. -/
def ltF (F : Nat) (j : Nat) : C Bool := pure (decide (j < F))

/-- The condition `i-j >= N` on `size_t` (the subtraction is checked). -/
def geN (i N : Nat) (j : Nat) : C Bool := do
  let d ← sub i j
  pure (decide (N ≤ d))

/-- The index expression `i-N-j`, checked left to right. -/
def sub3 (i N j : Nat) : C Nat := do
  let d ← sub i N
  sub d j

/-- The `tmp`-carrying loops of MODE_ANTIREFLECT:
`for(k = 1; k < N && more(j); ++j, ++k){ tmp = val(k); sum += filter[idx(j)]*tmp; }`;
state `(j, tmp, sum)`.  convolution.template.c L187-190, L192-195, L277-280, L282-285 etc. -/
def forTmp (fuel N : Nat) (more : Nat → C Bool) (val : Nat → C M) (idx : Nat → C Nat)
    (f : List R) (st : Nat × M × M) : C (Nat × M × M) := do
  let r ← loop (σ := Nat × Nat × M × M)
    (fun s => if s.1 < N then more s.2.1 else pure false)
    (fun s => do
      let tmp ← val s.1
      let l ← idx s.2.1
      let a ← rd f l
      pure (s.1 + 1, s.2.1 + 1, tmp, s.2.2.2 + a • tmp))
    fuel (1, st.1, st.2.1, st.2.2)
  pure r.2

/-- The `switch(mode)` that continues the filter past the *left* edge of the signal
(convolution.template.c L152-220; repeated verbatim at L316-384).  State `(j, sum)`. -/
def leftSwitch (fuel : Nat) (mode : Mode) (x : List M) (f : List R) (st : Nat × M) :
    C (Nat × M) :=
  let N := x.length
  let F := f.length
  match mode with
  | .symmetric =>
      loop (fun s => ltF F s.1) (fun s => do
        let s ← forKJ fuel N 0 1 1 (ltF F) (fun j k => prod f j x k) s
        forKJ fuel N 0 1 1 (ltF F) (fun j k => prodRev f j x k) s) fuel st
  | .antisymmetric =>
      loop (fun s => ltF F s.1) (fun s => do
        let s ← forKJ fuel N 0 1 1 (ltF F) (fun j k => do pure (-(← prod f j x k))) s
        forKJ fuel N 0 1 1 (ltF F) (fun j k => prodRev f j x k) s) fuel st
  | .reflect =>
      loop (fun s => ltF F s.1) (fun s => do
        let s ← forKJ fuel N 1 1 1 (ltF F) (fun j k => prod f j x k) s
        forKJ fuel N 1 1 1 (ltF F) (fun j k => prodRev f j x k) s) fuel st
  | .antireflect => do
      let le ← rd x 0
      -- state (j, le, sum); `tmp` starts at 0 and survives from one round to the next (as `le`
      -- is set to it at the end of each round, carrying `tmp` besides `le` is needed only for the
      -- first round, where it is 0)
      let r ← loop (σ := Nat × M × M × M) (fun s => ltF F s.1) (fun s => do
        let (j, le, tmp, sum) := s
        let (j, tmp, sum) ← forTmp fuel N (ltF F)
          (fun k => do
            let b ← rd x k
            let c ← rd x 0
            pure (le - (b - c))) (fun j => pure j) f (j, tmp, sum)
        let le := tmp
        let (j, tmp, sum) ← forTmp fuel N (ltF F)
          (fun k => do
            let b ← rdRev x k
            let c ← rdRev x 0
            pure (le + (b - c))) (fun j => pure j) f (j, tmp, sum)
        let le := tmp
        pure (j, le, tmp, sum)) fuel (st.1, le, 0, st.2)
      pure (r.1, r.2.2.2)
  | .constant => forJ fuel 1 (ltF F) (fun j => prod f j x 0) st
  | .smooth => do
      -- for(k = 1; j < F; ++j, ++k) sum += filter[j]*(input[0] + k * (input[0] - input[1]));
      let r ← loop (σ := Nat × Nat × M) (fun s => ltF F s.2.1) (fun s => do
        let a ← rd f s.2.1
        let x0 ← rd x 0
        let x1 ← rd x 1
        pure (s.1 + 1, s.2.1 + 1, s.2.2 + a • (x0 + s.1 • (x0 - x1)))) fuel (1, st.1, st.2)
      pure r.2
  | .periodic =>
      loop (fun s => ltF F s.1) (fun s =>
        forKJ fuel N 0 1 1 (ltF F) (fun j k => prodRev f j x k) s) fuel st
  | .zero => pure st
  | .periodization => pure st   -- `default:`; unreachable, handled by a separate function

/-- The `switch(mode)` that covers the part of the filter past the *right* edge of the signal
(convolution.template.c L238-311; repeated verbatim at L392-464).  Starts from `j = 0`, `sum = 0`;
returns `(j, sum)`. -/
def rightSwitch (fuel : Nat) (mode : Mode) (x : List M) (f : List R) (i : Nat) : C (Nat × M) :=
  let N := x.length
  match mode with
  | .symmetric =>
      loop (fun s => geN i N s.1) (fun s => do
        let s ← forKJ fuel N 0 1 1 (geN i N) (fun j k => do prodRev f (← sub3 i N j) x k) s
        forKJ fuel N 0 1 1 (geN i N) (fun j k => do prod f (← sub3 i N j) x k) s) fuel (0, 0)
  | .antisymmetric =>
      loop (fun s => geN i N s.1) (fun s => do
        let s ← forKJ fuel N 0 1 1 (geN i N)
          (fun j k => do pure (-(← prodRev f (← sub3 i N j) x k))) s
        forKJ fuel N 0 1 1 (geN i N) (fun j k => do prod f (← sub3 i N j) x k) s) fuel (0, 0)
  | .reflect =>
      loop (fun s => geN i N s.1) (fun s => do
        let s ← forKJ fuel N 1 1 1 (geN i N) (fun j k => do prodRev f (← sub3 i N j) x k) s
        forKJ fuel N 1 1 1 (geN i N) (fun j k => do prod f (← sub3 i N j) x k) s) fuel (0, 0)
  | .antireflect => do
      let re ← rdRev x 0
      let r ← loop (σ := Nat × M × M × M) (fun s => geN i N s.1) (fun s => do
        let (j, re, tmp, sum) := s
        let (j, tmp, sum) ← forTmp fuel N (geN i N)
          (fun k => do
            let b ← rdRev x k
            let c ← rdRev x 0
            pure (re - (b - c))) (fun j => sub3 i N j) f (j, tmp, sum)
        let re := tmp
        let (j, tmp, sum) ← forTmp fuel N (geN i N)
          (fun k => do
            let b ← rd x k
            let c ← rd x 0
            pure (re + (b - c))) (fun j => sub3 i N j) f (j, tmp, sum)
        let re := tmp
        pure (j, re, tmp, sum)) fuel (0, re, 0, 0)
      pure (r.1, r.2.2.2)
  | .constant => forJ fuel 1 (geN i N) (fun j => prodRev f j x 0) (0, 0)
  | .smooth => do
      -- for(k = i - N + 1; i-j >= N; ++j, --k)
      --   sum += filter[j]*(input[N-1] + k * (input[N-1] - input[N-2]));
      let k0 ← sub i N
      let r ← loop (σ := Nat × Nat × M) (fun s => geN i N s.2.1) (fun s => do
        let a ← rd f s.2.1
        let x1 ← rdRev x 0
        let x2 ← rdRev x 1
        let k' ← sub s.1 1
        pure (k', s.2.1 + 1, s.2.2 + a • (x1 + s.1 • (x1 - x2)))) fuel (k0 + 1, 0, 0)
      pure r.2
  | .periodic =>
      loop (fun s => geN i N s.1) (fun s =>
        forKJ fuel N 0 1 1 (geN i N) (fun j k => do prod f (← sub3 i N j) x k) s) fuel (0, 0)
  | .zero => do
      let d ← sub i N
      pure (d + 1, 0)
  | .periodization => do       -- `default:`; unreachable
      let d ← sub i N
      pure (d + 1, 0)

/-- `for(; cond(i); i += step, ++o){ …; output[o] = sum; }`; state `(i, o, output)`. -/
def forOut (fuel step : Nat) (cond : Nat → Bool) (sumAt : Nat → C M)
    (st : Nat × Nat × List M) : C (Nat × Nat × List M) :=
  loop (σ := Nat × Nat × List M) (fun s => pure (cond s.1)) (fun s => do
    let sum ← sumAt s.1
    let out ← wr s.2.2 s.2.1 sum
    pure (s.1 + step, s.2.1 + 1, out)) fuel st

/-- `downsampling_convolution` for the modes other than periodization
(convolution.template.c L137, L142-469).  Returns the output buffer. -/
def dsConvBody (fuel : Nat) (x : List M) (f : List R) (out : List M) (step : Nat) (mode : Mode) :
    C (List M) := do
  let N := x.length
  let F := f.length
  let i0 ← sub step 1
  -- L142-143
  let mode := if mode = .smooth ∧ N < 2 then Mode.constant else mode
  -- left boundary overhang, L146-222
  let st ← forOut fuel step (fun i => decide (i < F) && decide (i < N)) (fun i => do
    let s ← forJ fuel 1 (fun j => pure (decide (j ≤ i)))
      (fun j => do prod f j x (← sub i j)) (0, (0 : M))
    let s ← leftSwitch fuel mode x f s
    pure s.2) (i0, 0, out)
  -- center, N >= F, L225-231
  let st ← forOut fuel step (fun i => decide (i < N)) (fun i => do
    let s ← forJ fuel 1 (ltF F) (fun j => do prod f j x (← sub i j)) (0, (0 : M))
    pure s.2) st
  -- center, F > N, L234-386
  let st ← forOut fuel step (fun i => decide (i < F)) (fun i => do
    let s ← rightSwitch fuel mode x f i
    let s ← forJ fuel 1 (fun j => pure (decide (j ≤ i))) (fun j => do prod f j x (← sub i j)) s
    let s ← leftSwitch fuel mode x f s
    pure s.2) st
  -- right boundary overhang, L389-468
  let lim ← sub (N + F) 1
  let st ← forOut fuel step (fun i => decide (i < lim)) (fun i => do
    let s ← rightSwitch fuel mode x f i
    let s ← forJ fuel 1 (ltF F) (fun j => do prod f j x (← sub i j)) s
    pure s.2) st
  pure st.2.2

/-- The loop over the tail of the filter in the periodization kernel (L60-66, L96-102):
`while (j < F){ for (k = k_start; k < padding && j < F; k += fstep, j += fstep) sum += filter[j]*input[N-1];
               for (k = k_start; k < N && j < F; k += fstep, j += fstep) sum += filter[j]*input[N-1-k]; }` -/
def perLeft (fuel padding fstep kStart : Nat) (x : List M) (f : List R) (st : Nat × M) :
    C (Nat × M) :=
  let N := x.length
  let F := f.length
  loop (fun s => ltF F s.1) (fun s => do
    let s ← forKJ fuel padding kStart fstep fstep (ltF F) (fun j _ => prodRev f j x 0) s
    forKJ fuel N kStart fstep fstep (ltF F) (fun j k => prodRev f j x k) s) fuel st

/-- The loop over the head of the filter in the periodization kernel (L82-89, L109-116). -/
def perRight (fuel padding : Nat) (x : List M) (f : List R) (i : Nat) : C (Nat × M) :=
  let N := x.length
  loop (fun s => geN i N s.1) (fun s => do
    let s ← forKJ fuel padding 0 1 1 (geN i N) (fun j _ => do prodRev f (← sub3 i N j) x 0) s
    forKJ fuel N 0 1 1 (geN i N) (fun j k => do prod f (← sub3 i N j) x k) s) fuel (0, 0)

/-- `if (fstep > 1) j += (fstep - j % fstep) % fstep;` (L90-91, L117-118). -/
def perAlign (fstep : Nat) (st : Nat × M) : C (Nat × M) :=
  if 1 < fstep then do
    let d ← sub fstep (st.1 % fstep)
    pure (st.1 + d % fstep, st.2)
  else pure st

/-- `k_start`: `0`, or `j - (i + 1)` when `fstep > 1` (L55-59, L81, L94-95). -/
def perKStart (fstep i j : Nat) : C Nat :=
  if 1 < fstep then sub j (i + 1) else pure 0

/-- `downsampling_convolution_periodization` (convolution.template.c L44-124). -/
def dsConvPer (fuel : Nat) (x : List M) (f : List R) (out : List M) (step fstep : Nat) :
    C (List M) := do
  let N := x.length
  let F := f.length
  let pd ← sub step (N % step)
  let padding := pd % step
  -- L52-68
  let st ← forOut fuel step (fun i => decide (i < F) && decide (i < N)) (fun i => do
    let s ← forJ fuel fstep (fun j => pure (decide (j ≤ i)))
      (fun j => do prod f j x (← sub i j)) (0, (0 : M))
    let kStart ← perKStart fstep i s.1
    let s ← perLeft fuel padding fstep kStart x f s
    pure s.2) (F / 2, 0, out)
  -- L70-76
  let st ← forOut fuel step (fun i => decide (i < N)) (fun i => do
    let s ← forJ fuel fstep (ltF F) (fun j => do prod f j x (← sub i j)) (0, (0 : M))
    pure s.2) st
  -- L78-104
  let st ← forOut fuel step (fun i => decide (i < F) && decide (i < N + F / 2)) (fun i => do
    let s ← perRight fuel padding x f i
    let s ← perAlign fstep s
    let s ← forJ fuel fstep (fun j => pure (decide (j ≤ i)))
      (fun j => do prod f j x (← sub i j)) s
    let kStart ← perKStart fstep i s.1
    let s ← perLeft fuel padding fstep kStart x f s
    pure s.2) st
  -- L106-122
  let st ← forOut fuel step (fun i => decide (i < N + F / 2)) (fun i => do
    let s ← perRight fuel padding x f i
    let s ← perAlign fstep s
    let s ← forJ fuel fstep (ltF F) (fun j => do prod f j x (← sub i j)) s
    pure s.2) st
  pure st.2.2

/-- `downsampling_convolution` (convolution.template.c L127-470). -/
def dsConv (fuel : Nat) (x : List M) (f : List R) (out : List M) (step : Nat) (mode : Mode) :
    C (List M) :=
  if mode = .periodization then dsConvPer fuel x f out step 1
  else dsConvBody fuel x f out step mode

end Pywt
