import Verif.Model.Heap

/-!
# The convolution kernels on the heap (`pywt/_extensions/c/convolution.template.c`)

The kernels of `Verif.Model.Conv` and `Verif.Model.UpConv` again, statement by statement, as programs
of `Verif.Model.Heap`: arrays are pointers with a length, every access is a step, and the output is
changed in memory.  The line numbers are those of the kernels there.
-/

namespace Pywt.Heap

variable {R M : Type} [Ring R] [AddCommGroup M] [Module R M]

/-- A convolution filter or signal handed to C: pointer and length. -/
structure Buf where
  loc : Loc
  len : ℕ

/-- `filter[j] * input[k]`. -/
def prod (f : Buf) (j : ℕ) (x : Buf) (k : ℕ) : Prog (Val R M) M := do
  let a ← rdR f.loc j
  let b ← rdM x.loc k
  pure (a • b)

/-- `input[N-1-k]`. -/
def rdRev (x : Buf) (k : ℕ) : Prog (Val R M) M := do
  let a ← sub x.len 1
  let b ← sub a k
  rdM x.loc b

/-- `filter[j] * input[N-1-k]`. -/
def prodRev (f : Buf) (j : ℕ) (x : Buf) (k : ℕ) : Prog (Val R M) M := do
  let a ← rdR f.loc j
  let b ← rdRev x k
  pure (a • b)

/-- The condition `j < F`. -/
def ltF {V : Type} (F j : ℕ) : Prog V Bool := pure (decide (j < F))

/-- The condition `i-j >= N` on `size_t`. -/
def geN {V : Type} (i N j : ℕ) : Prog V Bool := do
  let d ← sub i j
  pure (decide (N ≤ d))

/-- The index expression `i-N-j`. -/
def sub3 {V : Type} (i N j : ℕ) : Prog V ℕ := do
  let d ← sub i N
  sub d j

/-- `for (k = k0; k < N && more(j); k += dk, j += dj) sum += term(j, k);` (as `Pywt.forKJ`). -/
def forKJ {V A : Type} [Add A] (fuel N k0 dk dj : ℕ) (more : ℕ → Prog V Bool)
    (term : ℕ → ℕ → Prog V A) (st : ℕ × A) : Prog V (ℕ × A) := do
  let r ← loop (σ := ℕ × ℕ × A)
    (fun s => if s.1 < N then more s.2.1 else pure false)
    (fun s => do
      let v ← term s.2.1 s.1
      pure (s.1 + dk, s.2.1 + dj, s.2.2 + v))
    fuel (k0, st.1, st.2)
  pure r.2

/-- `for (; more(j); j += dj) sum += term(j);` (as `Pywt.forJ`). -/
def forJ {V A : Type} [Add A] (fuel dj : ℕ) (more : ℕ → Prog V Bool)
    (term : ℕ → Prog V A) (st : ℕ × A) : Prog V (ℕ × A) :=
  loop (σ := ℕ × A) (fun s => more s.1)
    (fun s => do
      let v ← term s.1
      pure (s.1 + dj, s.2 + v))
    fuel st

/-- The `tmp`-carrying loops of MODE_ANTIREFLECT (as `Pywt.forTmp`;
convolution.template.c L187-190, L192-195, L277-280, L282-285 etc.). -/
def forTmp (fuel N : ℕ) (more : ℕ → Prog (Val R M) Bool) (val : ℕ → Prog (Val R M) M)
    (idx : ℕ → Prog (Val R M) ℕ) (f : Buf) (st : ℕ × M × M) : Prog (Val R M) (ℕ × M × M) := do
  let r ← loop (σ := ℕ × ℕ × M × M)
    (fun s => if s.1 < N then more s.2.1 else pure false)
    (fun s => do
      let tmp ← val s.1
      let l ← idx s.2.1
      let a ← rdR f.loc l
      pure (s.1 + 1, s.2.1 + 1, tmp, s.2.2.2 + a • tmp))
    fuel (1, st.1, st.2.1, st.2.2)
  pure r.2

/-- The `switch(mode)` past the left edge (convolution.template.c L152-220, L316-384). -/
def leftSwitch (fuel : ℕ) (mode : Mode) (x f : Buf) (st : ℕ × M) : Prog (Val R M) (ℕ × M) :=
  let N := x.len
  let F := f.len
  match mode with
  | .symmetric =>
      loop (fun s => ltF F s.1) (fun s => do
        let s ← forKJ fuel N 0 1 1 (ltF F) (fun j k => prod f j x k) s
        forKJ fuel N 0 1 1 (ltF F) (fun j k => prodRev f j x k) s) fuel st
  | .antisymmetric =>
      loop (fun s => ltF F s.1) (fun s => do
        let s ← forKJ fuel N 0 1 1 (ltF F) (fun j k => do pure (-(← prod f j x k))) s
        forKJ fuel N 0 1 1 (ltF F) (fun j k => prodRev f j x k) s) fuel st
  | .reflect =>
      loop (fun s => ltF F s.1) (fun s => do
        let s ← forKJ fuel N 1 1 1 (ltF F) (fun j k => prod f j x k) s
        forKJ fuel N 1 1 1 (ltF F) (fun j k => prodRev f j x k) s) fuel st
  | .antireflect => do
      let le ← rdM x.loc 0
      let r ← loop (σ := ℕ × M × M × M) (fun s => ltF F s.1) (fun s => do
        let (j, le, tmp, sum) := s
        let (j, tmp, sum) ← forTmp fuel N (ltF F)
          (fun k => do
            let b ← rdM x.loc k
            let c ← rdM x.loc 0
            pure (le - (b - c))) (fun j => pure j) f (j, tmp, sum)
        let le := tmp
        let (j, tmp, sum) ← forTmp fuel N (ltF F)
          (fun k => do
            let b ← rdRev x k
            let c ← rdRev x 0
            pure (le + (b - c))) (fun j => pure j) f (j, tmp, sum)
        let le := tmp
        pure (j, le, tmp, sum)) fuel (st.1, le, 0, st.2)
      pure (r.1, r.2.2.2)
  | .constant => forJ fuel 1 (ltF F) (fun j => prod f j x 0) st
  | .smooth => do
      let r ← loop (σ := ℕ × ℕ × M) (fun s => ltF F s.2.1) (fun s => do
        let a ← rdR f.loc s.2.1
        let x0 ← rdM x.loc 0
        let x1 ← rdM x.loc 1
        pure (s.1 + 1, s.2.1 + 1, s.2.2 + a • (x0 + s.1 • (x0 - x1)))) fuel (1, st.1, st.2)
      pure r.2
  | .periodic =>
      loop (fun s => ltF F s.1) (fun s =>
        forKJ fuel N 0 1 1 (ltF F) (fun j k => prodRev f j x k) s) fuel st
  | .zero => pure st
  | .periodization => pure st

/-- The `switch(mode)` past the right edge (convolution.template.c L238-311, L392-464). -/
def rightSwitch (fuel : ℕ) (mode : Mode) (x f : Buf) (i : ℕ) : Prog (Val R M) (ℕ × M) :=
  let N := x.len
  match mode with
  | .symmetric =>
      loop (fun s => geN i N s.1) (fun s => do
        let s ← forKJ fuel N 0 1 1 (geN i N) (fun j k => do prodRev f (← sub3 i N j) x k) s
        forKJ fuel N 0 1 1 (geN i N) (fun j k => do prod f (← sub3 i N j) x k) s) fuel (0, 0)
  | .antisymmetric =>
      loop (fun s => geN i N s.1) (fun s => do
        let s ← forKJ fuel N 0 1 1 (geN i N)
          (fun j k => do pure (-(← prodRev f (← sub3 i N j) x k))) s
        forKJ fuel N 0 1 1 (geN i N) (fun j k => do prod f (← sub3 i N j) x k) s) fuel (0, 0)
  | .reflect =>
      loop (fun s => geN i N s.1) (fun s => do
        let s ← forKJ fuel N 1 1 1 (geN i N) (fun j k => do prodRev f (← sub3 i N j) x k) s
        forKJ fuel N 1 1 1 (geN i N) (fun j k => do prod f (← sub3 i N j) x k) s) fuel (0, 0)
  | .antireflect => do
      let re ← rdRev x 0
      let r ← loop (σ := ℕ × M × M × M) (fun s => geN i N s.1) (fun s => do
        let (j, re, tmp, sum) := s
        let (j, tmp, sum) ← forTmp fuel N (geN i N)
          (fun k => do
            let b ← rdRev x k
            let c ← rdRev x 0
            pure (re - (b - c))) (fun j => sub3 i N j) f (j, tmp, sum)
        let re := tmp
        let (j, tmp, sum) ← forTmp fuel N (geN i N)
          (fun k => do
            let b ← rdM x.loc k
            let c ← rdM x.loc 0
            pure (re + (b - c))) (fun j => sub3 i N j) f (j, tmp, sum)
        let re := tmp
        pure (j, re, tmp, sum)) fuel (0, re, 0, 0)
      pure (r.1, r.2.2.2)
  | .constant => forJ fuel 1 (geN i N) (fun j => prodRev f j x 0) (0, 0)
  | .smooth => do
      let k0 ← sub i N
      let r ← loop (σ := ℕ × ℕ × M) (fun s => geN i N s.2.1) (fun s => do
        let a ← rdR f.loc s.2.1
        let x1 ← rdRev x 0
        let x2 ← rdRev x 1
        let k' ← sub s.1 1
        pure (k', s.2.1 + 1, s.2.2 + a • (x1 + s.1 • (x1 - x2)))) fuel (k0 + 1, 0, 0)
      pure r.2
  | .periodic =>
      loop (fun s => geN i N s.1) (fun s =>
        forKJ fuel N 0 1 1 (geN i N) (fun j k => do prod f (← sub3 i N j) x k) s) fuel (0, 0)
  | .zero => do
      let d ← sub i N
      pure (d + 1, 0)
  | .periodization => do
      let d ← sub i N
      pure (d + 1, 0)

/-- `for(; cond(i); i += step, ++o){ …; output[o] = sum; }`; state `(i, o)`. -/
def forOut (fuel step : ℕ) (cond : ℕ → Bool) (sumAt : ℕ → Prog (Val R M) M) (out : Loc)
    (st : ℕ × ℕ) : Prog (Val R M) (ℕ × ℕ) :=
  loop (σ := ℕ × ℕ) (fun s => pure (cond s.1)) (fun s => do
    let sum ← sumAt s.1
    put out s.2 (.samp sum)
    pure (s.1 + step, s.2 + 1)) fuel st

/-- `downsampling_convolution` for the modes other than periodization
(convolution.template.c L137, L142-469). -/
def dsConvBody (fuel : ℕ) (x f : Buf) (out : Loc) (step : ℕ) (mode : Mode) :
    Prog (Val R M) Unit := do
  let N := x.len
  let F := f.len
  let i0 ← sub step 1
  let mode := if mode = .smooth ∧ N < 2 then Mode.constant else mode
  let st ← forOut fuel step (fun i => decide (i < F) && decide (i < N)) (fun i => do
    let s ← forJ fuel 1 (fun j => pure (decide (j ≤ i)))
      (fun j => do prod f j x (← sub i j)) (0, (0 : M))
    let s ← leftSwitch fuel mode x f s
    pure s.2) out (i0, 0)
  let st ← forOut fuel step (fun i => decide (i < N)) (fun i => do
    let s ← forJ fuel 1 (ltF F) (fun j => do prod f j x (← sub i j)) (0, (0 : M))
    pure s.2) out st
  let st ← forOut fuel step (fun i => decide (i < F)) (fun i => do
    let s ← rightSwitch fuel mode x f i
    let s ← forJ fuel 1 (fun j => pure (decide (j ≤ i))) (fun j => do prod f j x (← sub i j)) s
    let s ← leftSwitch fuel mode x f s
    pure s.2) out st
  let lim ← sub (N + F) 1
  let _ ← forOut fuel step (fun i => decide (i < lim)) (fun i => do
    let s ← rightSwitch fuel mode x f i
    let s ← forJ fuel 1 (ltF F) (fun j => do prod f j x (← sub i j)) s
    pure s.2) out st
  pure ()

/-- The loop over the tail of the filter in the periodization kernel
(convolution.template.c L60-66, L96-102). -/
def perLeft (fuel padding fstep kStart : ℕ) (x f : Buf) (st : ℕ × M) : Prog (Val R M) (ℕ × M) :=
  let N := x.len
  let F := f.len
  loop (fun s => ltF F s.1) (fun s => do
    let s ← forKJ fuel padding kStart fstep fstep (ltF F) (fun j _ => prodRev f j x 0) s
    forKJ fuel N kStart fstep fstep (ltF F) (fun j k => prodRev f j x k) s) fuel st

/-- The loop over the head of the filter in the periodization kernel
(convolution.template.c L82-89, L109-116). -/
def perRight (fuel padding : ℕ) (x f : Buf) (i : ℕ) : Prog (Val R M) (ℕ × M) :=
  let N := x.len
  loop (fun s => geN i N s.1) (fun s => do
    let s ← forKJ fuel padding 0 1 1 (geN i N) (fun j _ => do prodRev f (← sub3 i N j) x 0) s
    forKJ fuel N 0 1 1 (geN i N) (fun j k => do prod f (← sub3 i N j) x k) s) fuel (0, 0)

/-- `if (fstep > 1) j += (fstep - j % fstep) % fstep;`
(convolution.template.c L90-91, L117-118). -/
def perAlign {V : Type} (fstep : ℕ) (st : ℕ × M) : Prog V (ℕ × M) :=
  if 1 < fstep then do
    let d ← sub fstep (st.1 % fstep)
    pure (st.1 + d % fstep, st.2)
  else pure st

/-- `k_start` (convolution.template.c L55-59, L81, L94-95). -/
def perKStart {V : Type} (fstep i j : ℕ) : Prog V ℕ :=
  if 1 < fstep then sub j (i + 1) else pure 0

/-- `downsampling_convolution_periodization` (convolution.template.c L44-124). -/
def dsConvPer (fuel : ℕ) (x f : Buf) (out : Loc) (step fstep : ℕ) : Prog (Val R M) Unit := do
  let N := x.len
  let F := f.len
  let pd ← sub step (N % step)
  let padding := pd % step
  let st ← forOut fuel step (fun i => decide (i < F) && decide (i < N)) (fun i => do
    let s ← forJ fuel fstep (fun j => pure (decide (j ≤ i)))
      (fun j => do prod f j x (← sub i j)) (0, (0 : M))
    let kStart ← perKStart fstep i s.1
    let s ← perLeft fuel padding fstep kStart x f s
    pure s.2) out (F / 2, 0)
  let st ← forOut fuel step (fun i => decide (i < N)) (fun i => do
    let s ← forJ fuel fstep (ltF F) (fun j => do prod f j x (← sub i j)) (0, (0 : M))
    pure s.2) out st
  let st ← forOut fuel step (fun i => decide (i < F) && decide (i < N + F / 2)) (fun i => do
    let s ← perRight fuel padding x f i
    let s ← perAlign fstep s
    let s ← forJ fuel fstep (fun j => pure (decide (j ≤ i)))
      (fun j => do prod f j x (← sub i j)) s
    let kStart ← perKStart fstep i s.1
    let s ← perLeft fuel padding fstep kStart x f s
    pure s.2) out st
  let _ ← forOut fuel step (fun i => decide (i < N + F / 2)) (fun i => do
    let s ← perRight fuel padding x f i
    let s ← perAlign fstep s
    let s ← forJ fuel fstep (ltF F) (fun j => do prod f j x (← sub i j)) s
    pure s.2) out st
  pure ()

/-- `downsampling_convolution` (convolution.template.c L127-470). -/
def dsConv (fuel : ℕ) (x f : Buf) (out : Loc) (step : ℕ) (mode : Mode) : Prog (Val R M) Unit :=
  if mode = .periodization then dsConvPer fuel x f out step 1
  else dsConvBody fuel x f out step mode

/-! ### Upsampling -/

/-- `output[o] += v`. -/
def addTo (out : Loc) (o : ℕ) (v : M) : Prog (Val R M) Unit := do
  let u ← rdM out o
  put out o (.samp (u + v))

/-- `output[oe] += filter[2*j] * input[k]; output[oo] += filter[2*j+1] * input[k];`
(convolution.template.c L494-495, L502-503, …). -/
def acc2 (f x : Buf) (out : Loc) (oe oo j k : ℕ) : Prog (Val R M) Unit := do
  let a ← prod f (2 * j) x k
  addTo out oe a
  let b ← prod f (2 * j + 1) x k
  addTo out oo b

/-- `acc2` reading `input[N-1-k]`. -/
def acc2Rev (f x : Buf) (out : Loc) (oe oo j k : ℕ) : Prog (Val R M) Unit := do
  let a ← sub x.len 1
  let b ← sub a k
  acc2 f x out oe oo j b

/-- `for (k = k0; k < N && more(j); ++k, ++j) body(j, k)`. -/
def forKJs {V : Type} (fuel N k0 : ℕ) (more : ℕ → Prog V Bool)
    (body : ℕ → ℕ → Prog V Unit) (j : ℕ) : Prog V ℕ := do
  let r ← loop (σ := ℕ × ℕ)
    (fun s => if s.1 < N then more s.2 else pure false)
    (fun s => do
      body s.2 s.1
      pure (s.1 + 1, s.2 + 1))
    fuel (k0, j)
  pure r.2

/-- `for (; more(j); ++j) body(j)`. -/
def forJs {V : Type} (fuel : ℕ) (more : ℕ → Prog V Bool)
    (body : ℕ → Prog V Unit) (j : ℕ) : Prog V ℕ :=
  loop (σ := ℕ) more
    (fun j => do
      body j
      pure (j + 1))
    fuel j

/-- `for (; cond(i); ++i, o += 2) inner(i, o)`; state `(i, o)`. -/
def forUp {V : Type} (fuel : ℕ) (cond : ℕ → Bool) (inner : ℕ → ℕ → Prog V Unit)
    (st : ℕ × ℕ) : Prog V (ℕ × ℕ) :=
  loop (σ := ℕ × ℕ) (fun s => pure (cond s.1)) (fun s => do
    inner s.1 s.2
    pure (s.1 + 1, s.2 + 2)) fuel st

/-- `upsampling_convolution_full` (convolution.template.c L472-524); the return code. -/
def usFull (fuel : ℕ) (x f : Buf) (out : Loc) : Prog (Val R M) ℤ := do
  let N := x.len
  let F := f.len
  if F < 2 then pure (-1)
  else if F % 2 ≠ 0 then pure (-3)
  else
    let st ← forUp fuel (fun i => decide (i < N) && decide (i < F / 2)) (fun i o => do
      let _ ← forJs fuel (fun j => pure (decide (j ≤ i)))
        (fun j => do acc2 f x out o (o + 1) j (← sub i j)) 0
      pure ()) (0, 0)
    let st ← forUp fuel (fun i => decide (i < N)) (fun i o => do
      let _ ← forJs fuel (ltF (F / 2))
        (fun j => do acc2 f x out o (o + 1) j (← sub i j)) 0
      pure ()) st
    let st ← forUp fuel (fun i => decide (i < F / 2)) (fun i o => do
      let j0 ← sub i (← sub N 1)
      let _ ← forJs fuel (fun j => pure (decide (j ≤ i)))
        (fun j => do acc2 f x out o (o + 1) j (← sub i j)) j0
      pure ()) st
    let _ ← forUp fuel (fun i => decide (i < N + F / 2)) (fun i o => do
      let j0 ← sub i (← sub N 1)
      let _ ← forJs fuel (ltF (F / 2))
        (fun j => do acc2 f x out o (o + 1) j (← sub i j)) j0
      pure ()) st
    pure 0

/-- convolution.template.c L590-596, L613-619. -/
def upRight (fuel : ℕ) (x f : Buf) (out : Loc) (i oe oo : ℕ) (j : ℕ) : Prog (Val R M) ℕ :=
  let N := x.len
  loop (fun j => geN i N j) (fun j =>
    forKJs fuel N 0 (geN i N) (fun j k => do acc2 f x out oe oo (← sub3 i N j) k) j) fuel j

/-- convolution.template.c L557-563, L573-579, L601-607. -/
def upLeft (fuel : ℕ) (x f : Buf) (out : Loc) (oe oo : ℕ) (j : ℕ) : Prog (Val R M) ℕ :=
  let N := x.len
  let H := f.len / 2
  loop (fun j => ltF H j) (fun j =>
    forKJs fuel N 0 (ltF H) (fun j k => acc2Rev f x out oe oo j k) j) fuel j

/-- The first block of the periodized synthesis kernel (convolution.template.c L541-566). -/
def upPerFirst (fuel : ℕ) (x f : Buf) (out : Loc) (start : ℕ) : Prog (Val R M) Unit := do
  let N := x.len
  let H := f.len / 2
  let sm ← sub start 1
  let last ← sub (2 * N) 1
  let j ← loop (σ := ℕ) (fun j => pure (decide (j ≤ sm))) (fun j =>
    forKJs fuel N 0 (fun j => pure (decide (j ≤ sm)))
      (fun j k => do acc2 f x out last 0 (← sub sm j) k) j) fuel 0
  let i ← sub (N + start) 1
  let j ← forJs fuel (fun j => pure (decide (j ≤ i) && decide (j < H)))
    (fun j => do acc2 f x out last 0 j (← sub i j)) j
  let _ ← upLeft fuel x f out last 0 j
  pure ()

/-- `if ((F/2)%2 == 0){ … }` (convolution.template.c L540-566). -/
def upPerShift (fuel : ℕ) (x f : Buf) (out : Loc) : Prog (Val R M) Unit :=
  if f.len / 2 % 2 = 0 then upPerFirst fuel x f out (f.len / 4) else pure ()

/-- `upsampling_convolution_valid_sf_periodization` (convolution.template.c L527-628). -/
def usPer (fuel : ℕ) (x f : Buf) (out : Loc) : Prog (Val R M) ℤ := do
  let N := x.len
  let F := f.len
  let H := F / 2
  let start := F / 4
  let stop ← sub (N + start) (if H % 2 ≠ 0 then 0 else 1)
  if F % 2 ≠ 0 then pure (-3)
  else
    upPerShift fuel x f out
    let o0 := if H % 2 = 0 then 1 else 0
    let st ← forUp fuel (fun i => decide (i < H) && decide (i < N)) (fun i o => do
      let j ← forJs fuel (fun j => pure (decide (j ≤ i)))
        (fun j => do acc2 f x out o (o + 1) j (← sub i j)) 0
      let _ ← upLeft fuel x f out o (o + 1) j
      pure ()) (start, o0)
    let st ← forUp fuel (fun i => decide (i < N)) (fun i o => do
      let _ ← forJs fuel (ltF H)
        (fun j => do acc2 f x out o (o + 1) j (← sub i j)) 0
      pure ()) st
    let st ← forUp fuel (fun i => decide (i < H) && decide (i < stop)) (fun i o => do
      let j ← upRight fuel x f out i o (o + 1) 0
      let j ← forJs fuel (fun j => pure (decide (j ≤ i) && decide (j < H)))
        (fun j => do acc2 f x out o (o + 1) j (← sub i j)) j
      let _ ← upLeft fuel x f out o (o + 1) j
      pure ()) st
    let _ ← forUp fuel (fun i => decide (i < stop)) (fun i o => do
      let j ← upRight fuel x f out i o (o + 1) 0
      let _ ← forJs fuel (fun j => pure (decide (j ≤ i) && decide (j < H)))
        (fun j => do acc2 f x out o (o + 1) j (← sub i j)) j
      pure ()) st
    pure 0

/-- `filter[j*2] * input[k]`, `filter[j*2+1] * input[k]` (convolution.template.c L661-662). -/
def pairProd (f x : Buf) (j k : ℕ) : Prog (Val R M) (M × M) := do
  let a ← prod f (2 * j) x k
  let b ← prod f (2 * j + 1) x k
  pure (a, b)

/-- `upsampling_convolution_valid_sf` for the non-periodized modes
(convolution.template.c L650-668). -/
def usValid (fuel : ℕ) (x f : Buf) (out : Loc) : Prog (Val R M) ℤ := do
  let N := x.len
  let F := f.len
  if F % 2 ≠ 0 ∨ N < F / 2 then pure (-1)
  else
    let i0 ← sub (F / 2) 1
    let _ ← forUp fuel (fun i => decide (i < N)) (fun i o => do
      let s ← forJ fuel 1 (ltF (F / 2)) (fun j => do pairProd f x j (← sub i j)) (0, (0 : M × M))
      addTo out o s.2.1
      addTo out (o + 1) s.2.2) (i0, 0)
    pure 0

/-- `upsampling_convolution_valid_sf` (convolution.template.c L639-668). -/
def usConv (fuel : ℕ) (x f : Buf) (out : Loc) (mode : Mode) : Prog (Val R M) ℤ :=
  if mode = .periodization then usPer fuel x f out else usValid fuel x f out

end Pywt.Heap
