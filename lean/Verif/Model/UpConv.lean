import Verif.Model.Conv

/-!
# Model of the upsampling kernels of `pywt/_extensions/c/convolution.template.c`

These kernels *add* to the output buffer.  A negative C return code is modelled as `none`
(the callers only test for it).
-/

namespace Pywt

variable {R M : Type} [Zero M] [Add M] [Neg M] [Sub M] [SMul ℕ M] [SMul R M]

/-- The two statements that occur in every upsampling loop:
`output[oe] += filter[2*j] * input[k]; output[oo] += filter[2*j+1] * input[k];`
(convolution.template.c L494-495, L502-503, L510-511, L518-519, L549-550, L554-555, L560-561, …) -/
def acc2 (f : List R) (x : List M) (oe oo j k : Nat) (out : List M) : C (List M) := do
  let a ← prod f (2 * j) x k
  let out ← addTo out oe a
  let b ← prod f (2 * j + 1) x k
  addTo out oo b

/-- `acc2` reading `input[N-1-k]`. -/
def acc2Rev (f : List R) (x : List M) (oe oo j k : Nat) (out : List M) : C (List M) := do
  let a ← sub x.length 1
  let b ← sub a k
  acc2 f x oe oo j b out

/-- `for (k = k0; k < N && more(j); ++k, ++j) body(j, k)` on an arbitrary state. -/
def forKJs {σ : Type} (fuel N k0 : Nat) (more : Nat → C Bool)
    (body : Nat → Nat → σ → C σ) (st : Nat × σ) : C (Nat × σ) := do
  let r ← loop (σ := Nat × Nat × σ)
    (fun s => if s.1 < N then more s.2.1 else pure false)
    (fun s => do
      let v ← body s.2.1 s.1 s.2.2
      pure (s.1 + 1, s.2.1 + 1, v))
    fuel (k0, st.1, st.2)
  pure r.2

/-- `for (; more(j); ++j) body(j)` on an arbitrary state. -/
def forJs {σ : Type} (fuel : Nat) (more : Nat → C Bool)
    (body : Nat → σ → C σ) (st : Nat × σ) : C (Nat × σ) :=
  loop (σ := Nat × σ) (fun s => more s.1)
    (fun s => do
      let v ← body s.1 s.2
      pure (s.1 + 1, v))
    fuel st

/-- `for (; cond(i); ++i, o += 2) inner(i, o)`; state `(i, o, output)`. -/
def forUp (fuel : Nat) (cond : Nat → Bool) (inner : Nat → Nat → List M → C (List M))
    (st : Nat × Nat × List M) : C (Nat × Nat × List M) :=
  loop (σ := Nat × Nat × List M) (fun s => pure (cond s.1)) (fun s => do
    let out ← inner s.1 s.2.1 s.2.2
    pure (s.1 + 1, s.2.1 + 2, out)) fuel st

/-- `upsampling_convolution_full` (convolution.template.c L472-524). -/
def usFull (fuel : Nat) (x : List M) (f : List R) (out : List M) : C (Option (List M)) := do
  let N := x.length
  let F := f.length
  if F < 2 then pure none            -- return -1, L488-489
  else if F % 2 ≠ 0 then pure none   -- return -3, L490-491
  else
    -- L493-499
    let st ← forUp fuel (fun i => decide (i < N) && decide (i < F / 2)) (fun i o out => do
      let s ← forJs fuel (fun j => pure (decide (j ≤ i)))
        (fun j out => do acc2 f x o (o + 1) j (← sub i j) out) (0, out)
      pure s.2) (0, 0, out)
    -- L501-507
    let st ← forUp fuel (fun i => decide (i < N)) (fun i o out => do
      let s ← forJs fuel (ltF (F / 2))
        (fun j out => do acc2 f x o (o + 1) j (← sub i j) out) (0, out)
      pure s.2) st
    -- L509-515
    let st ← forUp fuel (fun i => decide (i < F / 2)) (fun i o out => do
      let j0 ← sub i (← sub N 1)
      let s ← forJs fuel (fun j => pure (decide (j ≤ i)))
        (fun j out => do acc2 f x o (o + 1) j (← sub i j) out) (j0, out)
      pure s.2) st
    -- L517-523
    let st ← forUp fuel (fun i => decide (i < N + F / 2)) (fun i o out => do
      let j0 ← sub i (← sub N 1)
      let s ← forJs fuel (ltF (F / 2))
        (fun j out => do acc2 f x o (o + 1) j (← sub i j) out) (j0, out)
      pure s.2) st
    pure (some st.2.2)

/-- `while (i-j >= N) for (k = 0; k < N && i-j >= N; ++k, ++j) …filter[2*(i-N-j)]…input[k]…`
(convolution.template.c L590-596, L613-619). -/
def upRight (fuel : Nat) (x : List M) (f : List R) (i oe oo : Nat) (st : Nat × List M) :
    C (Nat × List M) :=
  let N := x.length
  loop (fun s => geN i N s.1) (fun s =>
    forKJs fuel N 0 (geN i N) (fun j k out => do acc2 f x oe oo (← sub3 i N j) k out) s) fuel st

/-- `while (j < F/2) for (k = 0; k < N && j < F/2; ++k, ++j) …filter[2*j]…input[N-1-k]…`
(convolution.template.c L557-563, L573-579, L601-607). -/
def upLeft (fuel : Nat) (x : List M) (f : List R) (oe oo : Nat) (st : Nat × List M) :
    C (Nat × List M) :=
  let N := x.length
  let H := f.length / 2
  loop (fun s => ltF H s.1) (fun s =>
    forKJs fuel N 0 (ltF H) (fun j k out => acc2Rev f x oe oo j k out) s) fuel st

/-- The first block of the periodized synthesis kernel, for `F/2` even
(convolution.template.c L541-566): even part to `output[2N-1]`, odd part to `output[0]`. -/
def upPerFirst (fuel : Nat) (x : List M) (f : List R) (start : Nat) (out : List M) :
    C (List M) := do
  let N := x.length
  let H := f.length / 2
  let sm ← sub start 1
  let last ← sub (2 * N) 1
  let s ← loop (σ := Nat × List M) (fun s => pure (decide (s.1 ≤ sm))) (fun s =>
    forKJs fuel N 0 (fun j => pure (decide (j ≤ sm)))
      (fun j k out => do acc2 f x last 0 (← sub sm j) k out) s) fuel (0, out)
  let i ← sub (N + start) 1
  let s ← forJs fuel (fun j => pure (decide (j ≤ i) && decide (j < H)))
    (fun j out => do acc2 f x last 0 j (← sub i j) out) s
  let s ← upLeft fuel x f last 0 s
  pure s.2

/-- `if ((F/2)%2 == 0){ … }` (convolution.template.c L540-566). -/
def upPerShift (fuel : Nat) (x : List M) (f : List R) (out : List M) : C (List M) :=
  if f.length / 2 % 2 = 0 then upPerFirst fuel x f (f.length / 4) out else pure out

/-- `upsampling_convolution_valid_sf_periodization` (convolution.template.c L527-628). -/
def usPer (fuel : Nat) (x : List M) (f : List R) (out : List M) : C (Option (List M)) := do
  let N := x.length
  let F := f.length
  let H := F / 2
  let start := F / 4
  let stop ← sub (N + start) (if H % 2 ≠ 0 then 0 else 1)
  if F % 2 ≠ 0 then pure none        -- return -3, L538
  else
    let out ← upPerShift fuel x f out
    let o0 := if H % 2 = 0 then 1 else 0
    -- L568-580
    let st ← forUp fuel (fun i => decide (i < H) && decide (i < N)) (fun i o out => do
      let s ← forJs fuel (fun j => pure (decide (j ≤ i)))
        (fun j out => do acc2 f x o (o + 1) j (← sub i j) out) (0, out)
      let s ← upLeft fuel x f o (o + 1) s
      pure s.2) (start, o0, out)
    -- L582-588
    let st ← forUp fuel (fun i => decide (i < N)) (fun i o out => do
      let s ← forJs fuel (ltF H)
        (fun j out => do acc2 f x o (o + 1) j (← sub i j) out) (0, out)
      pure s.2) st
    -- L590-609
    let st ← forUp fuel (fun i => decide (i < H) && decide (i < stop)) (fun i o out => do
      let s ← upRight fuel x f i o (o + 1) (0, out)
      let s ← forJs fuel (fun j => pure (decide (j ≤ i) && decide (j < H)))
        (fun j out => do acc2 f x o (o + 1) j (← sub i j) out) s
      let s ← upLeft fuel x f o (o + 1) s
      pure s.2) st
    -- L611-625
    let st ← forUp fuel (fun i => decide (i < stop)) (fun i o out => do
      let s ← upRight fuel x f i o (o + 1) (0, out)
      let s ← forJs fuel (fun j => pure (decide (j ≤ i) && decide (j < H)))
        (fun j out => do acc2 f x o (o + 1) j (← sub i j) out) s
      pure s.2) st
    pure (some st.2.2)

/-- The pair `(sum_even, sum_odd)` of one output pair of the valid convolution:
`filter[j*2] * input[k]`, `filter[j*2+1] * input[k]` (convolution.template.c L661-662). -/
def pairProd (f : List R) (x : List M) (j k : Nat) : C (M × M) := do
  let a ← prod f (2 * j) x k
  let b ← prod f (2 * j + 1) x k
  pure (a, b)

/-- `upsampling_convolution_valid_sf` for the non-periodized modes
(convolution.template.c L650-668). -/
def usValid (fuel : Nat) (x : List M) (f : List R) (out : List M) : C (Option (List M)) := do
  let N := x.length
  let F := f.length
  if F % 2 ≠ 0 ∨ N < F / 2 then pure none   -- return -1
  else
    let i0 ← sub (F / 2) 1
    let st ← forUp fuel (fun i => decide (i < N)) (fun i o out => do
      let s ← forJ fuel 1 (ltF (F / 2)) (fun j => do pairProd f x j (← sub i j)) (0, (0 : M × M))
      let out ← addTo out o s.2.1
      addTo out (o + 1) s.2.2) (i0, 0, out)
    pure (some st.2.2)

/-- `upsampling_convolution_valid_sf` (convolution.template.c L639-668). -/
def usConv (fuel : Nat) (x : List M) (f : List R) (out : List M) (mode : Mode) :
    C (Option (List M)) :=
  if mode = .periodization then usPer fuel x f out else usValid fuel x f out

end Pywt
