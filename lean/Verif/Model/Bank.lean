import Verif.Model.Common

/-!
# Model of the construction of filter banks

`pywt/_functions.py` (`qmf`, `orthogonal_filter_bank`) and the filter formulas of
`pywt/_extensions/c/wavelets.c:discrete_wavelet`.
-/

namespace Pywt

variable {R : Type} [Ring R]

/-- `qm_filter = np.array(filt)[::-1]; qm_filter[1::2] = -qm_filter[1::2]` (_functions.py L206-226). -/
def qmf (filt : List R) : List R :=
  filt.reverse.mapIdx fun i v => if i % 2 = 1 then -v else v

/-- `orthogonal_filter_bank` (_functions.py L229-263); `sqrt2` is `np.sqrt(2)`.  A filter with sum zero
gives NaNs or infinities, modelled as an error. -/
def orthogonalFilterBank {K : Type} [Field K] [DecidableEq K] (sqrt2 : K) (scaling_filter : List K) :
    Py (Wavelet K) :=
  if ¬ scaling_filter.length % 2 = 0 then .error .value
  else if scaling_filter.sum = 0 then .error .zeroDiv
  else
    let rec_lo := scaling_filter.map fun v => sqrt2 * v / scaling_filter.sum
    let dec_lo := rec_lo.reverse
    let rec_hi := qmf rec_lo
    let dec_hi := rec_hi.reverse
    .ok ⟨dec_lo, dec_hi, rec_lo, rec_hi⟩

/-- `(n % 2) ? -1 : 1` -/
def sgn (n : ℕ) : R := if n % 2 = 1 then -1 else 1

/-- The loops of `discrete_wavelet` that fill the four filters of length `F` (wavelets.c L127-132,
L168-173, L207-215, L299-306, L337-343) from a table `b` for the synthesis low-pass filter, read from
offset `n`, and a table `c` for the analysis low-pass filter.  For orthogonal families both tables are
the same and `n = 0`.  `i` is the loop counter, `k` the number of iterations left. -/
def fillLoop (b c : List R) (n F : ℕ) : ℕ → ℕ → Wavelet R → C (Wavelet R)
  | _, 0, w => .ok w
  | i, k + 1, w => do
      let bi ← rd b (i + n)
      let j ← sub (F - 1) i
      let cj ← rd c j
      let rl ← wr w.rec_lo i bi
      let dl ← wr w.dec_lo i cj
      let rh ← wr w.rec_hi i (sgn i * cj)
      let dh ← wr w.dec_hi i (sgn j * bi)
      fillLoop b c n F (i + 1) k ⟨dl, dh, rl, rh⟩

/-- `blank_discrete_wavelet(F)` for even `F` (wavelets.c L506-562), then the loops. -/
def fillBank (b c : List R) (n F : ℕ) : C (Wavelet R) :=
  let z := List.replicate F (0 : R)
  fillLoop b c n F 0 F ⟨z, z, z, z⟩

/-- The exchange and reversal that turn a `bior` wavelet into `rbio` (wavelets.c L63-88): the pointers
are swapped, then each of the four filters is reversed in place. -/
def swapReverse (w : Wavelet R) : Wavelet R :=
  ⟨w.rec_lo.reverse, w.rec_hi.reverse, w.dec_lo.reverse, w.dec_hi.reverse⟩

end Pywt
