import Verif.Spec.SynthN
import Verif.Spec.Swt
import Verif.Model.MultilevelN
import Verif.Model.Swt

/-!
# Specification: the n-D stationary transform
-/

namespace Pywt

open Spec

variable {R M : Type} [Ring R] [AddCommGroup M] [Module R M]

/-- An axis with its wavelet. -/
abbrev SStage (R : Type) := ℕ × Wavelet R

/-- The subband named by the letters of `key`: along one axis after another every line is filtered
without decimation, the taps `step` samples apart; `a` stands for the low-pass filter, `d` for the
high-pass filter. -/
def Arr.swtBand : List (SStage R) → ℕ → List Char → Arr M → Arr M
  | s :: st, step, c :: key, x =>
      Arr.swtBand st step key
        (x.along s.1 (x.shape.getD s.1 0) (atrous (s.2.decFilter c) step))
  | _, _, _, x => x

/-- The approximation after the levels `m+1, …, m+j`. -/
def swtnApprox (st : List (SStage R)) (m : ℕ) (x : Arr M) : ℕ → Arr M
  | 0 => x
  | j + 1 => (swtnApprox st m x j).swtBand st (2 ^ (m + j)) (List.replicate st.length 'a')

/-- The subband `key` of level `m+j+1`. -/
def swtnBand (st : List (SStage R)) (m : ℕ) (x : Arr M) (j : ℕ) (key : List Char) : Arr M :=
  (swtnApprox st m x j).swtBand st (2 ^ (m + j)) key

/-- What the subband `key` contributes to the inverse, before averaging: along every axis the lines are
filtered with the synthesis filter of the letter, the taps `step` samples apart. -/
def Arr.swtUnband : List (SStage R) → ℕ → List Char → Arr M → Arr M
  | s :: st, step, c :: key, x =>
      (Arr.swtUnband st step key x).along s.1 (x.shape.getD s.1 0)
        (atrousInv (s.2.recFilter c) step)
  | _, _, _, x => x

/-- One level of the inverse: the sum of the contributions of all subbands, divided by two for every
axis. -/
def Arr.iswtnStep [Invertible (2 : R)] (st : List (SStage R)) (step : ℕ) (band : List Char → Arr M)
    (shape : List ℕ) : Arr M :=
  Arr.ofFn shape fun idx => (⅟2 : R) ^ st.length •
    ((words st.length).map fun k => ((band k).swtUnband st step k).get idx).sum

/-- The subbands of one level: the approximation, the arrays of the dict, and zeros for keys that are
missing. -/
def bandOf (d : List (List Char × Arr M)) (a : Arr M) (m : ℕ) (k : List Char) : Arr M :=
  if k = List.replicate m 'a' then a else (d.lookup k).getD (Arr.zero a.shape)

/-- The inverse of an approximation and dicts of details listed from the coarsest level on. -/
def iswtnCascade [Invertible (2 : R)] (st : List (SStage R)) :
    List (List (List Char × Arr M)) → Arr M → Arr M
  | [], a => a
  | d :: ds, a =>
      iswtnCascade st ds (Arr.iswtnStep st (2 ^ ds.length) (bandOf d a st.length) a.shape)

/-- Distinct axes, a well-formed wavelet for each, and lengths that are non-zero multiples of `2 * step`. -/
def SwtFits (st : List (SStage R)) (step : ℕ) (S : List ℕ) : Prop :=
  (st.map (·.1)).Nodup ∧ ∀ s ∈ st, s.1 < S.length ∧ s.2.Ok ∧ 1 ≤ S.getD s.1 0 ∧ 2 * step ∣ S.getD s.1 0

/-- Distinct axes, a well-formed wavelet for each, and lengths that allow `L` levels: non-zero multiples
of `2 ^ L`. -/
def SwtnFits (st : List (SStage R)) (L : ℕ) (S : List ℕ) : Prop :=
  (st.map (·.1)).Nodup ∧ ∀ s ∈ st, s.1 < S.length ∧ s.2.Ok ∧ 1 ≤ S.getD s.1 0 ∧ 2 ^ L ∣ S.getD s.1 0

/-- What the arguments `wavelet`, `axes` and `norm` of the stationary transforms stand for: the axes in
order, each with its wavelet, whose filters are multiplied by the factor of `norm`. -/
def SwtResolves (ndim : ℕ) (wavelet : PerAxis (Wavelet R)) (axes : Option (List ℤ)) (norm : Option R)
    (st : List (SStage R)) : Prop :=
  (match axes with
    | none => st.map (·.1) = List.range ndim
    | some l => st.map (fun s : SStage R => (s.1 : ℤ)) =
        l.map fun a : ℤ => if a < 0 then a + (ndim : ℤ) else a) ∧
  ∃ ws, wavelet.expand st.length = .ok ws ∧ st.map (·.2) = ws.map fun w => w.normed norm

/-- The 1-D stationary transform of every line along `axis`: `l` levels from level `m + 1` on, coarsest
level first; with `trim` only the last approximation is kept. -/
def swtLines (w : Wavelet R) (m l : ℕ) (trim : Bool) (axis : ℕ) (x : Arr M) : SwtCoeffs (Arr M) :=
  let A (j : ℕ) := x.along axis (x.shape.getD axis 0) fun u => swtApprox w.dec_lo m u j
  let D (j : ℕ) := x.along axis (x.shape.getD axis 0) fun u => swtDetail w.dec_lo w.dec_hi m u j
  if trim then .trimmed (A l :: ((List.range l).map D).reverse)
  else .pairs ((List.range l).map fun j => (A (j + 1), D j)).reverse

/-- The dict of level `m + j + 1`: all subbands, or with `trim` all but the approximation. -/
def swtnDict (st : List (SStage R)) (m : ℕ) (trim : Bool) (x : Arr M) (j : ℕ) :
    List (List Char × Arr M) :=
  ((words st.length).filter fun k => !trim || decide (k ≠ List.replicate st.length 'a')).map fun k =>
    (k, swtnBand st m x j k)

/-- The dict has distinct keys, words of `m` letters, and arrays of shape `S`. -/
def DictOk (d : List (List Char × Arr M)) (m : ℕ) (S : List ℕ) : Prop :=
  (d.map (·.1)).Nodup ∧ ∀ p ∈ d, p.1 ∈ words m ∧ p.2.shape = S

/-- The lines of all coefficient arrays. -/
def SwtCoeffs.lines (ax : ℕ) (idx : ℕ → ℕ) : SwtCoeffs (Arr M) → SwtCoeffs (List M)
  | .pairs l => .pairs (l.map fun p => (p.1.line ax idx, p.2.line ax idx))
  | .trimmed l => .trimmed (l.map fun a => a.line ax idx)

/-- All arrays of the coefficients. -/
def SwtCoeffs.arrays : SwtCoeffs (Arr M) → List (Arr M)
  | .pairs l => l.map (·.1) ++ l.map (·.2)
  | .trimmed l => l

/-- The number of detail arrays. -/
def SwtCoeffs.levels : SwtCoeffs (Arr M) → ℕ
  | .pairs l => l.length
  | .trimmed l => l.length - 1

/-- The horizontal, vertical and diagonal details of level `m + j + 1`. -/
def swt2Det (st : List (SStage R)) (m : ℕ) (x : Arr M) (j : ℕ) : Arr M × Arr M × Arr M :=
  (swtnBand st m x j ['d', 'a'], swtnBand st m x j ['a', 'd'], swtnBand st m x j ['d', 'd'])

/-- The dict of three detail arrays, as `swtn` names them. -/
abbrev dict3 (p : Arr M × Arr M × Arr M) : List (List Char × Arr M) :=
  [(['d', 'a'], p.1), (['a', 'd'], p.2.1), (['d', 'd'], p.2.2)]

/-- Every wavelet of the argument is well-formed. -/
def PerAxis.Ok : PerAxis (Wavelet R) → Prop
  | .one w => w.Ok
  | .many ws => ∀ w ∈ ws, w.Ok

/-- Every wavelet of the argument is a perfect-reconstruction bank. -/
def PerAxis.PR : PerAxis (Wavelet R) → Prop
  | .one w => Spec.PR w.dec_lo w.dec_hi w.rec_lo w.rec_hi
  | .many ws => ∀ w ∈ ws, Spec.PR w.dec_lo w.dec_hi w.rec_lo w.rec_hi

end Pywt
