import Verif.Model.Mra
import Verif.Model.SwtN

/-!
# Model of the n-D part of `pywt/_mra.py`: `mran`, `mra2` and `mra` with `transform='swt'` and an axis

`norm=True` stands for a factor: `s = 1/sqrt(2)` in the forward and `s' = sqrt(2)` in the inverse
transforms.  Simplification: `mode` is an extension mode, and `mode != 'periodization'` compares it as
such (the code compares strings, so that other names of the same mode are rejected as well).
-/

namespace Pywt

variable {R M : Type} [Ring R] [AddCommGroup M] [Module R M]

/-- The level used by `mra2` and `mran` with a stationary transform (_mra.py L209-210, L350-351):
`min(swt_max_level(s) for s in data.shape)` unless it is given. -/
def mraSwtLevel (level : Option Int) (shape : List Nat) : Py Int := do
  match level with
  | some l => pure l
  | none =>
    let ls ← shape.mapM swtMaxLevel
    match ls with
    | [] => throw .value
    | n :: ns => pure ((ns.foldl min n : Nat) : Int)

/-- `mode == 'periodization'` -/
def PerAxis.isPer : PerAxis Mode → Bool
  | .one .periodization => true
  | _ => false

/-! ### `mran` -/

/-- The loop of `mran` over the keys of level `j` (_mra.py L383-402): `tmp` contains zeros except for
`tmp[j][k]`, which is reconstructed and trimmed; afterwards the zeros are restored.  `inverse` is called
with the dicts of `tmp`, whose first entry is an array of zeros throughout. -/
def mranKeys (inverse : List (ADict M) → Py (Arr M)) (trim : Arr M → Py (Arr M)) (wav : ADict M) (j : Nat) :
    List Key → List (ADict M) → ADict M → Py (ADict M × List (ADict M))
  | [], tmp, dcoeffs => pure (dcoeffs, tmp)
  | k :: ks, tmp, dcoeffs => do
      let z ← lookupKey (tmp.getD j []) k
      let v ← lookupKey wav k
      let tmp := tmp.set j (dictSet (tmp.getD j []) k v)
      let r ← inverse tmp
      let r ← trim r
      mranKeys inverse trim wav j ks (tmp.set j (dictSet (tmp.getD j []) k z)) (dictSet dcoeffs k r)

/-- The loop of `mran` over the levels (_mra.py L380-402). -/
def mranLevels (inverse : List (ADict M) → Py (Arr M)) (trim : Arr M → Py (Arr M)) (wav : List (ADict M)) :
    List Nat → List (ADict M) → List (ADict M) → Py (List (ADict M))
  | [], _, out => pure out
  | j :: js, tmp, out =>
    match wav[j]? with
    | none => throw .index
    | some d => do
      let r ← mranKeys inverse trim d j (d.map (·.1)) tmp []
      mranLevels inverse trim wav js r.2 (out ++ [r.1])

/-- The part of `mran` after the forward transform (_mra.py L362-403): `wav_coeffs` is `A` followed by
the dicts `ds`. -/
def mranCore (inverse : Arr M → List (ADict M) → Py (Arr M)) (data A : Arr M) (ds : List (ADict M)) :
    Py (Arr M × List (ADict M)) := do
  let tmp := ds.map fun d => d.map fun p => (p.1, p.2.zerosLike)
  let r ← inverse A tmp
  let r ← mraTrim data r
  let out ← mranLevels (inverse A.zerosLike) (mraTrim data) ds (List.range ds.length) tmp []
  pure (r, out)

/-- The entries of the list returned by `wavedecn` as dicts of arrays. -/
def itemDicts : List (Item M) → Py (List (ADict M))
  | [] => pure []
  | .dict c :: rest => do
      let rest ← itemDicts rest
      pure (dropNone c :: rest)
  | _ :: _ => throw .attr                -- not reachable

/-- `inverse(tmp)` for `transform='dwtn'`. -/
def mranWaverecn (wavelets : List (Wavelet R)) (modes : List Mode) (axes : List Int) (A : Arr M)
    (ds : List (ADict M)) : Py (Arr M) := do
  match ← waverecn (.arr A :: ds.map Item.ofDict) (.many wavelets) (.many modes) (some axes) with
  | .arr r => pure r
  | _ => throw .attr                     -- not reachable: the coefficients are arrays

/-- `mran` with `transform='dwtn'` (_mra.py L290-403). -/
def mranDwtn (data : Arr M) (wavelet : PerAxis (Wavelet R)) (level : Option Int)
    (axes : Option (List Int)) (mode : PerAxis Mode) : Py (Arr M × List (ADict M)) := do
  let (axes, _) ← prepAxes data.shape axes
  let wavelets ← wavelet.expand axes.length
  let modes ← mode.expand axes.length
  match ← wavedecn data (.many wavelets) (.many modes) level (some axes) with
  | .arr A :: items => do
      let ds ← itemDicts items
      mranCore (mranWaverecn wavelets modes axes) data A ds
  | _ => throw .attr                     -- not reachable

/-- `mran` with `transform='swtn'` (_mra.py L290-403). -/
def mranSwtn [Invertible (2 : R)] (s s' : R) (data : Arr M) (wavelet : PerAxis (Wavelet R))
    (level : Option Int) (axes : Option (List Int)) (mode : PerAxis Mode) :
    Py (Arr M × List (ADict M)) := do
  let (axes, _) ← prepAxes data.shape axes
  let wavelets ← wavelet.expand axes.length
  if ¬ mode.isPer then throw .value
  let level ← mraSwtLevel level data.shape
  match ← swtn data (.many wavelets) level 0 (some axes) true (some s) with
  | .trimmed A ds =>
      mranCore (fun A ds => iswtn (.trimmed A ds) (.many wavelets) (some axes) (some s')) data A ds
  | .dicts _ => throw .type              -- not reachable: `trim_approx=True`

/-! ### `mra2` -/

/-- The arrays of a level of `mra2`: the list `tmp[j]`, and the tuple `wav_coeffs[j]`. -/
abbrev Triple (M : Type) := List (Arr M)

/-- The loop of `mra2` over `n in range(3)` at level `j` (_mra.py L240-253). -/
def mra2Parts (inverse : List (Triple M) → Py (Arr M)) (trim : Arr M → Py (Arr M)) (wav : Triple M) (j : Nat) :
    List Nat → List (Triple M) → Triple M → Py (Triple M × List (Triple M))
  | [], tmp, dcoeffs => pure (dcoeffs, tmp)
  | n :: ns, tmp, dcoeffs =>
    match (tmp.getD j [])[n]?, wav[n]? with
    | some z, some v => do
      let tmp := tmp.set j ((tmp.getD j []).set n v)
      let r ← inverse tmp
      let r ← trim r
      mra2Parts inverse trim wav j ns (tmp.set j ((tmp.getD j []).set n z)) (dcoeffs ++ [r])
    | _, _ => throw .index

/-- The loop of `mra2` over the levels (_mra.py L238-254). -/
def mra2Levels (inverse : List (Triple M) → Py (Arr M)) (trim : Arr M → Py (Arr M)) (wav : List (Triple M)) :
    List Nat → List (Triple M) → List (Triple M) → Py (List (Triple M))
  | [], _, out => pure out
  | j :: js, tmp, out =>
    match wav[j]? with
    | none => throw .index
    | some d => do
      let r ← mra2Parts inverse trim d j [0, 1, 2] tmp []
      mra2Levels inverse trim wav js r.2 (out ++ [r.1])

/-- The part of `mra2` after the forward transform (_mra.py L220-255). -/
def mra2Core (inverse : Arr M → List (Triple M) → Py (Arr M)) (data A : Arr M) (ds : List (Triple M)) :
    Py (Arr M × List (Triple M)) := do
  let tmp := ds.map fun d => d.map Arr.zerosLike
  let r ← inverse A tmp
  let r ← mraTrim data r
  let out ← mra2Levels (inverse A.zerosLike) (mraTrim data) ds (List.range ds.length) tmp []
  pure (r, out)

/-- The entries of the list returned by `wavedec2` as lists of arrays. -/
def itemTriples : List (Item M) → Py (List (Triple M))
  | [] => pure []
  | .tup l :: rest => do
      let rest ← itemTriples rest
      pure (l.filterMap id :: rest)
  | _ :: _ => throw .attr                -- not reachable

/-- `inverse(tmp)` for `transform='dwt2'`. -/
def mra2Waverec2 (wavelet : PerAxis (Wavelet R)) (mode : PerAxis Mode) (axes : List Int) (A : Arr M)
    (ds : List (Triple M)) : Py (Arr M) := do
  match ← waverec2 (.arr A :: ds.map fun d => .tup (d.map some)) wavelet mode axes with
  | .arr r => pure r
  | _ => throw .attr                     -- not reachable: the coefficients are arrays

/-- `mra2` with `transform='dwt2'` (_mra.py L150-256). -/
def mra2Dwt2 (data : Arr M) (wavelet : PerAxis (Wavelet R)) (level : Option Int) (axes : List Int)
    (mode : PerAxis Mode) : Py (Arr M × List (Triple M)) := do
  match ← wavedec2 data wavelet mode level axes with
  | .arr A :: items => do
      let ds ← itemTriples items
      mra2Core (mra2Waverec2 wavelet mode axes) data A ds
  | _ => throw .attr                     -- not reachable

/-- The lists `tmp[1:]` as `iswt2` unpacks them: `(cH, cV, cD)`. -/
def asTriples : List (Triple M) → Py (List (Arr M × Arr M × Arr M))
  | [] => pure []
  | [h, v, d] :: rest => do
      let rest ← asTriples rest
      pure ((h, v, d) :: rest)
  | _ :: _ => throw .value               -- not reachable

/-- `inverse(tmp)` for `transform='swt2'`. -/
def mra2Iswt2 [Invertible (2 : R)] (s' : R) (wavelet : PerAxis (Wavelet R)) (axes : List Int) (A : Arr M)
    (ds : List (Triple M)) : Py (Arr M) := do
  let l ← asTriples ds
  iswt2 (.trimmed A l) wavelet (some s') axes

/-- `mra2` with `transform='swt2'` (_mra.py L150-256). -/
def mra2Swt2 [Invertible (2 : R)] (s s' : R) (data : Arr M) (wavelet : PerAxis (Wavelet R))
    (level : Option Int) (axes : List Int) (mode : PerAxis Mode) : Py (Arr M × List (Triple M)) := do
  if ¬ mode.isPer then throw .value
  let level ← mraSwtLevel level data.shape
  match ← swt2 data wavelet level 0 axes true (some s) with
  | .trimmed A l =>
      mra2Core (mra2Iswt2 s' wavelet axes) data A (l.map fun p => [p.1, p.2.1, p.2.2])
  | .pairs _ => throw .type              -- not reachable: `trim_approx=True`

/-! ### `mra` with an axis -/

/-- `mra` with `transform='swt'` (_mra.py L20-120) on n-D data. -/
def mraSwtA [Invertible (2 : R)] (w : Wavelet R) (s s' : R) (mode : Mode) (level : Option Int) (axis : Int)
    (data : Arr M) : Py (List (Arr M)) := do
  if mode ≠ .periodization then throw .value
  match ← swtA w level 0 true (some s) axis data with
  | .pairs _ => throw .type              -- not reachable: `trim_approx=True`
  | .trimmed [] => throw .index          -- not reachable
  | .trimmed (a :: ds) =>
      let z := a.zerosLike
      mraLoop (fun tmp => iswtA w (some s') axis (.trimmed tmp)) (mraTrim data) (fun _ => z) (a :: ds)
        (List.range (a :: ds).length) (List.replicate (a :: ds).length z) []

end Pywt
