import Verif.Model.MultilevelN

/-!
# Calls together with the warning they issue
-/

namespace Pywt

variable {R M : Type} [Zero R] [Zero M] [Add M] [Neg M] [Sub M] [SMul ℕ M] [SMul R M]

/-- `_check_level` (_multilevel.py L31-46) with its warning (L42-45): the level, and whether the warning "all coefficients will
experience boundary effects" is issued. -/
def checkLevelWarn (sizes dec_lens : List Nat) (level : Option Int) : Py (Nat × Bool) := do
  let ls ← (sizes.zip dec_lens).mapM fun p => dwtMaxLevel p.1 p.2
  match ls.min? with
  | none => throw .value
  | some max_level =>
    match level with
    | none => pure (max_level, false)
    | some l =>
      if l < 0 then throw .value
      else if l > max_level then pure (l.toNat, true)
      else pure (l.toNat, false)

/-- `pywt.wavedec` on 1-D data (_multilevel.py L49-109) with the warning.  (A warning before an exception is not recorded.) -/
def wavedecWarn (w : Wavelet R) (mode : Mode) (level : Option Int) (data : List M) : Py (List (List M) × Bool) := do
  let (level, warned) ← checkLevelWarn [data.length] [w.dec_len] level
  let cs ← wavedecLoop w mode level data []
  pure (cs, warned)

/-- `wavedecn` (_multilevel.py L360-442) with the warning.  (A warning before an exception is not recorded.) -/
def wavedecnWarn (data : Arr M) (wavelet : PerAxis (Wavelet R)) (mode : PerAxis Mode)
    (level : Option Int) (axes : Option (List Int)) : Py (List (Item M) × Bool) := do
  let (axes, axes_shapes) ← prepAxes data.shape axes
  let wavelets ← wavelet.expand axes.length
  let (level, warned) ← checkLevelWarn axes_shapes (wavelets.map (·.dec_len)) level
  let (a, ds) ← wavedecnLoop wavelet mode axes level data []
  pure (.arr a :: (ds.map Item.ofDict).reverse, warned)

/-- `wavedec2` (_multilevel.py L179-253) with the warning.  (A warning before an exception is not recorded.) -/
def wavedec2Warn (data : Arr M) (wavelet : PerAxis (Wavelet R)) (mode : PerAxis Mode)
    (level : Option Int) (axes : List Int) : Py (List (Item M) × Bool) := do
  if data.ndim < 2 then throw .value
  if axes.length ≠ 2 then throw .value
  if ¬ axes.Nodup then throw .value
  let axes_sizes ← axesShapes data.shape axes
  let wavelets ← wavelet.expand axes.length
  let (level, warned) ← checkLevelWarn axes_sizes (wavelets.map (·.dec_len)) level
  let (a, ds) ← wavedec2Loop wavelet mode axes level data []
  pure (.arr a :: (ds.map Item.ofTriple).reverse, warned)

end Pywt
