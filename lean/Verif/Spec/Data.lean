import Verif.Model.Data

/-!
# Specification for C68 and C69: the documented names of the demo signals
-/

namespace Pywt.Spec

/-- The documented name of a signal (docstring of `demo_signal`). -/
def demoName : Demo → String
  | .blocks => "Blocks" | .bumps => "Bumps" | .heavisine => "HeaviSine" | .doppler => "Doppler" | .ramp => "Ramp"
  | .hisine => "HiSine" | .losine => "LoSine" | .linchirp => "LinChirp" | .twochirp => "TwoChirp"
  | .quadchirp => "QuadChirp" | .mishmash => "MishMash" | .wernersorrows => "WernerSorrows" | .hypchirps => "HypChirps"
  | .linchirps => "LinChirps" | .chirps => "Chirps" | .gabor => "Gabor" | .sineoneoverx => "sineoneoverx"
  | .pieceRegular => "Piece-Regular" | .piecePolynomial => "Piece-Polynomial" | .riemann => "Riemann"

/-- Two names are equal but for the case of their letters. -/
def SameName (a b : String) : Prop := a.toList.map Char.toLower = b.toList.map Char.toLower

/-- The signals that are a formula in the time. -/
def SampleWise (d : Demo) : Prop :=
  d ∈ [.blocks, .bumps, .heavisine, .doppler, .ramp, .hisine, .losine, .linchirp, .twochirp, .quadchirp, .mishmash,
    .wernersorrows]

/-- The signals of a fixed length. -/
def FixedLength (d : Demo) : Prop := d = .gabor ∨ d = .sineoneoverx

/-- The signal has `n` real samples. -/
def HasSamples (n : ℕ) : Py DemoOut → Prop
  | .ok (.real f) => f.length = n
  | _ => False

/-- Every sample of the signal is real and has magnitude at most `b`. -/
def BoundedBy (b : ℝ) : Py DemoOut → Prop
  | .ok (.real f) => ∀ v ∈ f, |v| ≤ b
  | _ => False

/-- The mean of the samples is zero. -/
def ZeroMean : Py DemoOut → Prop
  | .ok (.real f) => f.sum = 0
  | _ => False

end Pywt.Spec
