import Mathlib.Analysis.SpecialFunctions.Pow.Real

/-!
# Model of `base/Pitch.cpp`

`float` and `double` are exact reals. `int(x)` truncates towards zero.
-/

namespace QM.Pitch

/-- `int(x)`. -/
noncomputable def trunc (x : ℝ) : Int := if 0 ≤ x then ⌊x⌋ else ⌈x⌉

/-- `Pitch::getFrequencyForPitch`, base/Pitch.cpp:19-26. -/
noncomputable def getFrequencyForPitch (midiPitch : Int) (centsOffset concertA : ℝ) : ℝ :=
  let p := (midiPitch : ℝ) + centsOffset / 100
  concertA * (2 : ℝ) ^ ((p - 69) / 12)

/-- `Pitch::getPitchForFrequency`, base/Pitch.cpp:28-45: the pitch and the cents offset. -/
noncomputable def getPitchForFrequency (frequency concertA : ℝ) : Int × ℝ :=
  let p := 12 * (Real.log (frequency / (concertA / 2)) / Real.log 2) + 57
  let midiPitch := trunc (p + 1 / 100000)
  let centsOffset := (p - midiPitch) * 100
  if centsOffset ≥ 50 then (midiPitch + 1, -(100 - centsOffset)) else (midiPitch, centsOffset)

end QM.Pitch
