import Verif.Pitch.Model
import Verif.Common.Single

/-!
# Model of `base/Pitch.cpp` in floating point

`g` rounds to `float`, `fl` to `double`; `logF` and `powF` are `log` and `powf` of the C library. Operands are converted as C++ does: an expression with a
`double` in it is computed in double precision.
-/

namespace QM.Pitch.Rounded

variable (g fl logF : ℝ → ℝ) (powF : ℝ → ℝ → ℝ)

/-- `Pitch::getFrequencyForPitch`, base/Pitch.cpp:19-26. -/
noncomputable def getFrequencyForPitch (midiPitch : Int) (centsOffset concertA : ℝ) : ℝ :=
  let p := g ((midiPitch : ℝ) + g (centsOffset / 100))
  g (concertA * powF 2 (g (fl (fl (p - 69) / 12))))

/-- `Pitch::getPitchForFrequency`, base/Pitch.cpp:28-45: the pitch and the cents offset. -/
noncomputable def getPitchForFrequency (frequency concertA : ℝ) : Int × ℝ :=
  let p := g (fl (fl (12 * fl (logF (fl (frequency / fl (concertA / 2))) / logF 2)) + 57))
  let midiPitch := trunc (fl (p + fl (1 / 100000)))
  let centsOffset := g (fl (g (p - midiPitch) * 100))
  if centsOffset ≥ 50 then (midiPitch + 1, g (-(fl (100 - centsOffset)))) else (midiPitch, centsOffset)

end QM.Pitch.Rounded
