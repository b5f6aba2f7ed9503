import Verif.Resampler.Props
import Verif.Window.Props
import Mathlib.Algebra.Order.Floor.Ring
import Mathlib.Analysis.SpecialFunctions.Pow.Real

/-!
# Model of the prototype filter designed by `Resampler::initialise`

`KaiserWindow::parametersForTransitionWidth`, `parametersForBandwidth`, and the part of
`Resampler::initialise` that computes the prototype and the gain. Doubles are reals. `none` is undefined or
unusable behaviour: a division by zero, a conversion to `int` of a value that does not fit, an empty or
negative length.
-/

namespace QM.Resampler

open QM.Window

/-- Largest `int`. -/
def intMax : Int := 2147483647

/-- `KaiserWindow::parametersForTransitionWidth`, base/KaiserWindow.cpp:18-32: `(length, beta)`. -/
noncomputable def kaiserParams (attenuation transition : ℝ) : Option (Int × ℝ) :=
  if transition = 0 then none
  else
    let length : Int := 1 + (if attenuation > 21 then ⌈(attenuation - 7.95) / (2.285 * transition)⌉ else ⌈5.79 / transition⌉)
    let beta : ℝ := if attenuation > 50 then 0.1102 * (attenuation - 8.7)
      else if attenuation > 21 then 0.5842 * (attenuation - 21) ^ (0.4 : ℝ) + 0.07886 * (attenuation - 21)
      else 0
    if length > intMax ∨ length < -intMax - 1 then none else some (length, beta)

/-- `KaiserWindow::parametersForBandwidth`, base/KaiserWindow.h:72-77. -/
noncomputable def kaiserParamsForBandwidth (attenuation bandwidth samplerate : ℝ) : Option (Int × ℝ) :=
  if samplerate = 0 then none else kaiserParams attenuation (bandwidth * 2 * Real.pi / samplerate)

/-- `m_peakToPole`, dsp/rateconversion/Resampler.cpp:64-69. -/
noncomputable def peakToPole (S T g : Nat) (bandwidth : ℝ) : Option ℝ :=
  let p : ℝ := ((max S T / g : Nat) : ℝ)
  if T < S then
    if 1 - bandwidth / 2 = 0 then none else some (p / (1 - bandwidth / 2))
  else some p

/-- The filter length after rounding up to odd and capping, dsp/rateconversion/Resampler.cpp:74-79. -/
def oddCapped (length : Int) : Int :=
  let length := if length.tmod 2 = 0 then length + 1 else length
  if length > 200001 then 200001 else length

/-- The prototype filter and the gain, dsp/rateconversion/Resampler.cpp:58-92 and 314. -/
noncomputable def design (S T : Nat) (snr bandwidth : ℝ) : Option (List ℝ × ℝ) := do
  let g ← QM.MathInt.gcd (min S T) (max S T)
  if g = 0 then none
  else do
    let p ← peakToPole S T g bandwidth
    let params ← kaiserParamsForBandwidth snr bandwidth ((max S T / g : Nat) : ℝ)
    let length := oddCapped params.1
    if length ≤ 0 ∨ p = 0 then none
    else do
      let n := length.toNat
      let kw ← kaiser n params.2
      let sw ← sinc n (p * 2)
      let filter ← loop n (fun i f => wr f i 1) (List.replicate n 0)
      let filter ← cutInPlace n sw filter
      let filter ← cutInPlace n kw filter
      some (filter, ((T : ℝ) / (g : ℝ)) / p)

/-- The constructor with given quality, dsp/rateconversion/Resampler.cpp:46-52. -/
noncomputable def make (S T : Nat) (snr bandwidth : ℝ) : Option (State ℝ) := do
  let d ← design S T snr bandwidth
  new S T d.1 d.2

/-- The constructor with default quality, dsp/rateconversion/Resampler.cpp:36-44. -/
noncomputable def makeDefault (S T : Nat) : Option (State ℝ) := make S T 100 0.02

/-- The static `resample`, dsp/rateconversion/Resampler.cpp:345-410, with the prototype it uses. -/
noncomputable def resampleDefault (S T : Nat) (data : List ℝ) : Except Err (List ℝ) :=
  match design S T 100 0.02 with
  | none => .error .outOfBounds
  | some d => resample S T d.1 d.2 data

end QM.Resampler
