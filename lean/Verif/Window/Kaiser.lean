import Verif.Resampler.Design

/-!
# Kaiser windows by specification

The two static constructors of `KaiserWindow` on top of the parameters (`Verif/Resampler/Design.lean`) and of the table (`Verif/Window/Model.lean`). With a
length below 1 both loops of `KaiserWindow::init` end at once, as they do with a length of 0.
-/

namespace QM.Window

open QM.Resampler

noncomputable section

/-- `KaiserWindow::byTransitionWidth`, base/KaiserWindow.h:43-47. -/
def byTransitionWidth (attenuation transition : ℝ) : Option (List ℝ) := do
  let p ← kaiserParams attenuation transition
  kaiser p.1.toNat p.2

/-- `KaiserWindow::byBandwidth`, base/KaiserWindow.h:53-58. -/
def byBandwidth (attenuation bandwidth samplerate : ℝ) : Option (List ℝ) := do
  let p ← kaiserParamsForBandwidth attenuation bandwidth samplerate
  kaiser p.1.toNat p.2

/-! ## Specification -/

/-- Kaiser's estimate of the order of a filter times its transition width. -/
def kaiserOrder (attenuation : ℝ) : ℝ := if attenuation > 21 then (attenuation - 7.95) / 2.285 else 5.79

end

end QM.Window
