import Verif.FFT.Model
import Verif.MathReal.Model
import Mathlib.Analysis.SpecialFunctions.Complex.Arg

/-!
# Model of `dsp/phasevocoder/PhaseVocoder.cpp`

Doubles are real numbers, `atan2(b, a)` is the argument of `a + b i`, and an access outside an array is `none`.
-/

namespace QM.PhaseVocoder

open QM.FFT QM.MathReal

/-- A `PhaseVocoder`, dsp/phasevocoder/PhaseVocoder.h:66-74. -/
structure PV where
  n : Nat
  hop : Int
  fft : RD
  time : List ℝ
  real : List ℝ
  imag : List ℝ
  phase : List ℝ
  unwrapped : List ℝ

/-- `omega`, dsp/phasevocoder/PhaseVocoder.cpp:98 and 123. -/
noncomputable def omega (n : Nat) (hop : Int) (i : Nat) : ℝ := (2 * Real.pi * hop * i) / n

/-- `PhaseVocoder::reset`, dsp/phasevocoder/PhaseVocoder.cpp:91-102. -/
noncomputable def reset (d : PV) : Option PV := do
  let p ← loop (d.n / 2 + 1) (fun i (p : List ℝ × List ℝ) => do
    let ph ← wr p.1 i (-omega d.n d.hop i)
    let un ← wr p.2 i (-omega d.n d.hop i)
    pure (ph, un)) (d.phase, d.unwrapped)
  pure { d with phase := p.1, unwrapped := p.2 }

/-- `PhaseVocoder::PhaseVocoder`, dsp/phasevocoder/PhaseVocoder.cpp:27-44. `u`, `v` are uninitialised memory. -/
noncomputable def make (n : Nat) (hop : Int) (u : ℂ) (v : ℝ) : Option PV := do
  let fft ← RD.make n u
  let p ← loop (n / 2 + 1) (fun i (p : List ℝ × List ℝ) => do
    let ph ← wr p.1 i 0
    let un ← wr p.2 i 0
    pure (ph, un)) (List.replicate (n / 2 + 1) v, List.replicate (n / 2 + 1) v)
  reset ⟨n, hop, fft, List.replicate n v, List.replicate n v, List.replicate n v, p.1, p.2⟩

/-- `PhaseVocoder::FFTShift`, dsp/phasevocoder/PhaseVocoder.cpp:56-64. -/
noncomputable def fftShift (n : Nat) (src : List ℝ) : Option (List ℝ) :=
  loop (n / 2) (fun i src => do
    let tmp ← src[i]?
    let v ← src[i + n / 2]?
    let src ← wr src i v
    wr src (i + n / 2) tmp) src

/-- `PhaseVocoder::getMagnitudes`, dsp/phasevocoder/PhaseVocoder.cpp:104-109. -/
noncomputable def getMagnitudes (d : PV) (mag : List ℝ) : Option (List ℝ) :=
  loop (d.n / 2 + 1) (fun i mag => do
    let r ← d.real[i]?
    let im ← d.imag[i]?
    wr mag i (Real.sqrt (r * r + im * im))) mag

/-- `PhaseVocoder::getPhases`, dsp/phasevocoder/PhaseVocoder.cpp:111-116. -/
noncomputable def getPhases (d : PV) (theta : List ℝ) : Option (List ℝ) :=
  loop (d.n / 2 + 1) (fun i theta => do
    let r ← d.real[i]?
    let im ← d.imag[i]?
    wr theta i (Complex.arg ⟨r, im⟩)) theta

/-- `PhaseVocoder::unwrapPhases`, dsp/phasevocoder/PhaseVocoder.cpp:118-132. State: `m_phase`, `m_unwrapped`, `unwrapped`. -/
noncomputable def unwrapBody (n : Nat) (hop : Int) (theta : List ℝ) (i : Nat) (s : List ℝ × List ℝ × List ℝ) :
    Option (List ℝ × List ℝ × List ℝ) := do
  let ph ← s.1[i]?
  let expected := ph + omega n hop i
  let t ← theta[i]?
  let error := princarg (t - expected)
  let un ← s.2.1[i]?
  let out ← wr s.2.2 i (un + omega n hop i + error)
  let phase ← wr s.1 i t
  let v ← out[i]?
  let unwrapped ← wr s.2.1 i v
  pure (phase, unwrapped, out)

noncomputable def unwrapPhases (d : PV) (theta out : List ℝ) : Option (PV × List ℝ) := do
  let s ← loop (d.n / 2 + 1) (unwrapBody d.n d.hop theta) (d.phase, d.unwrapped, out)
  pure ({ d with phase := s.1, unwrapped := s.2.1 }, s.2.2)

/-- The common end of both process functions, dsp/phasevocoder/PhaseVocoder.cpp:75-77 and 87-89. -/
noncomputable def finish (d : PV) (mag theta out : List ℝ) : Option (PV × List ℝ × List ℝ × List ℝ) := do
  let mag ← getMagnitudes d mag
  let theta ← getPhases d theta
  let (d, out) ← unwrapPhases d theta out
  pure (d, mag, theta, out)

/-- `PhaseVocoder::processTimeDomain`, dsp/phasevocoder/PhaseVocoder.cpp:66-78. -/
noncomputable def processTime (d : PV) (src mag theta out : List ℝ) : Option (PV × List ℝ × List ℝ × List ℝ) := do
  let time ← loop d.n (fun i t => do
    let v ← src[i]?
    wr t i v) d.time
  let time ← fftShift d.n time
  let (fft, real, imag) ← d.fft.forward time d.real d.imag
  finish { d with fft := fft, time := time, real := real, imag := imag } mag theta out

/-- `PhaseVocoder::processFrequencyDomain`, dsp/phasevocoder/PhaseVocoder.cpp:80-90. -/
noncomputable def processFreq (d : PV) (reals imags mag theta out : List ℝ) : Option (PV × List ℝ × List ℝ × List ℝ) := do
  let p ← loop (d.n / 2 + 1) (fun i (p : List ℝ × List ℝ) => do
    let r ← reals[i]?
    let real ← wr p.1 i r
    let im ← imags[i]?
    let imag ← wr p.2 i im
    pure (real, imag)) (d.real, d.imag)
  finish { d with real := p.1, imag := p.2 } mag theta out

end QM.PhaseVocoder
