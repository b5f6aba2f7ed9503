import Verif.Resampler.Model
import Verif.Kiss.Model
import Mathlib.Analysis.Real.Sqrt
import Mathlib.Algebra.Order.Floor.Ring

/-!
# Sizes and indices computed in double precision

Where the code computes an integer through doubles, the other models use the exact result. Here every operation on doubles is followed by a rounding `fl`.
Conversions from int to double are exact.
-/

namespace QM.Counting

open QM QM.Resampler

variable {R : Type} [CommRing R] (fl : ℝ → ℝ)

/-- `int(ceil(double(a) / b))`, as in dsp/rateconversion/Resampler.cpp:184-188 and 259, and dsp/keydetection/GetKeyMode.cpp:281. -/
noncomputable def ceilDiv (a b : Nat) : Nat := ⌈fl ((a : ℝ) / b)⌉.toNat

/-- `int(ceil(double(n) * a / b))`, as in dsp/rateconversion/Resampler.cpp:307, 337, 356, 364 and 368. -/
noncomputable def ceilMulDiv (n a b : Nat) : Nat := ⌈fl (fl ((n : ℝ) * a) / b)⌉.toNat

/-- One entry of the phase table, dsp/rateconversion/Resampler.cpp:176-195. -/
noncomputable def mkPhase (I O : Nat) (filter : List R) (phase : Nat) : Option (Phase R) := do
  let nextPhase := (wrapUp I ((phase : Int) - O)).tmod I
  let drop := ⌈fl (max 0 ((O : ℝ) - phase) / I)⌉.toNat
  let filtZipLength := ceilDiv fl (filter.length - phase) I
  let f ← (List.range filtZipLength).mapM (fun i => filter[i * I + phase]?)
  some { nextPhase := nextPhase.toNat, filter := f, drop := drop }

/-- `Resampler::initialise` from line 94 on, dsp/rateconversion/Resampler.cpp:94-268. -/
noncomputable def new (sourceRate targetRate : Nat) (filter : List R) (scale : R) : Option (State R) := do
  let g ← QM.MathInt.gcd (min sourceRate targetRate) (max sourceRate targetRate)
  if g = 0 then none
  else
    let inputSpacing := targetRate / g
    let outputSpacing := sourceRate / g
    let phaseData ← (List.range inputSpacing).mapM (mkPhase fl inputSpacing outputSpacing filter)
    let h := filter.length / 2
    if outputSpacing = 0 ∨ inputSpacing = 0 then none
    else
      let n := ceilDiv fl (filter.length - h) outputSpacing
      some { sourceRate := sourceRate, targetRate := targetRate, scale := scale, latency := n,
             phaseData := phaseData, phase := (h + n * outputSpacing) % inputSpacing,
             buffer := List.replicate ((h + n * outputSpacing) / inputSpacing) 0,
             bufferOrigin := 0 }

/-- `process(src, dst, n)`, dsp/rateconversion/Resampler.cpp:302-332. -/
noncomputable def process (s : State R) (src : List R) : Except Err (State R × List R) :=
  let s := { s with buffer := s.buffer ++ src }
  let maxout := ceilMulDiv fl src.length s.targetRate s.sourceRate
  match outLoop s maxout with
  | .error e => .error e
  | .ok (s, out) =>
    if s.bufferOrigin > s.buffer.length then .error .throws
    else .ok ({ s with buffer := s.buffer.drop s.bufferOrigin, bufferOrigin := 0 }, out)

/-- `Resampler::resample`, dsp/rateconversion/Resampler.cpp:345-410, for a given prototype and gain. -/
noncomputable def resample (sourceRate targetRate : Nat) (filter : List R) (scale : R) (data : List R) :
    Except Err (List R) :=
  match new fl sourceRate targetRate filter scale with
  | none => .error .outOfBounds
  | some r =>
    let latency := r.latency
    let n := data.length
    let inputPad := ceilMulDiv fl latency sourceRate targetRate
    let n1 := n + inputPad
    let m1 := ceilMulDiv fl n1 targetRate sourceRate
    let m := ceilMulDiv fl n targetRate sourceRate
    match process fl r data with
    | .error e => .error e
    | .ok (r, o1) =>
      match process fl r (List.replicate (n1 - n) 0) with
      | .error e => .error e
      | .ok (_, o2) =>
        let got := o1.length + o2.length
        if got > m1 + 1 then .error .outOfBounds
        else
          let out := o1 ++ o2 ++ List.replicate (m1 + 1 - got) 0
          let toReturn : Int := (got : Int) - latency
          let toReturn := if toReturn > m then (m : Int) else toReturn
          if toReturn < 0 ∨ latency + toReturn > out.length then .error .outOfBounds
          else .ok ((out.drop latency).take toReturn.toNat)

/-- `floor(sqrt((double)n))` and the factorisation that depends on it, ext/kissfft/kiss_fft.c:309-331. -/
noncomputable def factor (n : Nat) : Option (List (Nat × Nat)) := Kiss.factorFrom ⌊fl (Real.sqrt n)⌋.toNat 32 n 4

/-- `MathUtilities::round`, maths/MathUtilities.cpp:75-82. -/
noncomputable def round (x : ℝ) : ℤ := if x < 0 then -⌊fl (-x + 1 / 2)⌋ else ⌊fl (x + 1 / 2)⌋

end QM.Counting
