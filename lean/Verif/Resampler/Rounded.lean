import Verif.Counting.Model
import Verif.Resampler.Spec

/-!
# Model of `Resampler` in double precision

The functions of `Verif.Resampler.Model` with a rounding `fl` after every operation on doubles, on samples as well as in the computation of sizes. The
coefficients of the prototype and the gain are given (whatever doubles the constructor arrived at).
-/

namespace QM.Resampler.Rounded

open QM QM.Resampler

variable (fl : ℝ → ℝ)

/-- `reconstructOne`, dsp/rateconversion/Resampler.cpp:276-300. -/
noncomputable def reconstructOne (s : State ℝ) : Except Err (State ℝ × ℝ) :=
  match s.phaseData[s.phase]? with
  | none => .error .outOfBounds
  | some pd =>
    let n := pd.filter.length
    if n + s.bufferOrigin > s.buffer.length then .error .throws
    else
      match loop n (fun i v => do
          let x ← s.buffer[s.bufferOrigin + i]?
          let f ← pd.filter[i]?
          some (fl (v + fl (x * f)))) 0 with
      | none => .error .outOfBounds
      | some v => .ok ({ s with bufferOrigin := s.bufferOrigin + pd.drop, phase := pd.nextPhase }, v)

/-- The `while` of `process`, dsp/rateconversion/Resampler.cpp:316-320. -/
noncomputable def outLoop (s : State ℝ) : Nat → Except Err (State ℝ × List ℝ)
  | 0 => .ok (s, [])
  | k + 1 =>
    match s.phaseData[s.phase]? with
    | none => .error .outOfBounds
    | some pd =>
      if s.buffer.length ≥ pd.filter.length + s.bufferOrigin then
        match reconstructOne fl s with
        | .error e => .error e
        | .ok (s, v) =>
          match outLoop s k with
          | .error e => .error e
          | .ok (s', out) => .ok (s', fl (s.scale * v) :: out)
      else .ok (s, [])

/-- `process(src, dst, n)`, dsp/rateconversion/Resampler.cpp:302-332. -/
noncomputable def process (s : State ℝ) (src : List ℝ) : Except Err (State ℝ × List ℝ) :=
  let s := { s with buffer := s.buffer ++ src }
  let maxout := Counting.ceilMulDiv fl src.length s.targetRate s.sourceRate
  match outLoop fl s maxout with
  | .error e => .error e
  | .ok (s, out) =>
    if s.bufferOrigin > s.buffer.length then .error .throws
    else .ok ({ s with buffer := s.buffer.drop s.bufferOrigin, bufferOrigin := 0 }, out)

/-- Successive `process` calls; the list of the blocks of output. -/
noncomputable def feed (s : State ℝ) : List (List ℝ) → Except Err (State ℝ × List (List ℝ))
  | [] => .ok (s, [])
  | b :: bs =>
    match process fl s b with
    | .error e => .error e
    | .ok (s, o) =>
      match feed s bs with
      | .error e => .error e
      | .ok (s, os) => .ok (s, o :: os)

/-- `Resampler::resample`, dsp/rateconversion/Resampler.cpp:345-410. -/
noncomputable def resample (sourceRate targetRate : Nat) (filter : List ℝ) (scale : ℝ) (data : List ℝ) :
    Except Err (List ℝ) :=
  match Counting.new fl sourceRate targetRate filter scale with
  | none => .error .outOfBounds
  | some r =>
    let latency := r.latency
    let n := data.length
    let inputPad := Counting.ceilMulDiv fl latency sourceRate targetRate
    let n1 := n + inputPad
    let m1 := Counting.ceilMulDiv fl n1 targetRate sourceRate
    let m := Counting.ceilMulDiv fl n targetRate sourceRate
    match process fl r data with
    | .error e => .error e
    | .ok (r, o1) =>
      match process fl r (List.replicate (n1 - n) 0) with
      | .error e => .error e
      | .ok (_, o2) =>
        let got := o1.length + o2.length
        if got > m1 + 1 then .error .outOfBounds
        else
          let out := o1 ++ o2 ++ List.replicate (m1 + 1 - got) 0
          let toReturn : Int := (got : Int) - latency
          let toReturn := if toReturn > m then (m : Int) else toReturn
          if toReturn < 0 ∨ latency + toReturn > out.length then .error .outOfBounds
          else .ok ((out.drop latency).take toReturn.toNat)

end QM.Resampler.Rounded
