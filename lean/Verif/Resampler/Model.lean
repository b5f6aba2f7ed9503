import Verif.Common.Loop
import Verif.MathInt.Model
import Mathlib.Algebra.Ring.Defs

/-!
# Model of `Resampler` (dsp/rateconversion/Resampler.cpp)

Samples are elements of a commutative ring. The prototype filter (Kaiser-windowed sinc, lines 62-93)
and the gain `scaleFactor` (line 314) are parameters: the properties hold for every prototype.
Quotients of ints taken in `double` and rounded up with `ceil` are exact ceilings here (they are exact
in `double` as long as the products stay below 2^53, see C90).
-/

namespace QM.Resampler

variable {R : Type} [CommRing R]

/-- `ceil(double(a) / b)` for non-negative `a` and positive `b`. -/
def cdiv (a b : Nat) : Nat := (a + b - 1) / b

/-- The ways a call can fail. -/
inductive Err where
  | throws
  | outOfBounds
deriving DecidableEq, Repr

/-- `Resampler::Phase`, dsp/rateconversion/Resampler.h:85-89. -/
structure Phase (R : Type) where
  nextPhase : Nat
  filter : List R
  drop : Nat

/-- Data members of `Resampler`, dsp/rateconversion/Resampler.h:78-94. -/
structure State (R : Type) where
  sourceRate : Nat
  targetRate : Nat
  scale : R
  latency : Nat
  phaseData : List (Phase R)
  phase : Nat
  buffer : List R
  bufferOrigin : Nat

/-- `while (x < 0) x += inputSpacing`, dsp/rateconversion/Resampler.cpp:181. -/
def wrapUp (I : Nat) (x : Int) : Int :=
  if h : x < 0 ∧ 0 < I then wrapUp I (x + I) else x
termination_by (-x).toNat
decreasing_by omega

/-- One entry of the phase table, dsp/rateconversion/Resampler.cpp:176-195. `none`: the prototype is
read outside its length. -/
def mkPhase (I O : Nat) (filter : List R) (phase : Nat) : Option (Phase R) := do
  let nextPhase := (wrapUp I ((phase : Int) - O)).tmod I
  let drop := cdiv (O - phase) I
  let filtZipLength := cdiv (filter.length - phase) I
  let f ← (List.range filtZipLength).mapM (fun i => filter[i * I + phase]?)
  some { nextPhase := nextPhase.toNat, filter := f, drop := drop }

/-- `Resampler::initialise` from line 94 on, dsp/rateconversion/Resampler.cpp:94-268, for a given
prototype filter and gain. `none` is a division by zero (a zero rate) or an out-of-range read. -/
def new (sourceRate targetRate : Nat) (filter : List R) (scale : R) : Option (State R) := do
  let g ← QM.MathInt.gcd (min sourceRate targetRate) (max sourceRate targetRate)
  if g = 0 then none
  else
    let inputSpacing := targetRate / g
    let outputSpacing := sourceRate / g
    let phaseData ← (List.range inputSpacing).mapM (mkPhase inputSpacing outputSpacing filter)
    let h := filter.length / 2
    if outputSpacing = 0 ∨ inputSpacing = 0 then none
    else
      let n := cdiv (filter.length - h) outputSpacing
      some { sourceRate := sourceRate, targetRate := targetRate, scale := scale, latency := n,
             phaseData := phaseData, phase := (h + n * outputSpacing) % inputSpacing,
             buffer := List.replicate ((h + n * outputSpacing) / inputSpacing) 0,
             bufferOrigin := 0 }

/-- `reconstructOne`, dsp/rateconversion/Resampler.cpp:276-300. -/
def reconstructOne (s : State R) : Except Err (State R × R) :=
  match s.phaseData[s.phase]? with
  | none => .error .outOfBounds
  | some pd =>
    let n := pd.filter.length
    if n + s.bufferOrigin > s.buffer.length then .error .throws
    else
      match loop n (fun i v => do
          let x ← s.buffer[s.bufferOrigin + i]?
          let f ← pd.filter[i]?
          some (v + x * f)) 0 with
      | none => .error .outOfBounds
      | some v => .ok ({ s with bufferOrigin := s.bufferOrigin + pd.drop, phase := pd.nextPhase }, v)

/-- The `while` of `process`, dsp/rateconversion/Resampler.cpp:316-320; the first argument is
`maxout - outidx`. The collected values are `dst[0 .. outidx-1]`. -/
def outLoop (s : State R) : Nat → Except Err (State R × List R)
  | 0 => .ok (s, [])
  | k + 1 =>
    match s.phaseData[s.phase]? with
    | none => .error .outOfBounds
    | some pd =>
      if s.buffer.length ≥ pd.filter.length + s.bufferOrigin then
        match reconstructOne s with
        | .error e => .error e
        | .ok (s, v) =>
          match outLoop s k with
          | .error e => .error e
          | .ok (s', out) => .ok (s', s.scale * v :: out)
      else .ok (s, [])

/-- `process(src, dst, n)`, dsp/rateconversion/Resampler.cpp:302-332: returns the samples written to
`dst` (their number is the return value). -/
def process (s : State R) (src : List R) : Except Err (State R × List R) :=
  let s := { s with buffer := s.buffer ++ src }
  let maxout := cdiv (src.length * s.targetRate) s.sourceRate
  match outLoop s maxout with
  | .error e => .error e
  | .ok (s, out) =>
    if s.bufferOrigin > s.buffer.length then .error .throws
    else .ok ({ s with buffer := s.buffer.drop s.bufferOrigin, bufferOrigin := 0 }, out)

/-- `Resampler::resample`, dsp/rateconversion/Resampler.cpp:345-410, for a given prototype and gain
(the code uses the default quality). `outOfBounds` is a write past the `m1 + 1` samples of `out`, or a
slice outside it. -/
def resample (sourceRate targetRate : Nat) (filter : List R) (scale : R) (data : List R) :
    Except Err (List R) :=
  match new sourceRate targetRate filter scale with
  | none => .error .outOfBounds
  | some r =>
    let latency := r.latency
    let n := data.length
    let inputPad := cdiv (latency * sourceRate) targetRate
    let n1 := n + inputPad
    let m1 := cdiv (n1 * targetRate) sourceRate
    let m := cdiv (n * targetRate) sourceRate
    match process r data with
    | .error e => .error e
    | .ok (r, o1) =>
      match process r (List.replicate (n1 - n) 0) with
      | .error e => .error e
      | .ok (_, o2) =>
        let got := o1.length + o2.length
        if got > m1 + 1 then .error .outOfBounds
        else
          let out := o1 ++ o2 ++ List.replicate (m1 + 1 - got) 0
          let toReturn : Int := (got : Int) - latency
          let toReturn := if toReturn > m then (m : Int) else toReturn
          if toReturn < 0 ∨ latency + toReturn > out.length then .error .outOfBounds
          else .ok ((out.drop latency).take toReturn.toNat)

end QM.Resampler
