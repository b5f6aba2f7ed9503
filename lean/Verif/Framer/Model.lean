import Verif.Common.Loop

/-!
# Model of `Framer` (dsp/signalconditioning/Framer.cpp)

The source samples are a list; reads outside it, and writes outside the caller's frame buffer, give
`none`. 64-bit arithmetic is unbounded here.
-/

namespace QM.Framer

variable {R : Type}

/-- Data members of `Framer`, dsp/signalconditioning/Framer.h:38-53 (scratch buffers never used are
left out). `src` is the memory behind `m_srcBuffer`, `m_sampleLen` its length. -/
structure State (R : Type) where
  src : List R
  framesRead : Nat
  frameLength : Nat
  stepSize : Nat
  maxFrames : Nat
  srcIndex : Int

/-- Constructor, dsp/signalconditioning/Framer.cpp:20-31. -/
def new : State R :=
  { src := [], framesRead := 0, frameLength := 0, stepSize := 0, maxFrames := 0, srcIndex := 0 }

/-- `resetCounters`, dsp/signalconditioning/Framer.cpp:80-84. -/
def resetCounters (s : State R) : State R := { s with framesRead := 0, srcIndex := 0 }

/-- `configure`, dsp/signalconditioning/Framer.cpp:39-51 (non-negative arguments). -/
def configure (s : State R) (frameLength hop : Nat) : State R :=
  resetCounters { s with frameLength := frameLength, stepSize := hop }

/-- `setSource`, dsp/signalconditioning/Framer.cpp:91-102. `none`: division by zero. -/
def setSource (s : State R) (src : List R) : Option (State R) :=
  let length := src.length
  if s.stepSize = 0 then none
  else
    let maxFrames := length / s.stepSize
    let maxFrames := if maxFrames * s.stepSize < length then maxFrames + 1 else maxFrames
    let maxFrames := if maxFrames > 2147483647 then 2147483647 else maxFrames
    some { s with src := src, maxFrames := maxFrames }

/-- `for (i = 0; i < n; ++i) dst[i] = m_srcBuffer[m_srcIndex++]`,
dsp/signalconditioning/Framer.cpp:57-59 and 67-69; the pair is `(m_srcIndex, dst)`. -/
def copyIn (src : List R) (n : Nat) (srcIndex : Int) (dst : List R) : Option (Int × List R) :=
  loop n (fun i (p : Int × List R) => do
    let v ← rdI src p.1
    let dst ← wr p.2 i v
    some (p.1 + 1, dst)) (srcIndex, dst)

/-- `getFrame`, dsp/signalconditioning/Framer.cpp:53-78; `dst` is the caller's buffer. -/
def getFrame [Zero R] (s : State R) (dst : List R) : Option (State R × List R) := do
  if s.srcIndex + s.frameLength < s.src.length then
    let (ix, dst) ← copyIn s.src s.frameLength s.srcIndex dst
    some ({ s with srcIndex := ix - ((s.frameLength : Int) - s.stepSize)
                   framesRead := s.framesRead + 1 }, dst)
  else
    let rem : Int := s.src.length - s.srcIndex
    let zero : Int := s.frameLength - rem
    let (ix, dst) ← copyIn s.src rem.toNat s.srcIndex dst
    let dst ← loop zero.toNat (fun i dst => wrI dst (rem + i) 0) dst
    some ({ s with srcIndex := ix - (rem - s.stepSize), framesRead := s.framesRead + 1 }, dst)

end QM.Framer
