import Verif.Common.Loop
import Verif.MathReal.Model

/-!
# Model of `DownBeat::findDownBeats` (dsp/tempotracking/DownBeat.cpp)

Doubles and floats are elements of an ordered field `K`. `none` is an access outside an array, the conversion of a negative number to
`size_t`, or a vector of negative size. The raised cosine window, the magnitude spectrum of a frame (modelled in `Verif/FFT`) and the
logarithm are parameters, so that the model runs on rational numbers.
-/

namespace QM.DownBeat

open QM.MathReal

/-- Data members used by `findDownBeats`, dsp/tempotracking/DownBeat.h:119-137, and what it calls. -/
structure Finder (K : Type) where
  bpb : Int
  factor : Nat
  increment : Nat
  frameSize : Nat
  hann : Nat → Nat → K
  mag : List K → List K
  eps : K
  lg : K → K

variable {K : Type} [Field K] [LinearOrder K] [FloorRing K]

/-- Conversion of a double to `size_t`. -/
def toSize (x : K) : Option Nat := if x < 0 then none else some ⌊x⌋.toNat

/-- Filling the beat frame, dsp/tempotracking/DownBeat.cpp:180-187. -/
def fillFrame (p : Finder K) (audio : List K) (start len : Nat) (frame : List K) : Option (List K) := do
  let frame ← loop (min len p.frameSize) (fun j frame => do
    let v ← audio[start + j]?
    wr frame j (v * p.hann j len)) frame
  loop (p.frameSize - len) (fun j frame => wr frame (len + j) 0) frame

/-- Limits of a beat in the audio, dsp/tempotracking/DownBeat.cpp:168-172: start and length. A length below zero, which wraps around in C, is
`none`. -/
def extent (p : Finder K) (audioLength : Nat) (b b' : K) : Option (Nat × Nat) := do
  let start ← toSize (b * (p.increment : K) / (p.factor : K))
  let stop ← toSize (b' * (p.increment : K) / (p.factor : K))
  let stop := if stop ≥ audioLength then audioLength - 1 else stop
  let stop := if stop < start then start else stop
  if stop < start then none else pure (start, stop - start)

/-- `DownBeat::measureSpecDiff`, dsp/tempotracking/DownBeat.cpp:244-290. -/
def measureSpecDiff (p : Finder K) (oldspec newspec : List K) : Option K := do
  let size := if 512 > oldspec.length / 4 then oldspec.length / 4 else 512
  let s ← loop size (fun i (s : List K × List K × K × K) => do
    let n ← s.1[i]?
    let o ← s.2.1[i]?
    let ns ← wr s.1 i (n + p.eps)
    let os ← wr s.2.1 i (o + p.eps)
    pure (ns, os, s.2.2.1 + (n + p.eps), s.2.2.2 + (o + p.eps))) (newspec, oldspec, 0, 0)
  loop size (fun i sd => do
    let n ← s.1[i]?
    let o ← s.2.1[i]?
    let n := n / s.2.2.1
    let o := o / s.2.2.2
    let n := if n = 0 then 1 else n
    let o := if o = 0 then 1 else o
    let sd1 := 1 / 2 * o + 1 / 2 * n
    pure (sd + (-sd1 * p.lg sd1) + (1 / 2 * (o * p.lg o)) + (1 / 2 * (n * p.lg n)))) 0

/-- The loop over the beats, dsp/tempotracking/DownBeat.cpp:161-219: the beat frame, the spectrum of the previous beat and
`m_beatsd`. -/
def beatStep (p : Finder K) (audio beats : List K) (i : Nat) (s : List K × List K × List K) : Option (List K × List K × List K) := do
  let b ← beats[i]?
  let b' ← beats[i + 1]?
  let e ← extent p audio.length b b'
  let frame ← fillFrame p audio e.1 e.2 s.1
  let newspec ← adaptiveThreshold (p.mag frame)
  if i > 0 then do
    let d ← measureSpecDiff p s.2.1 newspec
    pure (frame, newspec, s.2.2 ++ [d])
  else pure (frame, newspec, s.2.2)

/-- The downbeat candidates, dsp/tempotracking/DownBeat.cpp:226-245. The loop variable `example` is `beat - 1 + m * timesig`; the rounds
are counted by `m`. -/
def candidates (timesig : Nat) (beatsd : List K) : Option (List K) :=
  loop timesig (fun beat cand => do
    let s ← loop ((beatsd.length + 1 - beat + timesig - 1) / timesig) (fun m (s : List K × Nat) =>
      if beat + m * timesig = 0 then some s
      else do
        let v ← beatsd[beat + m * timesig - 1]?
        let c ← s.1[beat]?
        let cand ← wr s.1 beat (c + v / (timesig : K))
        pure (cand, s.2 + 1)) (cand, 0)
    if s.2 > 0 then do
      let c ← s.1[beat]?
      wr s.1 beat (c / (s.2 : K))
    else some s.1) (List.replicate timesig 0)

/-- The downbeats from the first, dsp/tempotracking/DownBeat.cpp:250-253. -/
def spread (n timesig d : Nat) : List Nat := (List.range ((n - d + timesig - 1) / timesig)).map (fun m => d + m * timesig)

/-- `DownBeat::findDownBeats`, dsp/tempotracking/DownBeat.cpp:137-254. `frame` is what the beat frame buffer holds. Returns the downbeats
added and `m_beatsd`. -/
def findDownBeats (p : Finder K) (frame audio beats : List K) : Option (List Nat × List K) :=
  if audio.length = 0 then some ([], [])
  else do
    let s ← loop (beats.length - 1) (beatStep p audio beats) (frame, List.replicate (p.frameSize / 2) 0, [])
    let timesig := if p.bpb = 0 then 4 else p.bpb
    if timesig < 0 then none
    else do
      let cand ← candidates timesig.toNat s.2.2
      let m ← getMax cand
      pure (spread beats.length timesig.toNat m.1, s.2.2)

end QM.DownBeat
