import Verif.Decimator.Model

/-!
# Model of the audio buffer of `DownBeat` (dsp/tempotracking/DownBeat.cpp)

Memory is a list; `none` is an access outside an allocated block or a division by zero. Sizes are unbounded.
-/

namespace QM.DownBeat

variable {K : Type} [Field K]

/-- Data members used by the audio buffer, dsp/tempotracking/DownBeat.h:120-134. `buffer` is the block of `m_bufsiz` floats. -/
structure Buf (K : Type) where
  factor : Nat
  increment : Nat
  dec1 : Option (Decimator.State K)
  dec2 : Option (Decimator.State K)
  decbuf : List K
  buffer : List K
  buffill : Nat

/-- Constructor, dsp/tempotracking/DownBeat.cpp:27-57, as far as the buffer is concerned. -/
def new (factor increment : Nat) : Buf K :=
  { factor := factor, increment := increment, dec1 := none, dec2 := none, decbuf := [], buffer := [], buffill := 0 }

/-- `DownBeat::makeDecimators`, dsp/tempotracking/DownBeat.cpp:75-88. `getHighestSupportedFactor` is 8,
dsp/rateconversion/Decimator.h:55. `junk` is what new memory holds. -/
def makeDecimators (junk : Nat → K) (s : Buf K) : Option (Buf K) :=
  if s.factor < 2 then some s
  else if s.factor ≤ 8 then do
    let d ← Decimator.new s.increment s.factor
    pure { s with dec1 := some d }
  else do
    let d1 ← Decimator.new s.increment 8
    let d2 ← Decimator.new (s.increment / 8) (s.factor / 8)
    pure { s with dec1 := some d1, dec2 := some d2, decbuf := (List.range (s.increment / 8)).map junk }

/-- The growing of the buffer, dsp/tempotracking/DownBeat.cpp:93-101. -/
def grow (junk : Nat → K) (s : Buf K) : Buf K :=
  if s.buffill + s.increment / s.factor > s.buffer.length then
    let size := if s.buffer.length = 0 then s.increment * 16 else s.buffer.length * 2
    { s with buffer := s.buffer ++ (List.range (size - s.buffer.length)).map junk }
  else s

/-- Filling `dst`, dsp/tempotracking/DownBeat.cpp:105-115. Returns the state and the memory at `dst`. -/
def decimate (s : Buf K) (audio dst : List K) : Option (Buf K × List K) :=
  match s.dec2, s.dec1 with
  | some d2, some d1 => do
    let r1 ← Decimator.process d1 audio s.decbuf
    let r2 ← Decimator.process d2 r1.2 dst
    pure ({ s with dec1 := some r1.1, dec2 := some r2.1, decbuf := r1.2 }, r2.2)
  | some _, none => none
  | none, some d1 => do
    let r1 ← Decimator.process d1 audio dst
    pure ({ s with dec1 := some r1.1 }, r1.2)
  | none, none => do
    let dst ← loop s.increment (fun i dst => do
      let v ← audio[i]?
      wr dst i v) dst
    pure (s, dst)

/-- `if (!m_decimator1 && m_factor > 1) makeDecimators()`, dsp/tempotracking/DownBeat.cpp:102-104. -/
def ensure (junk : Nat → K) (s : Buf K) : Option (Buf K) :=
  if s.dec1.isNone ∧ s.factor > 1 then makeDecimators junk s else some s

/-- `DownBeat::pushAudioBlock`, dsp/tempotracking/DownBeat.cpp:90-117. -/
def pushAudioBlock (junk : Nat → K) (s : Buf K) (audio : List K) : Option (Buf K) :=
  if s.factor = 0 then none
  else do
    let s ← ensure junk (grow junk s)
    let r ← decimate s audio (s.buffer.drop s.buffill)
    pure { r.1 with buffer := s.buffer.take s.buffill ++ r.2, buffill := s.buffill + s.increment / s.factor }

/-- `DownBeat::getBufferedAudio`, dsp/tempotracking/DownBeat.cpp:119-124: the samples that may be read. -/
def getBufferedAudio (s : Buf K) : List K := s.buffer.take s.buffill

/-- `DownBeat::resetAudioBuffer`, dsp/tempotracking/DownBeat.cpp:126-135. -/
def resetAudioBuffer (s : Buf K) : Buf K := { s with buffer := [], buffill := 0 }

/-- What a user can do with the buffer. -/
inductive Op (K : Type) where
  | push (audio : List K)
  | reset

/-- A sequence of operations. -/
def run (junk : Nat → K) : Buf K → List (Op K) → Option (Buf K)
  | s, [] => some s
  | s, Op.push a :: ops => do
    let s ← pushAudioBlock junk s a
    run junk s ops
  | s, Op.reset :: ops => run junk (resetAudioBuffer s) ops

end QM.DownBeat
