import Verif.DownBeat.Model
import Verif.DownBeat.Buffer
import Verif.FFT.Real
import Verif.MathInt.Model
import Mathlib.Analysis.SpecialFunctions.Trigonometric.Basic
import Mathlib.Analysis.SpecialFunctions.Log.Basic

/-! # The `DownBeat` object with its Fourier transform, dsp/tempotracking/DownBeat.cpp

Over the reals. The contents of new arrays are arguments. -/

namespace QM.DownBeat

/-- The members of `DownBeat`, dsp/tempotracking/DownBeat.h:119-137. -/
structure Obj where
  buf : Buf ℝ
  bpb : Int
  frameSize : Nat
  frame : List ℝ
  re : List ℝ
  im : List ℝ
  fft : FFT.RD
  sd : List ℝ

/-- What the arrays made by the constructor hold. -/
structure ObjMem where
  frame : List ℝ
  re : List ℝ
  im : List ℝ
  u : ℂ

/-- Constructor, dsp/tempotracking/DownBeat.cpp:27-57. `none`: a conversion to `int` or a shift that overflows, division by zero. -/
noncomputable def Obj.make (rate : ℝ) (factor increment : Nat) (m : ObjMem) : Option Obj :=
  if factor = 0 ∨ rate < 0 then none
  else do
    let p ← MathInt.nextPowerOfTwo ⌊rate / (factor : ℝ) * 1.3⌋
    let n := if p < 2 then 2 else p.toNat
    let fft ← FFT.RD.make n m.u
    pure ⟨DownBeat.new factor increment, 0, n, m.frame, m.re, m.im, fft, []⟩

/-- The window, dsp/tempotracking/DownBeat.cpp:181. -/
noncomputable def hann (j len : Nat) : ℝ := 0.5 * (1 - Real.cos (2 * Real.pi * ((j : ℝ) / (len : ℝ))))

/-- The numbers the object works with; the magnitudes are computed by `magnitudes`. -/
noncomputable def Obj.finder (s : Obj) : Finder ℝ where
  bpb := s.bpb
  factor := s.buf.factor
  increment := s.buf.increment
  frameSize := s.frameSize
  hann := hann
  mag := fun _ => []
  eps := 2.2204e-16
  lg := Real.log

/-- The Fourier transform and the magnitudes, dsp/tempotracking/DownBeat.cpp:191-198. Returns the transform object, its two outputs and `newspec`. -/
noncomputable def magnitudes (n : Nat) (fft : FFT.RD) (frame re im spec : List ℝ) : Option (FFT.RD × List ℝ × List ℝ × List ℝ) := do
  let r ← fft.forward frame re im
  let spec ← loop (n / 2) (fun j spec => do
    let a ← r.2.1[j]?
    let b ← r.2.2[j]?
    wr spec j (Real.sqrt (a * a + b * b))) spec
  pure (r.1, r.2.1, r.2.2, spec)

/-- What changes in the loop over the beats: the object and the two spectra. -/
structure Work where
  obj : Obj
  newspec : List ℝ
  oldspec : List ℝ

/-- The spectral difference is recorded from the second beat on, dsp/tempotracking/DownBeat.cpp:206-208. -/
noncomputable def record (p : Finder ℝ) (i : Nat) (oldspec newspec sd : List ℝ) : Option (List ℝ) :=
  if i > 0 then do
    let d ← measureSpecDiff p oldspec newspec
    pure (sd ++ [d])
  else pure sd

/-- One round of the loop over the beats, dsp/tempotracking/DownBeat.cpp:161-216. -/
noncomputable def Work.step (audio beats : List ℝ) (i : Nat) (w : Work) : Option Work := do
  let b ← beats[i]?
  let b' ← beats[i + 1]?
  let e ← extent w.obj.finder audio.length b b'
  let frame ← fillFrame w.obj.finder audio e.1 e.2 w.obj.frame
  let m ← magnitudes w.obj.frameSize w.obj.fft frame w.obj.re w.obj.im w.newspec
  let newspec ← MathReal.adaptiveThreshold m.2.2.2
  let sd ← record w.obj.finder i w.oldspec newspec w.obj.sd
  let oldspec ← loop (w.obj.frameSize / 2) (fun j o => do
    let v ← newspec[j]?
    wr o j v) w.oldspec
  pure ⟨{ w.obj with frame := frame, re := m.2.1, im := m.2.2.1, fft := m.1, sd := sd }, newspec, oldspec⟩

/-- `findDownBeats`, dsp/tempotracking/DownBeat.cpp:137-254. The downbeats are added to those in `db`. -/
noncomputable def Obj.find (s : Obj) (audio beats : List ℝ) (db : List Nat) : Option (Obj × List Nat) :=
  if audio.length = 0 then some ({ s with sd := [] }, db)
  else do
    let w ← loop (beats.length - 1) (Work.step audio beats) ⟨{ s with sd := [] }, List.replicate (s.frameSize / 2) 0, List.replicate (s.frameSize / 2) 0⟩
    let timesig := if s.bpb = 0 then 4 else s.bpb
    if timesig < 0 then none
    else do
      let cand ← candidates timesig.toNat w.obj.sd
      let m ← MathReal.getMax cand
      pure (w.obj, db ++ spread beats.length timesig.toNat m.1)

/-- `getBeatSD`, dsp/tempotracking/DownBeat.cpp:292-298: the values are added to those in `out`. -/
def Obj.getBeatSD (s : Obj) (out : List ℝ) : List ℝ := out ++ s.sd

/-- `setBeatsPerBar`, dsp/tempotracking/DownBeat.cpp:69-73. -/
def Obj.setBeatsPerBar (s : Obj) (bpb : Int) : Obj := { s with bpb := bpb }

/-- `pushAudioBlock`, dsp/tempotracking/DownBeat.cpp:90-117. -/
noncomputable def Obj.push (junk : Nat → ℝ) (s : Obj) (audio : List ℝ) : Option Obj := do
  let b ← pushAudioBlock junk s.buf audio
  pure { s with buf := b }

/-- `resetAudioBuffer`, dsp/tempotracking/DownBeat.cpp:126-135. -/
def Obj.reset (s : Obj) : Obj := { s with buf := resetAudioBuffer s.buf }

end QM.DownBeat
