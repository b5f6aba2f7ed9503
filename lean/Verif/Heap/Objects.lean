import Verif.Heap.Triple
import Verif.Heap.Segmenter

/-!
# Memory of the analysis objects

What constructors, methods and destructors allocate, use and release. Objects are taken to be created with `new`; the sizes of objects and of the plans of transforms are arbitrary. Members of type
`std::vector` and local vectors are left out: they release their memory themselves. Values are left out as in `Verif.Heap.Segmenter`. A `double` has 8 bytes, a pair of them 16, a `float` and an
`int` 4.
-/

namespace QM.Heap

/-- Classes of which objects are created with `new`. -/
inductive Cls
  | fftD | fftRealD | fftReal | window | sparseKernel | constantQ | chromagram | decimator | decimatorB | phaseVocoder | detectionFunction | filtFilt | dfProcess | peakPicking | framer | tempoTrack
  | mfcc | downBeat | getKeyMode | resampler | segmenter

/-- Sizes of objects, and of the plans of complex and real transforms. -/
structure Sizes where
  obj : Cls → Nat
  plan : Nat → Nat
  planr : Nat → Nat

variable (so : Sizes)

/-! ### Transforms -/

/-- An `FFT`, dsp/transforms/FFT.cpp:22-78; the object itself is a local variable of its user. -/
structure Fft where
  n : Nat
  d : Nat
  planf : Nat
  plani : Nat
  kin : Nat
  kout : Nat

/-- `FFT::FFT`, dsp/transforms/FFT.cpp:25-30, 80-83. -/
def Fft.new (n : Nat) : M Fft := do
  let d ← malloc (so.obj .fftD)
  let planf ← malloc (so.plan n)
  let plani ← malloc (so.plan n)
  let kin ← malloc (16 * n)
  let kout ← malloc (16 * n)
  pure ⟨n, d, planf, plani, kin, kout⟩

/-- `FFT::process`, dsp/transforms/FFT.cpp:39-69, 90-98. `tmps` are the sizes of the blocks that `kiss_fft` uses for factors other than 2, 3, 4 and 5. -/
def Fft.process (x : Fft) (inverse : Bool) (tmps : List Nat) : M Unit := do
  use x.d
  use x.kin
  use (if inverse then x.plani else x.planf)
  temps tmps
  use x.kout

/-- `FFT::~FFT`, dsp/transforms/FFT.cpp:32-37, 85-88. -/
def Fft.del (x : Fft) : M Unit := do
  use x.d
  free x.planf
  free x.plani
  free x.kin
  free x.kout
  free x.d

/-- An `FFTReal`, dsp/transforms/FFT.cpp:100-171. -/
structure FftReal where
  n : Nat
  self : Nat
  d : Nat
  planf : Nat
  plani : Nat
  c : Nat

/-- `new FFTReal(n)`, dsp/transforms/FFT.cpp:103-111, 173-176. For odd lengths the constructor throws, and the memory of both objects is released. -/
def FftReal.new (n : Nat) : M (Option FftReal) := do
  let self ← malloc (so.obj .fftReal)
  let d ← malloc (so.obj .fftRealD)
  if n % 2 = 1 then do
    free d
    free self
    pure none
  else do
    let planf ← malloc (so.planr n)
    let plani ← malloc (so.planr n)
    let c ← malloc (16 * n)
    pure (some ⟨n, self, d, planf, plani, c⟩)

/-- Methods of `FFTReal`. -/
inductive FftOp
  | forward (tmps : List Nat)
  | forwardMagnitude (tmps : List Nat)
  | inverse (tmps : List Nat)

/-- `FFTReal::forward`, dsp/transforms/FFT.cpp:119-132. -/
def FftReal.forward (x : FftReal) (tmps : List Nat) : M Unit := do
  use x.self
  use x.d
  use x.planf
  temps tmps
  use x.c

/-- `FFTReal::forward`, `forwardMagnitude` and `inverse`, dsp/transforms/FFT.cpp:119-165. -/
def FftReal.step : FftOp → FftReal → M FftReal
  | .forward tmps, x => do
    x.forward tmps
    pure x
  | .forwardMagnitude tmps, x => do
    let io ← malloc (8 * x.n)
    x.forward tmps
    use io
    free io
    pure x
  | .inverse tmps, x => do
    use x.self
    use x.d
    use x.c
    use x.plani
    temps tmps
    pure x

/-- `delete` of an `FFTReal`, dsp/transforms/FFT.cpp:113-117, 178-181. -/
def FftReal.del (x : FftReal) : M Unit := do
  use x.self
  use x.d
  free x.planf
  free x.plani
  free x.c
  free x.d
  free x.self

/-! ### Windows -/

/-- A `Window<double>`, base/Window.h:40-85. -/
structure Win where
  n : Nat
  self : Nat
  cache : Nat

/-- `new Window<double>(type, n)`, base/Window.h:50, 88-155. -/
def Win.new (n : Nat) : M Win := do
  let self ← malloc (so.obj .window)
  let cache ← malloc (8 * n)
  pure ⟨n, self, cache⟩

/-- Methods of `Window`: `cut`, and an assignment from another window with `m` elements. -/
inductive WinOp
  | cut
  | assign (m : Nat)

/-- `Window::cut`, base/Window.h:61-66. -/
def Win.cut (x : Win) : M Unit := do
  use x.self
  use x.cache

/-- `Window::cut` and `Window::operator=`, base/Window.h:52-66. The assignment sets `m_cache` to a new block and does nothing with the old one. -/
def Win.step : WinOp → Win → M Win
  | .cut, x => do
    x.cut
    pure x
  | .assign m, x => do
    use x.self
    let cache ← malloc (8 * m)
    pure ⟨m, x.self, cache⟩

/-- `delete` of a `Window`, base/Window.h:59. -/
def Win.del (x : Win) : M Unit := do
  use x.self
  free x.cache
  free x.self

/-- `delete` of a pointer to a `Window` that may be null. -/
def delWin : Option Win → M Unit
  | none => pure ()
  | some x => x.del

/-! ### Constant-Q transform -/

/-- A `ConstantQ`, dsp/chromagram/ConstantQ.h: `K` bins, transforms of length `N`; `sk` is the sparse kernel, null before it is computed. -/
structure Cq where
  K : Nat
  N : Nat
  self : Nat
  data : Nat
  sk : Option Nat

/-- `new ConstantQ(config)`, dsp/chromagram/ConstantQ.cpp:23-27, 129-151. -/
def Cq.new (K N : Nat) : M Cq := do
  let self ← malloc (so.obj .constantQ)
  let data ← malloc (8 * (2 * K))
  pure ⟨K, N, self, data, none⟩

/-- `ConstantQ::sparsekernel`, dsp/chromagram/ConstantQ.cpp:38-127. The window for bin `j` has `w j` elements. -/
def Cq.sparsekernel (x : Cq) (w : Nat → Nat) (tmps : List Nat) : M Cq := do
  use x.self
  let sk ← malloc (so.obj .sparseKernel)
  let windowRe ← malloc (8 * x.N)
  let windowIm ← malloc (8 * x.N)
  let transfWindowRe ← malloc (8 * x.N)
  let transfWindowIm ← malloc (8 * x.N)
  let fft ← Fft.new so x.N
  each x.K fun j => do
    use windowRe
    use windowIm
    let hamming ← malloc (8 * w j)
    use hamming
    fft.process false tmps
    use transfWindowRe
    use transfWindowIm
    use sk
    free hamming
  free windowRe
  free windowIm
  free transfWindowRe
  free transfWindowIm
  fft.del
  pure { x with sk := some sk }

/-- `ConstantQ::process`, dsp/chromagram/ConstantQ.cpp:160-240. -/
def Cq.process (x : Cq) : M Unit := do
  use x.self
  use x.data
  match x.sk with
  | none => pure ()
  | some sk => use sk

/-- Methods of `ConstantQ`. -/
inductive CqOp
  | sparsekernel (w : Nat → Nat) (tmps : List Nat)
  | process

/-- The methods of `ConstantQ`. -/
def Cq.step : CqOp → Cq → M Cq
  | .sparsekernel w tmps, x => x.sparsekernel so w tmps
  | .process, x => do
    x.process
    pure x

/-- `delete` of a `ConstantQ`, dsp/chromagram/ConstantQ.cpp:29-32, 153-157. -/
def Cq.del (x : Cq) : M Unit := do
  use x.self
  free x.data
  Heap.del x.sk
  free x.self

/-! ### Chromagram -/

/-- A `Chromagram`, dsp/chromagram/Chromagram.h. -/
structure Chroma where
  bpo : Nat
  self : Nat
  chroma : Nat
  cq : Cq
  fft : FftReal
  re : Nat
  im : Nat
  cqRe : Nat
  cqIm : Nat
  window : Option Win
  buf : Option Nat
  generated : Bool

/-- `new Chromagram(config)` with `bpo` bins per octave, `K` bins and frames of `N` samples, dsp/chromagram/Chromagram.cpp:22-75. If the constructor of the transform throws, the memory of the object
itself is released, but no destructor runs. -/
def Chroma.new (bpo K N : Nat) : M (Option Chroma) := do
  let self ← malloc (so.obj .chromagram)
  let chroma ← malloc (8 * bpo)
  let cq ← Cq.new so K N
  match ← FftReal.new so N with
  | none => do
    free self
    pure none
  | some fft => do
    let re ← malloc (8 * N)
    let im ← malloc (8 * N)
    let cqRe ← malloc (8 * K)
    let cqIm ← malloc (8 * K)
    pure (some ⟨bpo, self, chroma, cq, fft, re, im, cqRe, cqIm, none, none, false⟩)

/-- The sparse kernel is computed once, dsp/chromagram/Chromagram.cpp:126-130 and 157-161. -/
def Chroma.generate (x : Chroma) (w : Nat → Nat) (tmps : List Nat) : M Chroma :=
  if x.generated then pure x
  else do
    let cq ← x.cq.sparsekernel so w tmps
    pure { x with cq := cq, generated := true }

/-- `Chromagram::process` for a spectrum, dsp/chromagram/Chromagram.cpp:155-200. -/
def Chroma.processFreq (x : Chroma) (w : Nat → Nat) (tmps : List Nat) : M Chroma := do
  use x.self
  let x ← x.generate so w tmps
  use x.chroma
  x.cq.process
  use x.cqRe
  use x.cqIm
  pure x

/-- The window is created when it is first needed, dsp/chromagram/Chromagram.cpp:132-135. -/
def Chroma.window! (x : Chroma) : M Chroma :=
  match x.window with
  | some _ => pure x
  | none => do
    let w ← Win.new so x.fft.n
    let b ← malloc (8 * x.fft.n)
    pure { x with window := some w, buf := some b }

/-- Undefined behaviour. -/
def undef {α : Type} : M α := fun _ => none

/-- An access through a pointer: undefined if it is null. -/
def deref : Option Nat → M Unit
  | none => undef
  | some p => use p

/-- A call through a pointer to a window: undefined if it is null. -/
def cutWin : Option Win → M Unit
  | none => undef
  | some w => w.cut

/-- `Chromagram::process` for samples, dsp/chromagram/Chromagram.cpp:124-153. -/
def Chroma.processTime (x : Chroma) (w : Nat → Nat) (tmps : List Nat) : M Chroma := do
  use x.self
  let x ← x.generate so w tmps
  let x ← x.window! so
  deref x.buf
  cutWin x.window
  x.fft.forward tmps
  use x.re
  use x.im
  x.processFreq so w tmps

/-- Methods of `Chromagram`. -/
inductive ChromaOp
  | time (w : Nat → Nat) (tmps : List Nat)
  | freq (w : Nat → Nat) (tmps : List Nat)

/-- The methods of `Chromagram`. -/
def Chroma.step : ChromaOp → Chroma → M Chroma
  | .time w tmps, x => x.processTime so w tmps
  | .freq w tmps, x => x.processFreq so w tmps

/-- `delete` of a `Chromagram`, dsp/chromagram/Chromagram.cpp:77-98. -/
def Chroma.del (x : Chroma) : M Unit := do
  use x.self
  Heap.del x.buf
  delWin x.window
  free x.chroma
  x.fft.del
  x.cq.del
  free x.re
  free x.im
  free x.cqRe
  free x.cqIm
  free x.self

/-! ### Decimators -/

/-- A `Decimator`, dsp/rateconversion/Decimator.h. -/
structure Dec where
  n : Nat
  self : Nat
  buf : Nat

/-- `new Decimator(n, factor)`, dsp/rateconversion/Decimator.cpp:24-44. -/
def Dec.new (n : Nat) : M Dec := do
  let self ← malloc (so.obj .decimator)
  let buf ← malloc (8 * n)
  pure ⟨n, self, buf⟩

/-- `Decimator::process`, dsp/rateconversion/Decimator.cpp:155-232. -/
def Dec.process (x : Dec) : M Unit := do
  use x.self
  use x.buf

/-- `delete` of a `Decimator`, dsp/rateconversion/Decimator.cpp:34-37, 143-146. -/
def Dec.del (x : Dec) : M Unit := do
  use x.self
  free x.buf
  free x.self

/-- `delete` of a pointer to a `Decimator` that may be null. -/
def delDec : Option Dec → M Unit
  | none => pure ()
  | some x => x.del

/-- A `DecimatorB`, dsp/rateconversion/DecimatorB.h; the buffers are null if the factor is refused. -/
structure DecB where
  n : Nat
  self : Nat
  aa : Option Nat
  tmp : Option Nat

/-- `new DecimatorB(n, factor)`, dsp/rateconversion/DecimatorB.cpp:23-82; `ok` if the factor is accepted. -/
def DecB.new (n : Nat) (ok : Bool) : M DecB := do
  let self ← malloc (so.obj .decimatorB)
  if ok then do
    let aa ← malloc (8 * n)
    let tmp ← malloc (8 * n)
    pure ⟨n, self, some aa, some tmp⟩
  else pure ⟨n, self, none, none⟩

/-- `DecimatorB::process`, dsp/rateconversion/DecimatorB.cpp:111-165, which does nothing if the factor has been refused. -/
def DecB.process (x : DecB) : M Unit := do
  use x.self
  match x.aa, x.tmp with
  | some aa, some tmp => do
    use aa
    use tmp
  | _, _ => pure ()

/-- `delete` of a `DecimatorB`, dsp/rateconversion/DecimatorB.cpp:34-37, 84-88. -/
def DecB.del (x : DecB) : M Unit := do
  use x.self
  Heap.del x.aa
  Heap.del x.tmp
  free x.self

/-! ### Phase vocoder and detection functions -/

/-- A `PhaseVocoder`, dsp/phasevocoder/PhaseVocoder.h. -/
structure Pv where
  self : Nat
  fft : FftReal
  time : Nat
  real : Nat
  imag : Nat
  phase : Nat
  unwrapped : Nat

/-- `new PhaseVocoder(n, hop)`, dsp/phasevocoder/PhaseVocoder.cpp:27-44. -/
def Pv.new (n : Nat) : M (Option Pv) := do
  let self ← malloc (so.obj .phaseVocoder)
  match ← FftReal.new so n with
  | none => do
    free self
    pure none
  | some fft => do
    let time ← malloc (8 * n)
    let real ← malloc (8 * n)
    let imag ← malloc (8 * n)
    let phase ← malloc (8 * (n / 2 + 1))
    let unwrapped ← malloc (8 * (n / 2 + 1))
    pure (some ⟨self, fft, time, real, imag, phase, unwrapped⟩)

/-- `PhaseVocoder::processTimeDomain` (`some tmps`) and `processFrequencyDomain` (`none`), dsp/phasevocoder/PhaseVocoder.cpp:66-92. -/
def Pv.process (x : Pv) (t : Option (List Nat)) : M Unit := do
  use x.self
  (match t with
  | some tmps => do
    use x.time
    x.fft.forward tmps
  | none => pure ())
  use x.real
  use x.imag
  use x.phase
  use x.unwrapped

/-- `delete` of a `PhaseVocoder`, dsp/phasevocoder/PhaseVocoder.cpp:46-54. -/
def Pv.del (x : Pv) : M Unit := do
  use x.self
  free x.unwrapped
  free x.phase
  free x.real
  free x.imag
  free x.time
  x.fft.del
  free x.self

/-- A `DetectionFunction`, dsp/onsets/DetectionFunction.h. -/
structure Df where
  n : Nat
  self : Nat
  magHistory : Nat
  phaseHistory : Nat
  phaseHistoryOld : Nat
  magPeaks : Nat
  pv : Pv
  magnitude : Nat
  thetaAngle : Nat
  unwrapped : Nat
  window : Win
  windowed : Nat

/-- `new DetectionFunction(config)` for frames of `n` samples, dsp/onsets/DetectionFunction.cpp:23-32, 40-75. If the phase vocoder cannot be created, the exception leaves the constructor, and the
destructor does not run. -/
def Df.new (n : Nat) : M (Option Df) := do
  let self ← malloc (so.obj .detectionFunction)
  let magHistory ← malloc (8 * (n / 2 + 1))
  let phaseHistory ← malloc (8 * (n / 2 + 1))
  let phaseHistoryOld ← malloc (8 * (n / 2 + 1))
  let magPeaks ← malloc (8 * (n / 2 + 1))
  match ← Pv.new so n with
  | none => do
    free self
    pure none
  | some pv => do
    let magnitude ← malloc (8 * (n / 2 + 1))
    let thetaAngle ← malloc (8 * (n / 2 + 1))
    let unwrapped ← malloc (8 * (n / 2 + 1))
    let window ← Win.new so n
    let windowed ← malloc (8 * n)
    pure (some ⟨n, self, magHistory, phaseHistory, phaseHistoryOld, magPeaks, pv, magnitude, thetaAngle, unwrapped, window, windowed⟩)

/-- `DetectionFunction::processTimeDomain` (`some tmps`) and `processFrequencyDomain` (`none`), dsp/onsets/DetectionFunction.cpp:94-162. -/
def Df.process (x : Df) (t : Option (List Nat)) : M Unit := do
  use x.self
  (match t with
  | some _ => do
    x.window.cut
    use x.windowed
  | none => pure ())
  x.pv.process t
  use x.magnitude
  use x.thetaAngle
  use x.unwrapped
  use x.magPeaks
  use x.magHistory
  use x.phaseHistory
  use x.phaseHistoryOld

/-- `delete` of a `DetectionFunction`, dsp/onsets/DetectionFunction.cpp:34-37, 77-92. -/
def Df.del (x : Df) : M Unit := do
  use x.self
  free x.magHistory
  free x.phaseHistory
  free x.phaseHistoryOld
  free x.magPeaks
  x.pv.del
  free x.magnitude
  free x.thetaAngle
  free x.windowed
  free x.unwrapped
  x.window.del
  free x.self

/-! ### Smoothing and peak picking -/

/-- A `DFProcess`, dsp/signalconditioning/DFProcess.h, with the order of its filter. -/
structure Dfp where
  n : Nat
  ord : Nat
  pre : Nat
  post : Nat
  self : Nat
  src : Nat
  dst : Nat
  scratchIn : Option Nat
  scratchOut : Option Nat
  filt : Nat

/-- `new DFProcess(config)`, dsp/signalconditioning/DFProcess.cpp:35-45, 52-74. -/
def Dfp.new (n ord pre post : Nat) : M Dfp := do
  let self ← malloc (so.obj .dfProcess)
  let src ← malloc (8 * n)
  let dst ← malloc (8 * n)
  let filt ← malloc (so.obj .filtFilt)
  pure ⟨n, ord, pre, post, self, src, dst, none, none, filt⟩

/-- `FiltFilt::process`, dsp/signalconditioning/FiltFilt.cpp:28-94, for the object at `p`. -/
def filtFilt (p ord length : Nat) : M Unit := do
  use p
  if length = 0 then pure ()
  else do
    let scratchIn ← malloc (8 * (length + 2 * (3 * ord)))
    let scratchOut ← malloc (8 * (length + 2 * (3 * ord)))
    use scratchIn
    use scratchOut
    free scratchIn
    free scratchOut

/-- `DFProcess::process` with `medianFilter`, dsp/signalconditioning/DFProcess.cpp:85-176. -/
def Dfp.process (x : Dfp) : M Unit := do
  use x.self
  if x.n = 0 then pure ()
  else do
    use x.src
    filtFilt x.filt x.ord x.n
    use x.dst
    let y ← malloc (8 * (x.post + x.pre + 1))
    let scratch ← malloc (8 * x.n)
    use y
    use scratch
    free y
    free scratch

/-- `delete` of a `DFProcess`, dsp/signalconditioning/DFProcess.cpp:47-50, 76-83. -/
def Dfp.del (x : Dfp) : M Unit := do
  use x.self
  free x.src
  free x.dst
  Heap.del x.scratchIn
  Heap.del x.scratchOut
  free x.filt
  free x.self

/-- A `PeakPicking`, dsp/onsets/PeakPicking.h. -/
structure Pp where
  self : Nat
  smoothing : Dfp
  work : Nat

/-- `new PeakPicking(config)`, dsp/onsets/PeakPicking.cpp:35-39, 46-67. -/
def Pp.new (n ord pre post : Nat) : M Pp := do
  let self ← malloc (so.obj .peakPicking)
  let smoothing ← Dfp.new so n ord pre post
  let work ← malloc (8 * n)
  pure ⟨self, smoothing, work⟩

/-- `PeakPicking::process`, dsp/onsets/PeakPicking.cpp:76-94. -/
def Pp.process (x : Pp) (len : Nat) : M Unit := do
  use x.self
  if len < 4 then pure ()
  else do
    x.smoothing.process
    use x.work

/-- `delete` of a `PeakPicking`, dsp/onsets/PeakPicking.cpp:41-44, 69-74. -/
def Pp.del (x : Pp) : M Unit := do
  use x.self
  free x.work
  x.smoothing.del
  free x.self

/-! ### Frames -/

/-- A `Framer`, dsp/signalconditioning/Framer.h; the object itself is part of another or a local variable. -/
structure Fr where
  n : Nat
  hop : Nat
  frame : Option Nat
  stride : Option Nat

/-- `Framer::Framer`, dsp/signalconditioning/Framer.cpp:20-31. -/
def Fr.new : Fr := ⟨0, 0, none, none⟩

/-- `Framer::configure`, dsp/signalconditioning/Framer.cpp:39-51. -/
def Fr.configure (x : Fr) (n hop : Nat) : M Fr := do
  Heap.del x.frame
  let frame ← malloc (8 * n)
  Heap.del x.stride
  let stride ← malloc (8 * hop)
  pure ⟨n, hop, some frame, some stride⟩

/-- `Framer::~Framer`, dsp/signalconditioning/Framer.cpp:33-37. -/
def Fr.del (x : Fr) : M Unit := do
  Heap.del x.frame
  Heap.del x.stride

/-! ### Tempo -/

/-- A `TempoTrack`, dsp/tempotracking/TempoTrack.h. -/
structure Tt where
  win : Nat
  lag : Nat
  self : Nat
  raw : Nat
  smooth : Nat
  acf : Nat
  scratch : Nat
  rcf : Nat
  framer : Fr
  df : Dfp
  rc : Dfp

/-- `new TempoTrack(params)`, dsp/tempotracking/TempoTrack.cpp:35-52, 59-98. -/
def Tt.new (win lag ord pre post : Nat) : M Tt := do
  let self ← malloc (so.obj .tempoTrack)
  let raw ← malloc (8 * win)
  let smooth ← malloc (8 * win)
  let acf ← malloc (8 * win)
  let scratch ← malloc (8 * lag)
  let rcf ← malloc (8 * lag)
  let framer ← Fr.new.configure win lag
  let df ← Dfp.new so win ord pre post
  let rc ← Dfp.new so lag ord pre post
  pure ⟨win, lag, self, raw, smooth, acf, scratch, rcf, framer, df, rc⟩

/-- `TempoTrack::tempoMM`, dsp/tempotracking/TempoTrack.cpp:132-397; `four` if the time signature is 4 or not known. -/
def Tt.tempoMM (x : Tt) (four : Bool) : M Unit := do
  use x.scratch
  use x.acf
  x.rc.process
  use x.rcf
  let peaks ← malloc (8 * (if four then 4 else 3))
  use peaks
  free peaks

/-- `TempoTrack::findMeter`, dsp/tempotracking/TempoTrack.cpp:425-485. -/
def Tt.findMeter (x : Tt) : M Unit := do
  let dbf ← malloc (8 * x.win)
  use dbf
  use x.acf

/-- What happens in one frame: whether there is a Gaussian weighting, whether the tempo is found to be constant, time signatures and the period. -/
structure TtFrame where
  weighted : Bool
  constant : Bool
  four : Bool
  period : Nat

/-- One frame, dsp/tempotracking/TempoTrack.cpp:676-769. -/
def Tt.frame (x : Tt) (PW : Nat) (f : TtFrame) : M Unit := do
  use x.raw
  x.df.process
  use x.smooth
  use x.acf
  x.tempoMM true
  (if f.weighted then x.tempoMM f.four else pure ())
  (if f.constant then do
    x.findMeter
    x.tempoMM f.four
  else pure ())
  let phaseScratch ← malloc (8 * (2 * f.period + 2))
  use phaseScratch
  use PW
  free phaseScratch
  let y ← malloc (8 * x.win)
  let align ← malloc (8 * f.period)
  use y
  use align
  use PW
  free y
  free align

/-- The frames one after the other. -/
def Tt.frames (x : Tt) (PW : Nat) : List TtFrame → M Unit
  | [] => pure ()
  | f :: fs => do
    x.frame PW f
    x.frames PW fs

/-- `TempoTrack::process`, dsp/tempotracking/TempoTrack.cpp:618-781. -/
def Tt.process (x : Tt) (fs : List TtFrame) : M Unit := do
  use x.self
  let RW ← malloc (8 * x.lag)
  let GW ← malloc (8 * x.lag)
  let PW ← malloc (8 * x.lag)
  let periodP ← malloc (8 * fs.length)
  let periodG ← malloc (8 * fs.length)
  let alignment ← malloc (8 * fs.length)
  use RW
  use GW
  x.frames PW fs
  use periodP
  use periodG
  use alignment
  free periodP
  free periodG
  free alignment
  free RW
  free GW
  free PW

/-- `delete` of a `TempoTrack`, dsp/tempotracking/TempoTrack.cpp:54-57, 100-109; the framer is a member. -/
def Tt.del (x : Tt) : M Unit := do
  use x.self
  free x.raw
  free x.smooth
  free x.rcf
  free x.acf
  free x.scratch
  x.df.del
  x.rc.del
  x.framer.del
  free x.self

/-! ### Cepstral coefficients -/

/-- An `MFCC`, dsp/mfcc/MFCC.h. -/
structure Mfcc where
  n : Nat
  nceps : Nat
  filters : Nat
  c0 : Bool
  self : Nat
  fft : FftReal
  ceps : Nat
  dct : Rows
  weights : Rows
  window : Win
  realOut : Nat
  imagOut : Nat
  earMag : Nat
  fftMag : Nat

/-- `new MFCC(config)`, dsp/mfcc/MFCC.cpp:24-166. -/
def Mfcc.new (n nceps filters : Nat) (c0 : Bool) : M (Option Mfcc) := do
  let self ← malloc (so.obj .mfcc)
  match ← FftReal.new so n with
  | none => do
    free self
    pure none
  | some fft => do
    let ceps ← malloc (8 * (if c0 then nceps + 1 else nceps))
    let dct ← allocRows (nceps + 1) (8 * filters)
    let weights ← allocRows filters (8 * n)
    let freqs ← malloc (8 * (filters + 2))
    let lower ← malloc (8 * filters)
    let center ← malloc (8 * filters)
    let upper ← malloc (8 * filters)
    let triangleHeight ← malloc (8 * filters)
    let fftFreqs ← malloc (8 * n)
    use freqs
    use lower
    use center
    use upper
    use triangleHeight
    use fftFreqs
    touchRows filters weights
    touchRows (nceps + 1) dct
    let window ← Win.new so n
    let realOut ← malloc (8 * n)
    let imagOut ← malloc (8 * n)
    let earMag ← malloc (8 * filters)
    let fftMag ← malloc (8 * (n / 2))
    free freqs
    free lower
    free center
    free upper
    free triangleHeight
    free fftFreqs
    pure (some ⟨n, nceps, filters, c0, self, fft, ceps, dct, weights, window, realOut, imagOut, earMag, fftMag⟩)

/-- `MFCC::process` for samples (`some tmps`) and for a spectrum (`none`), dsp/mfcc/MFCC.cpp:205-272. -/
def Mfcc.process (x : Mfcc) (t : Option (List Nat)) : M Unit := do
  use x.self
  (match t with
  | some tmps => do
    let inputData ← malloc (8 * x.n)
    use inputData
    x.window.cut
    x.fft.forward tmps
    use x.realOut
    use x.imagOut
    free inputData
  | none => pure ())
  use x.fftMag
  use x.earMag
  touchRows x.filters x.weights
  touchRows (x.nceps + 1) x.dct

/-- `delete` of an `MFCC`, dsp/mfcc/MFCC.cpp:168-197. -/
def Mfcc.del (x : Mfcc) : M Unit := do
  use x.self
  freeRows (x.nceps + 1) x.dct
  freeRows x.filters x.weights
  free x.ceps
  x.window.del
  free x.earMag
  free x.fftMag
  free x.realOut
  free x.imagOut
  x.fft.del
  free x.self

/-- `delete` of a pointer to an `MFCC` that may be null. -/
def delMfcc : Option Mfcc → M Unit
  | none => pure ()
  | some x => x.del

/-! ### Downbeats -/

/-- A `DownBeat`, dsp/tempotracking/DownBeat.h: factor, increment, size of a beat frame, number of elements of the buffer and of those in use. -/
structure Db where
  factor : Nat
  incr : Nat
  size : Nat
  bufsiz : Nat
  fill : Nat
  self : Nat
  dec1 : Option Dec
  dec2 : Option Dec
  buffer : Option Nat
  decbuf : Option Nat
  beatframe : Nat
  re : Nat
  im : Nat
  fft : FftReal

/-- `new DownBeat(rate, factor, increment)`, dsp/tempotracking/DownBeat.cpp:28-56. The beat frame has `size` samples, a power of two that is at least 2. -/
def Db.new (factor incr size : Nat) : M (Option Db) := do
  let self ← malloc (so.obj .downBeat)
  let beatframe ← malloc (8 * size)
  let re ← malloc (8 * size)
  let im ← malloc (8 * size)
  match ← FftReal.new so size with
  | none => do
    free self
    pure none
  | some fft => pure (some ⟨factor, incr, size, 0, 0, self, none, none, none, none, beatframe, re, im, fft⟩)

/-- `DownBeat::makeDecimators`, dsp/tempotracking/DownBeat.cpp:76-88; the highest supported factor is 8. -/
def Db.makeDecimators (x : Db) : M Db :=
  if x.factor < 2 then pure x
  else if x.factor ≤ 8 then do
    let d ← Dec.new so x.incr
    pure { x with dec1 := some d }
  else do
    let d ← Dec.new so x.incr
    let e ← Dec.new so (x.incr / 8)
    let b ← malloc (4 * (x.incr / 8))
    pure { x with dec1 := some d, dec2 := some e, decbuf := some b }

/-- `malloc` or `realloc` of the buffer, dsp/tempotracking/DownBeat.cpp:93-101. -/
def Db.grow (x : Db) : M Db :=
  if x.bufsiz < x.fill + x.incr / x.factor then do
    let n := if x.bufsiz = 0 then x.incr * 16 else x.bufsiz * 2
    let b ← malloc (4 * n)
    Heap.del x.buffer
    pure { x with bufsiz := n, buffer := some b }
  else pure x

/-- The decimators are made when they are needed for the first time, dsp/tempotracking/DownBeat.cpp:102. -/
def Db.ready (x : Db) : M Db := if x.dec1.isNone ∧ 1 < x.factor then x.makeDecimators so else pure x

/-- The decimators work, dsp/tempotracking/DownBeat.cpp:103-110. -/
def Db.decimate (x : Db) : M Unit := match x.dec2, x.dec1 with
  | some e, some d => do
    d.process
    deref x.decbuf
    e.process
  | some _, none => undef
  | none, some d => d.process
  | none, none => pure ()

/-- The samples are written, dsp/tempotracking/DownBeat.cpp:105-116; there is no access if there are none. -/
def Db.store (x : Db) : M Unit := if x.incr / x.factor = 0 then pure () else deref x.buffer

/-- `DownBeat::pushAudioBlock`, dsp/tempotracking/DownBeat.cpp:90-117. A division by zero is undefined. -/
def Db.push (x : Db) : M Db := do
  use x.self
  if x.factor = 0 then undef
  else do
    let x ← x.grow
    let x ← x.ready so
    x.decimate
    x.store
    pure { x with fill := x.fill + x.incr / x.factor }

/-- Methods of `DownBeat`. -/
inductive DbOp
  | push
  | reset
  | find (tmps : List Nat)

/-- `DownBeat::pushAudioBlock`, `resetAudioBuffer` and `findDownBeats`, dsp/tempotracking/DownBeat.cpp:90-248. -/
def Db.step : DbOp → Db → M Db
  | .push, x => x.push so
  | .reset, x => do
    use x.self
    Heap.del x.buffer
    pure { x with buffer := none, fill := 0, bufsiz := 0 }
  | .find tmps, x => do
    use x.self
    use x.beatframe
    x.fft.forward tmps
    use x.re
    use x.im
    pure x

/-- `delete` of a `DownBeat`, dsp/tempotracking/DownBeat.cpp:58-68. -/
def Db.del (x : Db) : M Unit := do
  use x.self
  delDec x.dec1
  delDec x.dec2
  Heap.del x.buffer
  Heap.del x.decbuf
  free x.beatframe
  free x.re
  free x.im
  x.fft.del
  free x.self

/-! ### Keys -/

/-- A `GetKeyMode`, dsp/keydetection/GetKeyMode.h. -/
structure Key where
  N : Nat
  dec : Nat
  cbs : Nat
  mws : Nat
  self : Nat
  chroma : Chroma
  decimated : Nat
  chromaBuffer : Nat
  meanHpcp : Nat
  majCorr : Nat
  minCorr : Nat
  majNorm : Nat
  minNorm : Nat
  median : Nat
  sorted : Nat
  decimator : Dec
  strengths : Nat

/-- `new GetKeyMode(config)`, dsp/keydetection/GetKeyMode.cpp:52-142: chroma frames of `N` samples and `K` bins, decimation by `dec`, `cbs` chroma vectors and `mws` keys in the buffers. -/
def Key.new (K N dec cbs mws : Nat) : M (Option Key) := do
  let self ← malloc (so.obj .getKeyMode)
  match ← Chroma.new so 36 K N with
  | none => do
    free self
    pure none
  | some chroma => do
    let decimated ← malloc (8 * N)
    let chromaBuffer ← malloc (8 * (36 * cbs))
    let meanHpcp ← malloc (8 * 36)
    let majCorr ← malloc (8 * 36)
    let minCorr ← malloc (8 * 36)
    let majNorm ← malloc (8 * 36)
    let minNorm ← malloc (8 * 36)
    let median ← malloc (4 * mws)
    let sorted ← malloc (4 * mws)
    let decimator ← Dec.new so (N * dec)
    let strengths ← malloc (8 * 24)
    pure (some ⟨N, dec, cbs, mws, self, chroma, decimated, chromaBuffer, meanHpcp, majCorr, minCorr, majNorm, minNorm, median, sorted, decimator, strengths⟩)

/-- `GetKeyMode::process`, dsp/keydetection/GetKeyMode.cpp:192-310. -/
def Key.process (x : Key) (w : Nat → Nat) (tmps : List Nat) : M Key := do
  use x.self
  x.decimator.process
  use x.decimated
  let c ← x.chroma.processTime so w tmps
  use c.chroma
  use x.chromaBuffer
  use x.meanHpcp
  use x.majCorr
  use x.minCorr
  use x.majNorm
  use x.minNorm
  use x.median
  use x.sorted
  use x.strengths
  pure { x with chroma := c }

/-- `delete` of a `GetKeyMode`, dsp/keydetection/GetKeyMode.cpp:144-159. -/
def Key.del (x : Key) : M Unit := do
  use x.self
  x.chroma.del
  x.decimator.del
  free x.decimated
  free x.chromaBuffer
  free x.meanHpcp
  free x.majCorr
  free x.minCorr
  free x.majNorm
  free x.minNorm
  free x.median
  free x.sorted
  free x.strengths
  free x.self

end QM.Heap
