import Verif.Segment.Pipeline
import Verif.ConstantQ.Model
import Verif.Mfcc.Model
import Verif.Decimator.Model
import Verif.Pitch.Model

/-!
# From audio to feature vectors: `ClusterMeltSegmenter::initialise` and `extractFeatures`

Doubles are real numbers. The arrays that the code allocates come as arguments, with arbitrary contents, except the one for the
decimated signal: reading a place of that one that was never written is `none`, like accesses outside the arrays.
-/

namespace QM.Segment

/-- `ClusterMeltSegmenterParams`, dsp/segmentation/ClusterMeltSegmenter.h:31-58. The number of principal components is not used. -/
structure Params where
  ftype : FeatureType
  hopSize : ℝ
  windowSize : ℝ
  fmin : Int
  fmax : Int
  nbins : Nat
  states : Nat
  nclusters : Nat
  hlen : Nat
  limit : Int

/-- A `ConstantQ` object with its kernel. -/
structure ConstQ where
  N : Nat
  uK : Nat
  cells : List (ConstantQ.Cell ℝ)

/-- The objects that turn frames into features: for constant-Q and chroma features, or for cepstra. The feature type of an object never changes from one
to the other, so there are never both. The window is that of `window`, if it has been made; a window of a previous initialisation is made again if the
length differs and otherwise is the same as a new one, so it is not kept here. -/
inductive Engine where
  | constq (c : ConstQ) (fft : FFT.RD) (window : Option (List ℝ))
  | mfcc (m : Mfcc.MFCC)

/-- What is deleted by `segment()`. -/
structure Analysis where
  engine : Engine
  decimator : Option (Decimator.State ℝ)

/-- Constructor, dsp/segmentation/ClusterMeltSegmenter.cpp:30-48. `rate` and `ncoeff` are what the members `samplerate` and `ncoeff`, which are not
initialised, hold, `hop` is what `getHopsize()` makes of it. -/
def create (p : Params) (rate hop : Int) (ncoeff nsegtypes : Nat) (segrate : Int) : Segmenter Analysis :=
  { analysis := none, features := [], ftype := p.ftype, nbins := p.nbins, ncoeff := ncoeff, states := p.states, nclusters := p.nclusters,
    hlen := p.hlen, limit := p.limit, samplerate := rate, hop := hop, segments := [], nsegtypes := nsegtypes, segrate := segrate }

/-- `static_cast<int>(secs * samplerate + 0.001)` in `getWindowsize` and `getHopsize`, dsp/segmentation/ClusterMeltSegmenter.cpp:123-133. -/
noncomputable def samplesIn (secs : ℝ) (fs : Int) : Int := Pitch.trunc (secs * fs + 0.001)

/-- `getWindowsize`, dsp/segmentation/ClusterMeltSegmenter.cpp:123-127. A negative size, or one that is no `int`, is `none`. -/
noncomputable def windowSize (p : Params) (fs : Int) : Option Nat :=
  if 0 ≤ samplesIn p.windowSize fs ∧ samplesIn p.windowSize fs ≤ 2147483647 then some (samplesIn p.windowSize fs).toNat else none

/-- dsp/segmentation/ClusterMeltSegmenter.cpp:69-71 and 101-103. A decimator that is there stays when none is made. -/
noncomputable def mkDecimator (p : Params) (fs : Int) (f : Nat) (old : Option Analysis) : Option (Option (Decimator.State ℝ)) :=
  if f > 1 then do
    let L ← windowSize p fs
    let d ← Decimator.new L f
    pure (some d)
  else some (old.bind Analysis.decimator)

/-- The contents of the memory that `sparsekernel` and the FFT objects allocate. -/
structure IWork where
  wRe : List ℝ
  wIm : List ℝ
  tRe : List ℝ
  tIm : List ℝ
  k1 : ℂ
  k2 : ℂ
  u : ℂ

/-- dsp/segmentation/ClusterMeltSegmenter.cpp:54-86. -/
noncomputable def initialiseConstQ (p : Params) (fs : Int) (w : IWork) (s : Segmenter Analysis) : Option (Segmenter Analysis) := do
  let f ← decimationFactor (fs.toNat + 2) 11025 fs
  let dec ← mkDecimator p fs f s.analysis
  let c ← ConstantQ.initialise (fs.tdiv f : Int) p.fmin p.fmax p.nbins
  let cells ← ConstantQ.sparsekernel c.2.2 c.2.1 c.1 (fs.tdiv f : Int) p.fmin 0.0054 p.nbins w.wRe w.wIm w.tRe w.tIm w.k1 w.k2
  let fft ← FFT.RD.make c.2.2 w.u
  pure { s with analysis := some ⟨.constq ⟨c.2.2, c.2.1, cells⟩ fft none, dec⟩, ncoeff := c.2.1, samplerate := fs, hop := samplesIn p.hopSize fs }

/-- The configuration of the cepstra, dsp/segmentation/ClusterMeltSegmenter.cpp:105-108 and dsp/mfcc/MFCC.h:29-31. -/
def mfccConfig (rate : Int) : Mfcc.Config := ⟨rate, 2048, 19, none, true, .hamming⟩

/-- dsp/segmentation/ClusterMeltSegmenter.cpp:87-112. -/
noncomputable def initialiseMfcc (p : Params) (fs : Int) (w : IWork) (s : Segmenter Analysis) : Option (Segmenter Analysis) := do
  let f ← decimationFactor (fs.toNat + 2) 22050 fs
  let dec ← mkDecimator p fs f s.analysis
  let m ← Mfcc.MFCC.make (mfccConfig (fs.tdiv f)) w.u
  pure { s with analysis := some ⟨.mfcc m, dec⟩, ncoeff := 19 + 1, samplerate := fs, hop := samplesIn p.hopSize fs }

/-- `initialise`, dsp/segmentation/ClusterMeltSegmenter.cpp:50-113. -/
noncomputable def initialise (p : Params) (fs : Int) (w : IWork) (s : Segmenter Analysis) : Option (Segmenter Analysis) :=
  match s.ftype with
  | .constq => initialiseConstQ p fs w s
  | .chroma => initialiseConstQ p fs w s
  | .mfcc => initialiseMfcc p fs w s
  | .unknown => some { s with samplerate := fs, hop := samplesIn p.hopSize fs }

/-- The signal that is cut into frames, dsp/segmentation/ClusterMeltSegmenter.cpp:170-178 and 261-269: the decimator afterwards, `pcount`, and the
samples, `none` where `decout` was not written. `nsamples` is the length of `samples`. -/
noncomputable def source (dec : Option (Decimator.State ℝ)) (samples : List ℝ) : Option (Option (Decimator.State ℝ) × Nat × List (Option ℝ)) :=
  match dec with
  | none => some (none, samples.length, samples.map some)
  | some d =>
    if d.decFactor = 0 ∨ samples.length / d.decFactor < d.outputLength then none
    else do
      let r ← Decimator.process d samples (List.replicate d.outputLength 0)
      pure (some r.1, samples.length / d.decFactor, r.2.map some ++ List.replicate (samples.length / d.decFactor - d.outputLength) none)

/-- dsp/segmentation/ClusterMeltSegmenter.cpp:198-204 and 283-289. -/
noncomputable def fillFrame (n origin pcount : Nat) (src : List (Option ℝ)) (frame : List ℝ) : Option (List ℝ) :=
  loop n (fun i (frame : List ℝ) =>
    if origin + i < pcount then do
      let v ← src[origin + i]?
      let v ← v
      wr frame i v
    else wr frame i 0) frame

/-- The loop over frames of length `n`, dsp/segmentation/ClusterMeltSegmenter.cpp:192-224 and 277-299, given what is done for a frame. The result is the
state and the number of frames. `none`: it does not end within the given number of rounds. -/
def frames {σ : Type} (n pcount : Nat) (step : Nat → Nat → σ → Option σ) : Nat → Nat → Nat → σ → Option (σ × Nat)
  | 0, _, _, _ => none
  | fuel + 1, origin, count, s =>
    if pcount < origin then some (s, count)
    else if 0 < origin ∧ pcount ≤ origin + n then some (s, count)
    else do
      let s ← step count origin s
      frames n pcount step fuel (origin + n / 2) (count + 1) s

/-- The division by the number of frames, dsp/segmentation/ClusterMeltSegmenter.cpp:232-234 and 304-306. -/
noncomputable def divideBy (ncoeff count : Nat) (v : List ℝ) : Option (List ℝ) :=
  if count = 0 then none
  else loop ncoeff (fun i (v : List ℝ) => do
    let x ← v[i]?
    wr v i (x / count)) v

/-- The arrays of `extractFeaturesConstQ`. -/
structure QWork where
  frame : List ℝ
  real : List ℝ
  imag : List ℝ
  cqre : List ℝ
  cqim : List ℝ

/-- What the loop over the frames changes: the FFT object, the arrays and the sum. -/
structure QState where
  fft : FFT.RD
  work : QWork
  cq : List ℝ

/-- The spectrum of a frame, dsp/segmentation/ClusterMeltSegmenter.cpp:206-214; the exchange of the halves is the same code as in
`ConstantQ::sparsekernel`. -/
noncomputable def frameSpectrum (N : Nat) (win : List ℝ) (fft : FFT.RD) (frame real imag : List ℝ) : Option (List ℝ × FFT.RD × List ℝ × List ℝ) := do
  let frame ← ConstantQ.shift N frame
  let frame ← Window.cutInPlace N win frame
  let r ← fft.forward frame real imag
  pure (frame, r)

/-- dsp/segmentation/ClusterMeltSegmenter.cpp:218-220. -/
noncomputable def addMagnitudes (ncoeff : Nat) (cqre cqim cq : List ℝ) : Option (List ℝ) :=
  loop ncoeff (fun i (cq : List ℝ) => do
    let v ← cq[i]?
    let a ← cqre[i]?
    let b ← cqim[i]?
    wr cq i (v + Real.sqrt (a * a + b * b))) cq

/-- A frame, dsp/segmentation/ClusterMeltSegmenter.cpp:198-220. -/
noncomputable def cqStep (c : ConstQ) (ncoeff : Nat) (win : List ℝ) (pcount : Nat) (src : List (Option ℝ)) (origin : Nat) (s : QState) : Option QState := do
  let frame ← fillFrame c.N origin pcount src s.work.frame
  let r ← frameSpectrum c.N win s.fft frame s.work.real s.work.imag
  let q ← ConstantQ.processSplit c.N c.uK (some c.cells) r.2.2.1 r.2.2.2 (s.work.cqre, s.work.cqim)
  let cq ← addMagnitudes ncoeff q.1 q.2 s.cq
  pure ⟨r.2.1, ⟨r.1, r.2.2.1, r.2.2.2, q.1, q.2⟩, cq⟩

/-- The window, dsp/segmentation/ClusterMeltSegmenter.cpp:161-164. -/
noncomputable def mkWindow (N : Nat) (win : Option (List ℝ)) : Option (List ℝ) :=
  match win with
  | some w => some w
  | none => Window.encache .hamming N

/-- `extractFeaturesConstQ` once the number of samples has been checked, dsp/segmentation/ClusterMeltSegmenter.cpp:159-238. -/
noncomputable def extractConstQ (w : QWork) (samples : List ℝ) (c : ConstQ) (fft : FFT.RD) (win : Option (List ℝ)) (dec : Option (Decimator.State ℝ))
    (s : Segmenter Analysis) : Option (Segmenter Analysis) := do
  let win ← mkWindow c.N win
  let src ← source dec samples
  let r ← frames c.N src.2.1 (fun _ => cqStep c s.ncoeff win src.2.1 src.2.2) (src.2.1 + 2) 0 0 ⟨fft, w, List.replicate s.ncoeff 0⟩
  let cq ← divideBy s.ncoeff r.2 r.1.cq
  pure { s with analysis := some ⟨.constq c r.1.fft (some win), src.1⟩, features := s.features ++ [cq] }

/-- The arrays of `extractFeaturesMFCC`; `junk` is what the array that `MFCC::process` allocates holds, for each frame. -/
structure MWork where
  frame : List ℝ
  ccout : List ℝ
  junk : Nat → List ℝ

/-- What the loop over the frames changes: the object, the arrays and the sum. -/
structure MState where
  m : Mfcc.MFCC
  frame : List ℝ
  ccout : List ℝ
  cc : List ℝ

/-- dsp/segmentation/ClusterMeltSegmenter.cpp:293-295. -/
noncomputable def addCepstra (ncoeff : Nat) (ccout cc : List ℝ) : Option (List ℝ) :=
  loop ncoeff (fun i (cc : List ℝ) => do
    let v ← cc[i]?
    let a ← ccout[i]?
    wr cc i (v + a)) cc

/-- A frame, dsp/segmentation/ClusterMeltSegmenter.cpp:283-295. -/
noncomputable def mfStep (ncoeff : Nat) (junk : Nat → List ℝ) (pcount : Nat) (src : List (Option ℝ)) (count origin : Nat) (s : MState) : Option MState := do
  let frame ← fillFrame s.m.fftSize origin pcount src s.frame
  let r ← s.m.process frame (junk count) s.ccout
  let cc ← addCepstra ncoeff r.2.1 s.cc
  pure ⟨r.1, frame, r.2.1, cc⟩

/-- `extractFeaturesMFCC` once the number of samples has been checked, dsp/segmentation/ClusterMeltSegmenter.cpp:255-310. -/
noncomputable def extractMfcc (w : MWork) (samples : List ℝ) (m : Mfcc.MFCC) (dec : Option (Decimator.State ℝ)) (s : Segmenter Analysis) :
    Option (Segmenter Analysis) := do
  let src ← source dec samples
  let r ← frames m.fftSize src.2.1 (mfStep s.ncoeff w.junk src.2.1 src.2.2) (src.2.1 + 2) 0 0 ⟨m, w.frame, w.ccout, List.replicate s.ncoeff 0⟩
  let cc ← divideBy s.ncoeff r.2 r.1.cc
  pure { s with analysis := some ⟨.mfcc r.1.m, src.1⟩, features := s.features ++ [cc] }

/-- `extractFeatures`, dsp/segmentation/ClusterMeltSegmenter.cpp:135-143, with the checks of lines 147-157 and 243-253. -/
noncomputable def extractFeatures (p : Params) (qw : QWork) (mw : MWork) (samples : List ℝ) (s : Segmenter Analysis) : Option (Segmenter Analysis) :=
  if s.ftype = .unknown then some s
  else match s.analysis with
    | none => some s
    | some a => do
      let L ← windowSize p s.samplerate
      if samples.length < L then some s
      else match a.engine with
        | .constq c fft win => extractConstQ qw samples c fft win a.decimator s
        | .mfcc m => extractMfcc mw samples m a.decimator s

end QM.Segment
