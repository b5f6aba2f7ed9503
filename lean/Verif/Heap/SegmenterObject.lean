import Verif.Heap.Objects
import Verif.Heap.SegmenterProps

/-!
# Memory of the structural segmenter, `ClusterMeltSegmenter`

The same conventions as in `Verif.Heap.Objects`. Of the features, which are vectors, only their number and lengths are kept.
-/

namespace QM.Heap

variable (so : Sizes)

/-- `feature_types`, dsp/segmentation/segment.h:38-44. -/
inductive FType
  | unknown | constq | chroma | mfcc
deriving DecidableEq

/-- Parameters of a segmenter, dsp/segmentation/ClusterMeltSegmenter.h:27-56. -/
structure SegArgs where
  type : FType
  hist : Nat
  states : Nat
  bins : Nat

/-- A `ClusterMeltSegmenter`, dsp/segmentation/ClusterMeltSegmenter.h:58-108. -/
structure Seg where
  args : SegArgs
  type : FType
  ncoeff : Nat
  feats : List Nat
  self : Nat
  window : Option Win
  fft : Option FftReal
  constq : Option Cq
  mfcc : Option Mfcc
  decimator : Option Dec

/-- `new ClusterMeltSegmenter(params)`, dsp/segmentation/ClusterMeltSegmenter.cpp:30-48. -/
def Seg.new (a : SegArgs) : M Seg := do
  let self ← malloc (so.obj .segmenter)
  pure ⟨a, a.type, 0, [], self, none, none, none, none, none⟩

/-- What `initialise` needs to know: the window length if there is a decimator, i.e. if the factor is above 1, the number of constant-Q bins and half the length of the transform, which is a power of
two; the window lengths for the kernel. -/
structure InitArgs where
  dec : Option Nat
  K : Nat
  half : Nat
  w : Nat → Nat
  tmps : List Nat

/-- A new decimator, if there is to be one; the pointer to the old one is overwritten, dsp/segmentation/ClusterMeltSegmenter.cpp:69-71 and 101-103. -/
def Seg.initDec (x : Seg) : Option Nat → M Seg
  | none => pure x
  | some n => do
    let d ← Dec.new so n
    pure { x with decimator := some d }

/-- `initialise` for constant-Q and chroma features, dsp/segmentation/ClusterMeltSegmenter.cpp:54-86. If the constructor of the transform throws, the pointer to it stays as it is. -/
def Seg.initConstQ (x : Seg) (a : InitArgs) : M Seg := do
  let x ← x.initDec so a.dec
  let cq ← Cq.new so a.K (2 * a.half)
  let cq ← cq.sparsekernel so a.w a.tmps
  match ← FftReal.new so (2 * a.half) with
  | none => pure { x with constq := some cq, ncoeff := a.K }
  | some f => pure { x with constq := some cq, ncoeff := a.K, fft := some f }

/-- `initialise` for cepstral coefficients, dsp/segmentation/ClusterMeltSegmenter.cpp:88-112: transforms of 2048 samples, 19 coefficients and the zeroth, 40 filters. -/
def Seg.initMfcc (x : Seg) (a : InitArgs) : M Seg := do
  let x ← x.initDec so a.dec
  match ← Mfcc.new so 2048 19 40 true with
  | none => pure x
  | some m => pure { x with mfcc := some m, ncoeff := 20 }

/-- `ClusterMeltSegmenter::initialise`, dsp/segmentation/ClusterMeltSegmenter.cpp:50-113. -/
def Seg.initialise (x : Seg) (a : InitArgs) : M Seg := do
  use x.self
  match x.type with
  | .unknown => pure x
  | .constq => x.initConstQ so a
  | .chroma => x.initConstQ so a
  | .mfcc => x.initMfcc so a

/-- What `extractFeatures` needs to know: whether there are at least as many samples as the window has, the number of samples after decimation, the number of frames. -/
structure ExtractArgs where
  enough : Bool
  pcount : Nat
  frames : Nat
  tmps : List Nat

/-- The window, made anew if the one that is there has another size, dsp/segmentation/ClusterMeltSegmenter.cpp:161-164. -/
def Seg.window! (x : Seg) (n : Nat) : M Seg := do
  match x.window with
  | none => do
    let w ← Win.new so n
    pure { x with window := some w }
  | some v =>
    if v.n = n then pure x
    else do
      v.del
      let w ← Win.new so n
      pure { x with window := some w }

/-- The decimated samples, if there is a decimator, dsp/segmentation/ClusterMeltSegmenter.cpp:173-178 and 264-269. -/
def decout (d : Option Dec) (pcount : Nat) : M (Option Nat) := match d with
  | none => pure none
  | some d => do
    let p ← malloc (8 * pcount)
    d.process
    use p
    pure (some p)

/-- Accesses through pointers to objects: undefined if they are null. -/
def forwardFft : Option FftReal → List Nat → M Unit
  | none, _ => undef
  | some f, tmps => f.forward tmps

/-- `ClusterMeltSegmenter::extractFeaturesConstQ`, dsp/segmentation/ClusterMeltSegmenter.cpp:145-239. -/
def Seg.extractConstQ (x : Seg) (a : ExtractArgs) : M Seg := do
  match x.constq with
  | none => pure x
  | some cq =>
    if a.enough then do
      let x ← x.window! so cq.N
      let out ← decout x.decimator a.pcount
      let frame ← malloc (8 * cq.N)
      let real ← malloc (8 * cq.N)
      let imag ← malloc (8 * cq.N)
      let cqre ← malloc (8 * x.ncoeff)
      let cqim ← malloc (8 * x.ncoeff)
      each a.frames fun _ => do
        use frame
        cutWin x.window
        forwardFft x.fft a.tmps
        use real
        use imag
        cq.process
        use cqre
        use cqim
      free cqre
      free cqim
      free real
      free imag
      free frame
      Heap.del out
      pure { x with feats := x.feats ++ [x.ncoeff] }
    else pure x

/-- `ClusterMeltSegmenter::extractFeaturesMFCC`, dsp/segmentation/ClusterMeltSegmenter.cpp:241-311. -/
def Seg.extractMfcc (x : Seg) (a : ExtractArgs) : M Seg := do
  match x.mfcc with
  | none => pure x
  | some m =>
    if a.enough then do
      let out ← decout x.decimator a.pcount
      let frame ← malloc (8 * m.n)
      let ccout ← malloc (8 * x.ncoeff)
      each a.frames fun _ => do
        use frame
        m.process (some a.tmps)
        use ccout
      free ccout
      free frame
      Heap.del out
      pure { x with feats := x.feats ++ [x.ncoeff] }
    else pure x

/-- `ClusterMeltSegmenter::extractFeatures`, dsp/segmentation/ClusterMeltSegmenter.cpp:135-143. -/
def Seg.extract (x : Seg) (a : ExtractArgs) : M Seg := do
  use x.self
  match x.type with
  | .unknown => pure x
  | .constq => x.extractConstQ so a
  | .chroma => x.extractConstQ so a
  | .mfcc => x.extractMfcc a

/-- What `segment` needs to know: the number of clusters and the passes of the training. -/
structure SegmentArgs where
  k : Nat
  oks : List Bool

/-- The call that `segment` makes, dsp/segmentation/ClusterMeltSegmenter.cpp:359-366, for features of these lengths; the length of the first is read. -/
def segCall (a : SegArgs) (type : FType) (ncoeff : Nat) (feats : List Nat) (s : SegmentArgs) : Option Call := match feats, type with
  | [], .unknown => none
  | [], .mfcc => none
  | f :: fs, .unknown => some (.cluster (fs.length + 1) f a.states s.k s.oks)
  | f :: fs, .mfcc => some (.cluster (fs.length + 1) f a.states s.k s.oks)
  | fs, .constq => some (.constq .constq fs.length a.bins ncoeff a.states s.k s.oks)
  | fs, .chroma => some (.constq .chroma fs.length a.bins ncoeff a.states s.k s.oks)

/-- Length of the rows of `arrFeatures`, dsp/segmentation/ClusterMeltSegmenter.cpp:342-355. -/
def rowLen (type : FType) (ncoeff : Nat) (feats : List Nat) : Nat := match type with
  | .unknown => feats.headD 0
  | _ => ncoeff + 1

/-- `delete` of a pointer to a `ConstantQ` or an `FFTReal` that may be null. -/
def delCq : Option Cq → M Unit
  | none => pure ()
  | some x => x.del
def delFft : Option FftReal → M Unit
  | none => pure ()
  | some x => x.del

/-- The features are copied, the call is made, and the copies are released, dsp/segmentation/ClusterMeltSegmenter.cpp:342-374. -/
def Seg.cluster (x : Seg) (nb : Nat) (s : SegmentArgs) : M Unit := do
  let arr ← allocRows x.feats.length (8 * rowLen x.type x.ncoeff x.feats)
  touchRows x.feats.length arr
  let q ← malloc (4 * x.feats.length)
  match segCall x.args x.type x.ncoeff x.feats s with
  | none => undef
  | some c => do
    c.run nb
    use q
    free q
    freeRows x.feats.length arr

/-- `ClusterMeltSegmenter::segment`, dsp/segmentation/ClusterMeltSegmenter.cpp:325-378. -/
def Seg.segment (x : Seg) (nb : Nat) (s : SegmentArgs) : M Seg := do
  use x.self
  delCq x.constq
  delMfcc x.mfcc
  delDec x.decimator
  if x.feats.length < x.args.hist then pure { x with constq := none, mfcc := none, decimator := none }
  else do
    x.cluster nb s
    pure { x with constq := none, mfcc := none, decimator := none, feats := [] }

/-- Methods of `ClusterMeltSegmenter`. -/
inductive SegOp
  | initialise (a : InitArgs)
  | extract (a : ExtractArgs)
  | setFeatures (f : List Nat)
  | clear
  | segment (s : SegmentArgs)

/-- The methods; `setFeatures` and `clear`, dsp/segmentation/ClusterMeltSegmenter.cpp:319-323 and dsp/segmentation/Segmenter.h:52, change no memory of their own. -/
def Seg.step (nb : Nat) : SegOp → Seg → M Seg
  | .initialise a, x => x.initialise so a
  | .extract a, x => x.extract so a
  | .setFeatures f, x => do
    use x.self
    pure { x with feats := f, type := .unknown }
  | .clear, x => do
    use x.self
    pure { x with feats := [] }
  | .segment s, x => x.segment nb s

/-- `delete` of a `ClusterMeltSegmenter`, dsp/segmentation/ClusterMeltSegmenter.cpp:115-121; the `MFCC` object is not mentioned. -/
def Seg.del (x : Seg) : M Unit := do
  use x.self
  delWin x.window
  delCq x.constq
  delDec x.decimator
  delFft x.fft
  free x.self

/-- `ClusterMeltSegmenter` as a class. -/
def segClass (nb : Nat) : Class SegArgs Seg SegOp := ⟨fun a => do let x ← Seg.new so a; pure (some x), Seg.step so nb, Seg.del⟩

end QM.Heap
