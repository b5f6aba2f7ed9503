import Verif.Segment.Mpeg7
import Verif.Segment.Model
import Verif.Segment.MeltProps
import Verif.Hmm.Init

/-!
# From feature vectors to segments: `cluster_segment`, `constq_segment` and `ClusterMeltSegmenter::segment`

Arrays that the code allocates come as arguments, with arbitrary contents. `none` is an access outside an array or an operation without a
result. The random numbers and `invert` (LAPACK) are parameters.
-/

namespace QM.Segment

/-- What `rand()` gives: for the means, the initial and the transition probabilities (hmm/hmm.c) and for `cluster_melt`. -/
structure Rand where
  mean : Nat → Nat → ℝ
  init : Nat → ℝ
  trans : Nat → Nat → ℝ
  cluster : Nat → Nat → Int

/-- The arrays allocated below `cluster_segment`, and the three variables of `hmm_train` that are not initialised. -/
structure CWork where
  p0 : List ℝ
  a : List (List ℝ)
  mu : List (List ℝ)
  cov : List (List ℝ)
  gm : List ℝ
  train : Nat → Hmm.Work
  l : ℝ
  l1 : ℝ
  l2 : ℝ
  vit : Hmm.VWork
  h : List ℝ
  bsched : List ℝ
  melt : Melt ℝ

/-- The scaling of the features, dsp/segmentation/cluster_segmenter.c:150-153. -/
noncomputable def scaleFeatures (T L : Nat) (x : List (List ℝ)) : Option (List (List ℝ)) :=
  loop T (fun i (x : List (List ℝ)) => loop L (fun j (x : List (List ℝ)) => do
    let v ← rd2 x i j
    wr2 x i j (v * 10)) x) x

/-- The inverse temperatures, dsp/segmentation/cluster_segmenter.c:183-190. -/
noncomputable def schedule (b : List ℝ) : Option (List ℝ) := do
  let b ← wr b 0 100
  loop 19 (fun i (b : List ℝ) => do
    let v ← b[i]?
    wr b (i + 1) (7 / 10 * v)) b

/-- `cluster_segment`, dsp/segmentation/cluster_segmenter.c:119-197: `T` rows of `L` features, `N` states, `k` clusters. `q` is the
array of labels, of states first and then of clusters. -/
noncomputable def clusterSegment (inv : List (List ℝ) → List (List ℝ) × ℝ) (rnd : Rand) (q : List Nat) (x : List (List ℝ))
    (T L N hlen k : Nat) (limit : Int) (w : CWork) : Option (List Int) := do
  let x ← scaleFeatures T L x
  let m ← Hmm.hmmInit N T L x rnd.mean rnd.init rnd.trans w.p0 w.a w.mu w.cov w.gm
  let m ← Hmm.hmmTrain inv N T L x w.train w.l w.l1 w.l2 m
  let q ← Hmm.viterbiDecode inv N T L x m w.vit q
  let h ← createHistograms (q.map Int.ofNat) N hlen w.h
  let b ← schedule w.bsched
  let r ← clusterMelt realArith h N T b 20 k limit rnd.cluster ⟨w.melt.cl, w.melt.nc, w.melt.lp, w.melt.oldc, q.map Int.ofNat⟩
  pure r.1

/-- `feature_types`, dsp/segmentation/segment.h. -/
inductive FeatureType where
  | unknown
  | constq
  | chroma
  | mfcc
deriving DecidableEq

/-- The first `L` places of every row: what a function that is told there are `L` columns may use. -/
def narrow {β : Type} (L : Nat) (x : List (List β)) : List (List β) := x.map (List.take L)

/-- `cq2chroma` for all frames, dsp/segmentation/cluster_segmenter.c:20-39. -/
noncomputable def chromaAll (T ncoeff bins : Nat) (x chroma : List (List ℝ)) : Option (List (List ℝ)) :=
  loop T (fun t (c : List (List ℝ)) => do
    let r ← x[t]?
    let row ← c[t]?
    let row ← cq2chroma r ncoeff bins row
    wr c t row) chroma

/-- The envelope after the components, dsp/segmentation/cluster_segmenter.c:217-219. -/
def moveEnvelope (T ncoeff : Nat) (x : List (List ℝ)) : Option (List (List ℝ)) :=
  loop T (fun i (x : List (List ℝ)) => do
    let v ← rd2 x i ncoeff
    wr2 x i 20 v) x

/-- `constq_segment`, dsp/segmentation/cluster_segmenter.c:200-247. `pca` is `pca_project` with 20 components. For other
types nothing is done. -/
noncomputable def constqSegment (inv : List (List ℝ) → List (List ℝ) × ℝ) (pca : List (List ℝ) → Nat → Nat → Option (List (List ℝ))) (rnd : Rand)
    (q : List Nat) (x : List (List ℝ)) (T bins ncoeff : Nat) (ty : FeatureType) (N hlen k : Nat) (limit : Int) (chroma : List (List ℝ)) (w : CWork) :
    Option (List Int) :=
  match ty with
  | .constq => do
    let x ← mpeg7 x T ncoeff
    let x ← pca x T ncoeff
    let x ← moveEnvelope T ncoeff x
    clusterSegment inv rnd q (narrow 21 x) T 21 N hlen k limit w
  | .chroma => do
    let c ← chromaAll T ncoeff bins x chroma
    clusterSegment inv rnd q c T bins N hlen k limit w
  | _ => some (q.map Int.ofNat)

/-- What a `ClusterMeltSegmenter` consists of. `analysis` stands for the constant-Q, cepstrum and decimator objects, `none`
when they are absent. -/
structure Segmenter (α : Type) where
  analysis : Option α
  features : List (List ℝ)
  ftype : FeatureType
  nbins : Nat
  ncoeff : Nat
  states : Nat
  nclusters : Nat
  hlen : Nat
  limit : Int
  samplerate : Int
  hop : Int
  segments : List Segment
  nsegtypes : Nat
  segrate : Int

/-- The memory allocated by `segment()` itself: the copy of the features, the labels and the chroma vectors. -/
structure SWork where
  arr : List (List ℝ)
  q : List Nat
  chroma : List (List ℝ)
  c : CWork

/-- The copy of the features, dsp/segmentation/ClusterMeltSegmenter.cpp:344-357: `w` columns of every row. -/
def copyFeatures (f : List (List ℝ)) (w : Nat) (arr : List (List ℝ)) : Option (List (List ℝ)) :=
  loop f.length (fun i (arr : List (List ℝ)) => loop w (fun j (arr : List (List ℝ)) => do
    let v ← rd2 f i j
    wr2 arr i j v) arr) arr

/-- The labels of the frames, dsp/segmentation/ClusterMeltSegmenter.cpp:343-368. -/
noncomputable def labels {α : Type} (inv : List (List ℝ) → List (List ℝ) × ℝ) (pca : List (List ℝ) → Nat → Nat → Option (List (List ℝ))) (rnd : Rand)
    (w : SWork) (s : Segmenter α) : Option (List Int) := do
  let r0 ← s.features[0]?
  let arr ← copyFeatures s.features (if s.ftype = .unknown then r0.length else s.ncoeff) w.arr
  if s.ftype = .unknown ∨ s.ftype = .mfcc then
    clusterSegment inv rnd w.q (narrow r0.length arr) s.features.length r0.length s.states s.hlen s.nclusters s.limit w.c
  else
    constqSegment inv pca rnd w.q arr s.features.length s.nbins s.ncoeff s.ftype s.states s.hlen s.nclusters s.limit w.chroma w.c

/-- `segment()`, dsp/segmentation/ClusterMeltSegmenter.cpp:326-382, and `makeSegmentation`. -/
noncomputable def segment {α : Type} (inv : List (List ℝ) → List (List ℝ) × ℝ) (pca : List (List ℝ) → Nat → Nat → Option (List (List ℝ))) (rnd : Rand)
    (w : SWork) (s : Segmenter α) : Option (Segmenter α) :=
  if s.features.length < s.hlen then some { s with analysis := none }
  else do
    let q ← labels inv pca rnd w s
    let segs ← makeSegmentation s.hop q
    pure { s with analysis := none, features := [], segments := segs, nsegtypes := s.nclusters, segrate := s.samplerate }

/-- `segment(m)`, dsp/segmentation/ClusterMeltSegmenter.cpp:314-318. -/
noncomputable def segmentInto {α : Type} (inv : List (List ℝ) → List (List ℝ) × ℝ) (pca : List (List ℝ) → Nat → Nat → Option (List (List ℝ))) (rnd : Rand)
    (w : SWork) (m : Nat) (s : Segmenter α) : Option (Segmenter α) := segment inv pca rnd w { s with nclusters := m }

/-- `setFeatures`, dsp/segmentation/ClusterMeltSegmenter.cpp:320-324. -/
def setFeatures {α : Type} (f : List (List ℝ)) (s : Segmenter α) : Segmenter α := { s with features := f, ftype := .unknown }

end QM.Segment
