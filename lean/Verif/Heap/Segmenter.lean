import Verif.Heap.Basic

/-!
# Memory of the structural segmentation

What `hmm/hmm.c`, `dsp/segmentation/cluster_melt.c`, `dsp/segmentation/cluster_segmenter.c` and `maths/pca/pca.c` allocate, use and release. The values that the blocks hold are not modelled here:
where they decide what is executed they are replaced by arbitrary choices. A `double` and a pointer have 8 bytes, an `int` 4. That the elements of an array of pointers are assigned in a block which
has just been allocated is not checked.
-/

namespace QM.Heap

/-- An array of pointers to rows, `n` rows with `s` bytes each. -/
structure Rows where
  base : Nat
  rows : List Nat

/-- `malloc(n*sizeof(double*))` and a loop that allocates the rows, e.g. hmm/hmm.c:62-65. -/
def allocRows (n s : Nat) : M Rows := do
  let base ← malloc (8 * n)
  let rows ← rep n (malloc s)
  pure ⟨base, rows⟩

/-- A loop that releases the rows and then the array of pointers, e.g. hmm/hmm.c:136-139. -/
def freeRows (n : Nat) (r : Rows) : M Unit := do
  each n fun i => do
    use r.base
    let p ← rd r.rows i
    free p
  free r.base

/-- Accesses to all rows. -/
def touchRows (n : Nat) (r : Rows) : M Unit :=
  each n fun i => do
    use r.base
    let p ← rd r.rows i
    use p

/-- `model_t`, hmm/hmm.h:22-30, with the addresses of its blocks; `rows` has the rows of `a` and of `mu`. -/
structure Model where
  N : Nat
  L : Nat
  self : Nat
  p0 : Nat
  a : Nat
  mu : Nat
  rows : List (Nat × Nat)
  cov : Rows

/-- Accesses to all parts of a model. -/
def Model.touch (m : Model) : M Unit := do
  use m.self
  use m.p0
  each m.N fun i => do
    use m.a
    use m.mu
    let r ← rd m.rows i
    use r.1
    use r.2
  touchRows m.L m.cov

/-- `hmm_init`, hmm/hmm.c:46-124. `sizeof(model_t)` is 48. -/
def hmmInit (N L : Nat) : M Model := do
  let self ← malloc 48
  let p0 ← malloc (8 * N)
  let a ← malloc (8 * N)
  let mu ← malloc (8 * N)
  let rows ← rep N (do
    let x ← malloc (8 * N)
    let y ← malloc (8 * L)
    pure (x, y))
  let cov ← allocRows L (8 * L)
  let gm ← malloc (8 * L)
  let m : Model := ⟨N, L, self, p0, a, mu, rows, cov⟩
  m.touch
  use gm
  free gm
  pure m

/-- `hmm_close`, hmm/hmm.c:126-141. -/
def hmmClose (m : Model) : M Unit := do
  each m.N fun i => do
    use m.self
    use m.a
    let r ← rd m.rows i
    free r.1
    use m.mu
    free r.2
  free m.a
  free m.mu
  freeRows m.L m.cov
  free m.self

/-- `invert`, hmm/hmm.c:556-612; the work space has `nb` numbers for each row. -/
def invert (nb L : Nat) (cov icov : Rows) : M Unit := do
  let a ← malloc (8 * (L * L))
  touchRows L cov
  use a
  let ipiv ← malloc (4 * (L * L))
  use ipiv
  let work ← malloc (8 * (L * nb))
  use work
  touchRows L icov
  free work
  free a

/-- `forward_backwards`, hmm/hmm.c:335-452. -/
def forwardBackwards (N T : Nat) : M Unit := do
  let alpha ← malloc (8 * T)
  let beta ← malloc (8 * T)
  let rows ← rep T (do
    let x ← malloc (8 * N)
    let y ← malloc (8 * N)
    pure (x, y))
  let c ← malloc (8 * T)
  use c
  each T fun t => do
    use alpha
    let r ← rd rows t
    free r.1
    use beta
    free r.2
  free alpha
  free beta
  free c

/-- `baum_welch`, hmm/hmm.c:234-333. -/
def baumWelch (N T L : Nat) (m : Model) : M Unit := do
  let sumGamma ← malloc (8 * N)
  let u ← malloc (8 * (L * L))
  let yy ← malloc (8 * (T * L))
  let yy2 ← malloc (8 * (T * L))
  use sumGamma
  use u
  use yy
  use yy2
  m.touch
  free sumGamma
  free yy
  free yy2
  free u

/-- One pass of the loop of `hmm_train`, hmm/hmm.c:188-209. `ok` tells whether the likelihood is a number. -/
def trainPass (nb T : Nat) (m : Model) (icov : Rows) (ok : Bool) : M Unit := do
  invert nb m.L m.cov icov
  m.touch
  forwardBackwards m.N T
  if ok then baumWelch m.N T m.L m else pure ()

/-- The passes one after the other. -/
def trainPasses (nb T : Nat) (m : Model) (icov : Rows) : List Bool → M Unit
  | [] => pure ()
  | ok :: oks => do
    trainPass nb T m icov ok
    trainPasses nb T m icov oks

/-- `hmm_train`, hmm/hmm.c:143-232. `oks` has one element for each pass of the loop, at most 50. -/
def hmmTrain (nb T : Nat) (m : Model) (oks : List Bool) : M Unit := do
  let gamma ← malloc (8 * T)
  let xi ← malloc (8 * T)
  let gx ← rep T (do
    let g ← malloc (8 * m.N)
    let x ← malloc (8 * m.N)
    let xs ← rep m.N (malloc (8 * m.N))
    pure (g, x, xs))
  let gy ← malloc (8 * m.L)
  let gz ← malloc (8 * m.L)
  let b ← malloc (8 * T)
  let bs ← rep T (malloc (8 * m.N))
  let icov ← allocRows m.L (8 * m.L)
  trainPasses nb T m icov oks
  each T fun t => do
    use gamma
    let r ← rd gx t
    free r.1
    use b
    let q ← rd bs t
    free q
    each m.N fun i => do
      use xi
      use r.2.1
      let p ← rd r.2.2 i
      free p
    use xi
    free r.2.1
  free gamma
  free xi
  free b
  freeRows m.L icov
  free gy
  free gz

/-- `viterbi_decode`, hmm/hmm.c:454-553. -/
def viterbi (nb T : Nat) (m : Model) : M Unit := do
  let icov ← allocRows m.L (8 * m.L)
  let logb ← malloc (8 * T)
  let phi ← malloc (8 * T)
  let psi ← malloc (8 * T)
  let rows ← rep T (do
    let x ← malloc (8 * m.N)
    let y ← malloc (8 * m.N)
    let z ← malloc (4 * m.N)
    pure (x, y, z))
  let gy ← malloc (8 * m.L)
  let gz ← malloc (8 * m.L)
  invert nb m.L m.cov icov
  m.touch
  freeRows m.L icov
  each T fun t => do
    use logb
    let r ← rd rows t
    free r.1
    use phi
    free r.2.1
    use psi
    free r.2.2
  free logb
  free phi
  free psi
  free gy
  free gz

/-- `cluster_melt`, dsp/segmentation/cluster_melt.c:45-212: `m` bins, `n` histograms, `k` clusters. -/
def clusterMelt (m n k : Nat) : M Unit := do
  let cl ← allocRows k (8 * m)
  let nc ← allocRows n (4 * k)
  let lp ← allocRows n (8 * k)
  let oldc ← malloc (4 * n)
  touchRows k cl
  touchRows n nc
  touchRows n lp
  use oldc
  freeRows k cl
  freeRows n nc
  freeRows n lp
  free oldc

/-- `cluster_segment`, dsp/segmentation/cluster_segmenter.c:119-201: `T` frames with `L` features, `N` states, `k` clusters. -/
def clusterSegment (nb T L N k : Nat) (oks : List Bool) : M Unit := do
  let m ← hmmInit N L
  hmmTrain nb T m oks
  viterbi nb T m
  hmmClose m
  let h ← malloc (8 * (T * N))
  use h
  let bsched ← malloc (8 * 20)
  use bsched
  clusterMelt N T k
  free h
  free bsched

/-- `covcol`, maths/pca/pca.c:33-88. -/
def covcol (m : Nat) (symmat : Rows) : M Unit := do
  let mean ← malloc (8 * m)
  use mean
  touchRows m symmat
  free mean

/-- `pca_project`, maths/pca/pca.c:252-353, without early exits of `tqli`. -/
def pcaProject (m : Nat) : M Unit := do
  let symmat ← allocRows m (8 * m)
  covcol m symmat
  let evals ← malloc (8 * m)
  let interm ← malloc (8 * m)
  touchRows m symmat
  use evals
  use interm
  freeRows m symmat
  free evals
  free interm

/-- The feature types of `constq_segment`, dsp/segmentation/segment.h:36-42. -/
inductive Feature
  | constq
  | chroma
  | other
deriving DecidableEq

/-- `constq_segment`, dsp/segmentation/cluster_segmenter.c:204-251. -/
def constqSegment (f : Feature) (nb T bins ncoeff N k : Nat) (oks : List Bool) : M Unit :=
  match f with
  | .constq => do
    pcaProject ncoeff
    clusterSegment nb T 21 N k oks
  | .chroma => do
    let chroma ← allocRows T (8 * bins)
    touchRows T chroma
    clusterSegment nb T bins N k oks
    freeRows T chroma
  | .other => pure ()

end QM.Heap
