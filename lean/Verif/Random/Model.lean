import Verif.Segment.Pipeline

/-!
# Segmentation and the random number generator of the C library

`rand` and `srand` work on one generator that belongs to the whole program. A piece of code that uses it is a `Code`: it stops, or calls
`srand`, or calls `rand` and goes on with the number it gets. The parts of `hmm_init` and `cluster_melt` that draw numbers are written
here in the order of the calls; the rest is taken from the models of these functions.
-/

namespace QM.Random

open Segment

/-- The generator: what `srand` makes of a seed, and the number and the new state that `rand` makes of a state. `top` is `RAND_MAX`. -/
structure Generator (S : Type) where
  seed : Nat → S
  next : S → Nat × S
  top : Nat

/-- C11, 7.22.2: `rand` gives a number from 0 to `RAND_MAX`, which is at least 32767. -/
structure Generator.Valid {S : Type} (G : Generator S) : Prop where
  top : 32767 ≤ G.top
  next : ∀ s, (G.next s).1 ≤ G.top

/-- Code that uses the generator. `done none` is an operation without a defined result. -/
inductive Code (α : Type) : Type where
  | done (r : Option α)
  | srand (n : Nat) (c : Code α)
  | srandTime (c : Code α)
  | rand (k : Nat → Code α)

variable {α β S : Type}

/-- One piece of code after another. -/
def Code.bind : Code α → (α → Code β) → Code β
  | .done none, _ => .done none
  | .done (some a), f => f a
  | .srand n c, f => .srand n (c.bind f)
  | .srandTime c, f => .srandTime (c.bind f)
  | .rand k, f => .rand fun v => (k v).bind f

/-- `for (i = 0; i < n; ++i) s = f i s` for code that uses the generator. -/
def Code.loop : Nat → (Nat → α → Code α) → α → Code α
  | 0, _, s => .done (some s)
  | n + 1, f, s => (Code.loop n f s).bind (f n)

/-- The code alone in the program, while the clock shows `now`, from state `g` of the generator. -/
def Code.run (G : Generator S) (now : Nat) : Code α → S → Option α × S
  | .done r, g => (r, g)
  | .srand n c, _ => c.run G now (G.seed n)
  | .srandTime c, _ => c.run G now (G.seed now)
  | .rand k, g => (k (G.next g).1).run G now (G.next g).2

/-- The state after `n` numbers. -/
def Generator.after (G : Generator S) (g : S) : Nat → S
  | 0 => g
  | n + 1 => (G.next (G.after g n)).2

/-- The number that the call with index `n` gives. -/
def Generator.value (G : Generator S) (g : S) (n : Nat) : Nat := (G.next (G.after g n)).1

/-- The means, hmm/hmm.c:91-101. -/
noncomputable def startMeans (top N L : Nat) (gm : List ℝ) (cov mu : List (List ℝ)) : Code (List (List ℝ)) :=
  Code.loop N (fun i (mu : List (List ℝ)) => Code.loop L (fun d (mu : List (List ℝ)) => .rand fun v => .done do
    let g ← gm[d]?
    let c ← rd2 cov d d
    wr2 mu i d (g + (1 / 2 * v / top - 1 / 4) * Real.sqrt c)) mu) mu

/-- One row of the transition probabilities and the sum, hmm/hmm.c:109-112. -/
noncomputable def transitions (top N i : Nat) (a : List (List ℝ)) : Code (List (List ℝ) × ℝ) :=
  Code.loop N (fun j (st : List (List ℝ) × ℝ) => .rand fun v => .done do
    let a ← wr2 st.1 i j (1 + (v : ℝ) / top)
    pure (a, st.2 + (1 + (v : ℝ) / top))) (a, 0)

/-- The random initial and transition probabilities, hmm/hmm.c:103-120. -/
noncomputable def initProbs (top N : Nat) (p0 : List ℝ) (a : List (List ℝ)) : Code (List ℝ × List (List ℝ)) :=
  (Code.loop N (fun i (st : (List ℝ × List (List ℝ)) × ℝ) => .rand fun v =>
    (Code.done (wr st.1.1 i (1 + (v : ℝ) / top))).bind fun p =>
    (transitions top N i st.1.2).bind fun as => .done do
      let a ← loop N (fun j (a : List (List ℝ)) => do
        let x ← rd2 a i j
        wr2 a i j (x / as.2)) as.1
      pure ((p, a), st.2 + (1 + (v : ℝ) / top))) ((p0, a), 0)).bind fun st => .done do
  let p0 ← loop N (fun i (p : List ℝ) => do
    let x ← p[i]?
    wr p i (x / st.2)) st.1.1
  pure (p0, st.1.2)

/-- `hmm_init`, hmm/hmm.c:47-125. -/
noncomputable def hmmInit (top N T L : Nat) (x : List (List ℝ)) (p0 : List ℝ) (a mu cov : List (List ℝ)) (gm : List ℝ) : Code Hmm.Params :=
  .srandTime <|
  (Code.done (Hmm.globalMean T L x gm)).bind fun gm =>
  (Code.done (Hmm.globalCov T L x gm cov)).bind fun cov =>
  (startMeans top N L gm cov mu).bind fun mu =>
  (initProbs top N p0 a).bind fun pa => .done (some ⟨pa.1, pa.2, mu, cov⟩)

/-- One random reference histogram, dsp/segmentation/cluster_melt.c:86-96. -/
def initCluster {K : Type} (A : Arith K) (m : Nat) (row : List K) : Code (List K) :=
  (Code.loop m (fun j (s : List K × K) => .rand fun v => .done do
    let row ← wr s.1 j (A.ofInt (v : Int))
    pure (row, A.add s.2 (A.mul (A.ofInt (v : Int)) (A.ofInt (v : Int))))) (row, A.ofInt 0)).bind fun s => .done <|
  loop m (fun j row => do
    let x ← row[j]?
    wr row j (A.div x (A.sqrt s.2))) s.1

/-- `cluster_melt`, dsp/segmentation/cluster_melt.c:45-211. -/
def clusterMelt {K : Type} (A : Arith K) (h : List K) (m n : Nat) (Bsched : List K) (t k : Nat) (l : Int) (s : Melt K) : Code (List Int × Nat) :=
  (Code.loop k (fun i (cl : List (List K)) =>
    (Code.done cl[i]?).bind fun row => (initCluster A m row).bind fun row => .done (wr cl i row)) s.cl).bind fun cl => .done do
  let c ← loop n (fun i c => wr c i (1 : Int)) s.c
  let r ← loop t (fun a (r : Melt K × Nat) => do
    let beta ← Bsched[a]?
    let q ← meltAt A h m n k (if l > 0 then l.toNat else 20) beta (if a = 0 then 20 else 5) r.1
    pure (q.1, r.2 + q.2)) (⟨cl, s.nc, s.lp, s.oldc, c⟩, 0)
  pure (r.1.c, r.2)

/-- `cluster_segment`, dsp/segmentation/cluster_segmenter.c:119-197. -/
noncomputable def clusterSegment (inv : List (List ℝ) → List (List ℝ) × ℝ) (top : Nat) (q : List Nat) (x : List (List ℝ))
    (T L N hlen k : Nat) (limit : Int) (w : CWork) : Code (List Int) :=
  (Code.done (scaleFeatures T L x)).bind fun x =>
  (hmmInit top N T L x w.p0 w.a w.mu w.cov w.gm).bind fun m =>
  (Code.done (Hmm.hmmTrain inv N T L x w.train w.l w.l1 w.l2 m)).bind fun m =>
  (Code.done (Hmm.viterbiDecode inv N T L x m w.vit q)).bind fun q =>
  (Code.done (createHistograms (q.map Int.ofNat) N hlen w.h)).bind fun h =>
  (Code.done (schedule w.bsched)).bind fun b =>
  (clusterMelt realArith h N T b 20 k limit ⟨w.melt.cl, w.melt.nc, w.melt.lp, w.melt.oldc, q.map Int.ofNat⟩).bind fun r => .done (some r.1)

/-- `constq_segment`, dsp/segmentation/cluster_segmenter.c:200-247. -/
noncomputable def constqSegment (inv : List (List ℝ) → List (List ℝ) × ℝ) (pca : List (List ℝ) → Nat → Nat → Option (List (List ℝ))) (top : Nat)
    (q : List Nat) (x : List (List ℝ)) (T bins ncoeff : Nat) (ty : FeatureType) (N hlen k : Nat) (limit : Int) (chroma : List (List ℝ)) (w : CWork) :
    Code (List Int) :=
  match ty with
  | .constq =>
    (Code.done (mpeg7 x T ncoeff)).bind fun x =>
    (Code.done (pca x T ncoeff)).bind fun x =>
    (Code.done (moveEnvelope T ncoeff x)).bind fun x =>
    clusterSegment inv top q (narrow 21 x) T 21 N hlen k limit w
  | .chroma =>
    (Code.done (chromaAll T ncoeff bins x chroma)).bind fun c => clusterSegment inv top q c T bins N hlen k limit w
  | _ => .done (some (q.map Int.ofNat))

/-- The labels of the frames, dsp/segmentation/ClusterMeltSegmenter.cpp:343-368. -/
noncomputable def labels (inv : List (List ℝ) → List (List ℝ) × ℝ) (pca : List (List ℝ) → Nat → Nat → Option (List (List ℝ))) (top : Nat)
    (w : SWork) (s : Segmenter α) : Code (List Int) :=
  (Code.done s.features[0]?).bind fun r0 =>
  (Code.done (copyFeatures s.features (if s.ftype = .unknown then r0.length else s.ncoeff) w.arr)).bind fun arr =>
  if s.ftype = .unknown ∨ s.ftype = .mfcc then
    clusterSegment inv top w.q (narrow r0.length arr) s.features.length r0.length s.states s.hlen s.nclusters s.limit w.c
  else
    constqSegment inv pca top w.q arr s.features.length s.nbins s.ncoeff s.ftype s.states s.hlen s.nclusters s.limit w.chroma w.c

/-- `segment()`, dsp/segmentation/ClusterMeltSegmenter.cpp:326-382, and `makeSegmentation`. -/
noncomputable def segment (inv : List (List ℝ) → List (List ℝ) × ℝ) (pca : List (List ℝ) → Nat → Nat → Option (List (List ℝ))) (top : Nat)
    (w : SWork) (s : Segmenter α) : Code (Segmenter α) :=
  if s.features.length < s.hlen then .done (some { s with analysis := none })
  else
    (labels inv pca top w s).bind fun q => .done do
      let segs ← makeSegmentation s.hop q
      pure { s with analysis := none, features := [], segments := segs, nsegtypes := s.nclusters, segrate := s.samplerate }

/-! ## Threads

Threads share the generator. A call of `rand` or `srand` is taken as one step (C does not promise even that: C11, 7.22.2.1). The clock may
show anything at a step. -/

/-- The shared generator and what the threads have still to do. -/
structure State (S α : Type) where
  gen : S
  code : Nat → Code α

/-- Thread `i` goes on with `c`. -/
def State.become (s : State S α) (i : Nat) (g : S) (c : Code α) : State S α := ⟨g, fun j => if j = i then c else s.code j⟩

/-- A step of thread `i` while the clock shows `now`. A thread that has stopped does nothing. -/
def State.step (G : Generator S) (i now : Nat) (s : State S α) : State S α :=
  match s.code i with
  | .done _ => s
  | .srand n c => s.become i (G.seed n) c
  | .srandTime c => s.become i (G.seed now) c
  | .rand k => s.become i (G.next s.gen).2 (k (G.next s.gen).1)

/-- A schedule: which thread makes the next step, and the clock. -/
def State.steps (G : Generator S) : List (Nat × Nat) → State S α → State S α
  | [], s => s
  | (i, now) :: l, s => State.steps G l (s.step G i now)

/-! ## A generator -/

/-- The example in the C standard, C11, 7.22.2.2 (with an `unsigned long` of 32 bits). -/
def example32 : Generator Nat where
  seed n := n % 4294967296
  next s :=
    let s := (s * 1103515245 + 12345) % 4294967296
    (s / 65536 % 32768, s)
  top := 32767

end QM.Random
