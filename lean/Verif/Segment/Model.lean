import Verif.Common.Loop
import Mathlib.Algebra.Order.Field.Basic

/-! # Segmentation: dsp/segmentation

`none` is a read or write outside an array, or a loop that goes on for longer than its fuel. -/

namespace QM.Segment

/-! ## ClusterMeltSegmenter -/

/-- `Segment`, dsp/segmentation/Segmenter.h:23-29. -/
structure Segment where
  start : Int
  stop : Int
  type : Int
deriving DecidableEq, Repr

/-- `ClusterMeltSegmenter::makeSegmentation`, dsp/segmentation/ClusterMeltSegmenter.cpp:380-400: `hop` is the value of `getHopsize()`, the
result `segmentation.segments`. The state of the loop is the segments added and the one that is open. -/
def makeSegmentation (hop : Int) (q : List Int) : Option (List Segment) := do
  let q0 ← q[0]?
  let s ← loop (q.length - 1) (fun n (s : List Segment × Int × Int) => do
    let a ← q[n + 1]?
    let b ← q[n]?
    if a ≠ b then pure (s.1 ++ [⟨s.2.1, ((n + 1 : Nat) : Int) * hop, s.2.2⟩], ((n + 1 : Nat) : Int) * hop, a)
    else pure s) ([], 0, q0)
  pure (s.1 ++ [⟨s.2.1, (q.length : Int) * hop, s.2.2⟩])

/-- `while (decimationFactor & (decimationFactor - 1)) ++decimationFactor;`, dsp/segmentation/ClusterMeltSegmenter.cpp:63 and 95, where the
factor is at least 1. -/
def roundUp : Nat → Nat → Option Nat
  | 0, _ => none
  | fuel + 1, d => if d &&& (d - 1) ≠ 0 then roundUp fuel (d + 1) else some d

/-- The factor chosen by `ClusterMeltSegmenter::initialise`, dsp/segmentation/ClusterMeltSegmenter.cpp:58-67 with `internalRate` 11025 and
90-99 with 22050. `Decimator::getHighestSupportedFactor` returns 8 (dsp/rateconversion/Decimator.h:44). -/
def decimationFactor (fuel : Nat) (internalRate samplerate : Int) : Option Nat := do
  let d := samplerate.tdiv internalRate
  let d := if d < 1 then 1 else d
  let d ← roundUp fuel d.toNat
  pure (if d > 8 then 8 else d)

/-! ## Histograms -/

/-- `create_histograms`, dsp/segmentation/cluster_segmenter.c:80-116, with `h` what the array holds before. -/
def createHistograms {K : Type} [Field K] (x : List Int) (m hlen : Nat) (h : List K) : Option (List K) := do
  let nx := x.length
  let h ← loop (nx * m) (fun i h => wr h i 0) h
  let h ← loop (nx - hlen / 2 - hlen / 2) (fun n h => do
    let i := hlen / 2 + n
    let h ← loop m (fun j h => wr h (i * m + j) 0) h
    let h ← loop (2 * (hlen / 2) + 1) (fun u h => do
      let v ← x[i - hlen / 2 + u]?
      let c ← rdI h ((i * m : Nat) + v)
      wrI h ((i * m : Nat) + v) (c + 1)) h
    let norm ← loop m (fun j norm => do
      let c ← h[i * m + j]?
      pure (norm + c * c)) 0
    loop m (fun j h => do
      let c ← h[i * m + j]?
      wr h (i * m + j) (c / norm)) h) h
  let h ← loop (hlen / 2) (fun i h => loop m (fun j h => do
    let v ← h[hlen / 2 * m + j]?
    wr h (i * m + j) v) h) h
  loop (hlen / 2) (fun n h => loop m (fun j h => do
    let v ← rdI h (((nx : Int) - (hlen / 2 : Nat) - 1) * m + j)
    wrI h (((nx : Int) - (hlen / 2 : Nat) + n) * m + j) v) h) h

/-- `cq2chroma`, dsp/segmentation/cluster_segmenter.c:23-39, for one frame `cq` of `ncoeff` values; `chroma` is what the output holds. -/
def cq2chroma {K : Type} [Field K] [LinearOrder K] (cq : List K) (ncoeff bins : Nat) (chroma : List K) : Option (List K) := do
  let noct := ncoeff / bins
  let chroma ← loop bins (fun b chroma => wr chroma b 0) chroma
  loop noct (fun oct chroma => loop bins (fun b chroma => do
    let c ← chroma[b]?
    let v ← cq[oct * bins + b]?
    wr chroma b (c + |v|)) chroma) chroma

/-! ## Clustering

The arithmetic is a parameter, so that what is proved without assuming anything about it holds of IEEE doubles, NaN and infinities
included. -/

structure Arith (K : Type) where
  add : K → K → K
  sub : K → K → K
  mul : K → K → K
  div : K → K → K
  neg : K → K
  lt : K → K → Bool
  ofInt : Int → K
  exp : K → K
  log : K → K
  sqrt : K → K
  lambda : K

section melt
variable {K : Type} (A : Arith K)

/-- `kldist`, dsp/segmentation/cluster_melt.c:24-43; `b` is the part of the array `bs` from `off` on. -/
def kldist (a : List K) (bs : List K) (off n : Nat) : Option K :=
  loop n (fun i d => do
    let x ← a[i]?
    let y ← bs[off + i]?
    let q := A.div (A.add x y) (A.ofInt 2)
    if A.lt (A.ofInt 0) q then
      let d := if A.lt (A.ofInt 0) x then A.add d (A.mul x (A.log (A.div x q))) else d
      pure (if A.lt (A.ofInt 0) y then A.add d (A.mul y (A.log (A.div y q))) else d)
    else pure d) (A.ofInt 0)

/-- One random reference histogram, dsp/segmentation/cluster_melt.c:89-98; `rnd j` are the values of `rand()`. -/
def initCluster (m : Nat) (rnd : Nat → Int) (row : List K) : Option (List K) := do
  let s ← loop m (fun j (s : List K × K) => do
    let row ← wr s.1 j (A.ofInt (rnd j))
    pure (row, A.add s.2 (A.mul (A.ofInt (rnd j)) (A.ofInt (rnd j))))) (row, A.ofInt 0)
  let sum := A.sqrt s.2
  loop m (fun j row => do
    let v ← row[j]?
    wr row j (A.div v sum)) s.1

/-- The number of neighbours not in cluster `j + 1`, dsp/segmentation/cluster_melt.c:136-149. -/
def neighbours (n limit : Nat) (c : List Int) (i j : Nat) : Option Int :=
  let b0 := i - limit
  let b1 := if i + limit ≥ n then n - 1 else i + limit
  loop (b1 + 1 - b0) (fun u (nc : Int) => do
    let l ← c[b0 + u]?
    pure (if l = (j : Int) + 1 then nc - 1 else nc)) ((b1 : Int) - b0 + 1)

/-- The log-probabilities of histogram `i`, dsp/segmentation/cluster_melt.c:126-159; the state is a row of `lp` and the row of `nc`. -/
def assignRow (h : List K) (m n k limit : Nat) (beta : K) (cl : List (List K)) (c : List Int) (i : Nat) (row : List K) (nc : List Int) :
    Option (List K × List Int) := do
  let s ← loop k (fun j (s : List K × List Int × K) => do
    let r ← cl[j]?
    let d ← kldist A r h (i * m) m
    let v := A.mul (A.neg beta) d
    let row ← wr s.1 j v
    let count ← neighbours n limit c i j
    let nc ← wr s.2.1 j count
    pure (row, nc, A.add s.2.2 (A.exp v))) (row, nc, A.ofInt 0)
  let logsumexp := A.log s.2.2
  let row ← loop k (fun j row => do
    let v ← row[j]?
    let w ← s.2.1[j]?
    wr row j (A.sub v (A.add logsumexp (A.mul A.lambda (A.ofInt w))))) s.1
  pure (row, s.2.1)

/-- The label of a histogram, dsp/segmentation/cluster_melt.c:164-173. -/
def bestLabel (k : Nat) (row : List K) : Option Int := do
  let v ← row[0]?
  let s ← loop (k - 1) (fun n (s : K × Int) => do
    let w ← row[n + 1]?
    pure (if A.lt s.1 w then (w, ((n + 1 : Nat) : Int) + 1) else s)) (v, 1)
  pure s.2

/-- The reference histogram of cluster `j`, dsp/segmentation/cluster_melt.c:186-201. -/
def updateCluster (h : List K) (m n : Nat) (lp : List (List K)) (j : Nat) (row : List K) : Option (List K) := do
  let row ← loop m (fun b row => do
    let row ← wr row b (A.ofInt 0)
    loop n (fun i row => do
      let v ← row[b]?
      let r ← lp[i]?
      let e ← r[j]?
      let x ← h[i * m + b]?
      wr row b (A.add v (A.mul (A.exp e) x))) row) row
  let sum ← loop n (fun i sum => do
    let r ← lp[i]?
    let e ← r[j]?
    pure (A.add sum (A.exp e))) (A.ofInt 0)
  loop m (fun b row => do
    let v ← row[b]?
    wr row b (A.div v sum)) row

/-- `cl`, `nc`, `lp`, `oldc` and `c`. -/
structure Melt (K : Type) where
  cl : List (List K)
  nc : List (List Int)
  lp : List (List K)
  oldc : List Int
  c : List Int

/-- One iteration at inverse temperature `beta`, dsp/segmentation/cluster_melt.c:115-202. The flag is true if the assignments have not
changed, so that the loop is left. -/
def meltStep (h : List K) (m n k limit : Nat) (beta : K) (s : Melt K) : Option (Melt K × Bool) := do
  let u ← loop n (fun i (u : List (List K) × List (List Int) × List Int) => do
    let l ← s.c[i]?
    let oldc ← wr u.2.2 i l
    let row ← u.1[i]?
    let nc ← u.2.1[i]?
    let r ← assignRow A h m n k limit beta s.cl s.c i row nc
    let lp ← wr u.1 i r.1
    let ncs ← wr u.2.1 i r.2
    pure (lp, ncs, oldc)) (s.lp, s.nc, s.oldc)
  let c ← loop n (fun i c => do
    let row ← u.1[i]?
    let l ← bestLabel A k row
    wr c i l) s.c
  if c.take n = u.2.2.take n then pure (⟨s.cl, u.2.1, u.1, u.2.2, c⟩, true)
  else do
    let cl ← loop k (fun j cl => do
      let row ← cl[j]?
      let row ← updateCluster A h m n u.1 j row
      wr cl j row) s.cl
    pure (⟨cl, u.2.1, u.1, u.2.2, c⟩, false)

/-- The iterations at one temperature, dsp/segmentation/cluster_melt.c:115-203: at most `maxiter`; returns also how many there were. -/
def meltAt (h : List K) (m n k limit : Nat) (beta : K) : Nat → Melt K → Option (Melt K × Nat)
  | 0, s => some (s, 0)
  | maxiter + 1, s => do
    let r ← meltStep A h m n k limit beta s
    if r.2 then pure (r.1, 1)
    else do
      let q ← meltAt h m n k limit beta maxiter r.1
      pure (q.1, q.2 + 1)

/-- `cluster_melt`, dsp/segmentation/cluster_melt.c:45-211. `s` is what the allocated arrays and `c` hold at the start; `l` the neighbourhood
limit. Returns `c` and the number of iterations. -/
def clusterMelt (h : List K) (m n : Nat) (Bsched : List K) (t k : Nat) (l : Int) (rnd : Nat → Nat → Int) (s : Melt K) :
    Option (List Int × Nat) := do
  let limit := if l > 0 then l.toNat else 20
  let cl ← loop k (fun i cl => do
    let row ← cl[i]?
    let row ← initCluster A m (rnd i) row
    wr cl i row) s.cl
  let c ← loop n (fun i c => wr c i (1 : Int)) s.c
  let r ← loop t (fun a (r : Melt K × Nat) => do
    let beta ← Bsched[a]?
    let q ← meltAt A h m n k limit beta (if a = 0 then 20 else 5) r.1
    pure (q.1, r.2 + q.2)) (⟨cl, s.nc, s.lp, s.oldc, c⟩, 0)
  pure (r.1.c, r.2)

end melt

end QM.Segment
