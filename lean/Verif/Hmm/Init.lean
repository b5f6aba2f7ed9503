import Verif.Hmm.Model

/-!
# The rest of `hmm_init`, and `viterbi_decode` from the observations on

Sums that the C code accumulates in an array element are accumulated in a local here and then stored.
-/

namespace QM.Hmm

/-- Sum of column `d` of the data, hmm/hmm.c:72-75. -/
def colTotal (T : Nat) (x : List (List ℝ)) (d : Nat) : Option ℝ :=
  loop T (fun t (s : ℝ) => do
    let v ← rd2 x t d
    pure (s + v)) 0

/-- The global mean, hmm/hmm.c:69-77. -/
noncomputable def globalMean (T L : Nat) (x : List (List ℝ)) (gm : List ℝ) : Option (List ℝ) :=
  loop L (fun d (gm : List ℝ) => do
    let s ← colTotal T x d
    if T = 0 then none else wr gm d (s / (T : ℝ))) gm

/-- The sum of squares of component `d` about the mean, hmm/hmm.c:84-87. -/
noncomputable def scatter (T : Nat) (x : List (List ℝ)) (m : ℝ) (d : Nat) : Option ℝ :=
  loop T (fun t (s : ℝ) => do
    let v ← rd2 x t d
    pure (s + (v - m) * (v - m))) 0

/-- The global diagonal covariance, hmm/hmm.c:79-89. Dividing by `T - 1` is `none` for one observation. -/
noncomputable def globalCov (T L : Nat) (x : List (List ℝ)) (gm : List ℝ) (cov : List (List ℝ)) : Option (List (List ℝ)) :=
  loop L (fun d (cov : List (List ℝ)) => do
    let cov ← loop L (fun e (cov : List (List ℝ)) => wr2 cov d e 0) cov
    let m ← gm[d]?
    let s ← scatter T x m d
    if T = 1 then none else wr2 cov d d (s / ((T : ℝ) - 1))) cov

/-- The means, hmm/hmm.c:91-101. `rm i d` is the value of `0.5 * rand() / RAND_MAX - 0.25`. -/
noncomputable def startMeans (N L : Nat) (rm : Nat → Nat → ℝ) (gm : List ℝ) (cov mu : List (List ℝ)) : Option (List (List ℝ)) :=
  loop N (fun i (mu : List (List ℝ)) => loop L (fun d (mu : List (List ℝ)) => do
    let g ← gm[d]?
    let c ← rd2 cov d d
    wr2 mu i d (g + rm i d * Real.sqrt c)) mu) mu

/-- `hmm_init`, hmm/hmm.c:47-125. The arguments `p0` to `gm` are the fresh arrays. -/
noncomputable def hmmInit (N T L : Nat) (x : List (List ℝ)) (rm : Nat → Nat → ℝ) (r0 : Nat → ℝ) (r : Nat → Nat → ℝ)
    (p0 : List ℝ) (a mu cov : List (List ℝ)) (gm : List ℝ) : Option Params := do
  let gm ← globalMean T L x gm
  let cov ← globalCov T L x gm cov
  let mu ← startMeans N L rm gm cov mu
  let pa ← initProbs N r0 r p0 a
  pure ⟨pa.1, pa.2, mu, cov⟩

/-- The log-probabilities of the observations, hmm/hmm.c:485-491. -/
noncomputable def logObservations (N T L : Nat) (x mu icov : List (List ℝ)) (detcov : ℝ) (logb : List (List ℝ)) (gy gz : List ℝ) : Option (List (List ℝ)) :=
  loop T (fun t (b : List (List ℝ)) => loop N (fun i (b : List (List ℝ)) => do
    let xt ← x[t]?
    let m ← mu[i]?
    let l ← loggauss xt L m icov detcov gy gz
    wr2 b t i l) b) logb

/-- The arrays of `viterbi_decode`. -/
structure VWork where
  logb : List (List ℝ)
  phi : List (List (WithBot ℝ))
  psi : List (List Nat)
  gy : List ℝ
  gz : List ℝ

/-- `viterbi_decode`, hmm/hmm.c:454-553. `inv` is `invert`. -/
noncomputable def viterbiDecode (inv : List (List ℝ) → List (List ℝ) × ℝ) (N T L : Nat) (x : List (List ℝ)) (m : Params) (w : VWork) (q : List Nat) : Option (List Nat) := do
  let logb ← logObservations N T L x m.mu (inv m.cov).1 (inv m.cov).2 w.logb w.gy w.gz
  viterbi blog N T m.p0 m.a logb w.phi w.psi q

end QM.Hmm
