import Verif.Common.Mat
import Mathlib.Analysis.SpecialFunctions.Log.Basic
import Mathlib.Analysis.SpecialFunctions.Pow.Real
import Mathlib.Analysis.SpecialFunctions.Trigonometric.Basic
import Mathlib.Algebra.Order.Monoid.WithTop

/-!
# Model of `hmm/hmm.c`

`double` is an exact ordered field `K`. `none` is an access outside an array, a division by zero, or the logarithm of a number that is
not positive (the C code goes on with an infinity or NaN). Memory from `malloc` is a parameter, so that the theorems hold for whatever
it contains. Sums that the C code accumulates in an array element are accumulated in a local here.
-/

namespace QM.Hmm

section Generic

variable {K : Type} [Field K] [LinearOrder K]

/-- hmm/hmm.c:352-360 (`t = 0`) and 372-388: row `t` of `alpha` is computed, summed, and scaled by the inverse of its sum, which is
stored in `c[t]`. `val j` computes element `j` before scaling. -/
def scaled (N t : Nat) (val : Nat → List (List K) → Option K) (alpha : List (List K)) (c : List K) :
    Option (List (List K) × List K × K) := do
  let (alpha, s) ← loop N (fun j (st : List (List K) × K) => do
    let v ← val j st.1
    let al ← wr2 st.1 t j v
    pure (al, st.2 + v)) (alpha, 0)
  if s = 0 then none else
    let ct := 1 / s
    let c ← wr c t ct
    let alpha ← loop N (fun j (al : List (List K)) => do
      let v ← rd2 al t j
      wr2 al t j (v * ct)) alpha
    pure (alpha, c, ct)

/-- Element `i` of the first row before scaling, hmm/hmm.c:353. -/
def first (p0 : List K) (b : List (List K)) (i : Nat) (_ : List (List K)) : Option K := do
  let p ← p0[i]?
  let x ← rd2 b 0 i
  pure (p * x)

/-- Element `j` of row `t` before scaling, hmm/hmm.c:374-378. -/
def next (N t : Nat) (a b : List (List K)) (j : Nat) (alpha : List (List K)) : Option K := do
  let s ← loop N (fun i (s : K) => do
    let x ← rd2 alpha (t - 1) i
    let y ← rd2 a i j
    pure (s + x * y)) 0
  let x ← rd2 b t j
  pure (s * x)

/-- The forward pass, hmm/hmm.c:350-391: `alpha`, `c` and `*loglik`. `lg` is `log`. -/
def forward (lg : K → Option K) (N T : Nat) (p0 : List K) (a b : List (List K)) (alpha : List (List K)) (c : List K) :
    Option (List (List K) × List K × K) := do
  let (alpha, c, c0) ← scaled N 0 (first p0 b) alpha c
  let l ← lg c0
  loop (T - 1) (fun k (st : List (List K) × List K × K) => do
    let (al, c, ct) ← scaled N (k + 1) (next N (k + 1) a b) st.1 st.2.1
    let l ← lg ct
    pure (al, c, st.2.2 - l)) (alpha, c, -l)

/-- The backward pass, hmm/hmm.c:394-417. Iteration `k` of the `while` loop has `t = T - 1 - k`. -/
def backward (N T : Nat) (a b : List (List K)) (c : List K) (beta : List (List K)) : Option (List (List K)) := do
  let beta ← loop N (fun i (be : List (List K)) => wr2 be (T - 1) i 1) beta
  loop T (fun k (be : List (List K)) => do
    let t := T - 1 - k
    let be ← loop N (fun i (be : List (List K)) => do
      let v ← rd2 be t i
      let x ← c[t]?
      wr2 be t i (v * x)) be
    if t = 0 then pure be else
      loop N (fun i (be : List (List K)) => do
        let s ← loop N (fun j (s : K) => do
          let x ← rd2 a i j
          let y ← rd2 b t j
          let z ← rd2 be t j
          pure (s + x * y * z)) 0
        wr2 be (t - 1) i s) be) beta

/-- The posterior state probabilities, hmm/hmm.c:420-430. -/
def posterior (N T : Nat) (alpha beta gamma : List (List K)) : Option (List (List K)) :=
  loop T (fun t (ga : List (List K)) => do
    let (ga, tot) ← loop N (fun i (st : List (List K) × K) => do
      let x ← rd2 alpha t i
      let y ← rd2 beta t i
      let ga ← wr2 st.1 t i (x * y)
      pure (ga, st.2 + x * y)) (ga, 0)
    loop N (fun i (ga : List (List K)) => do
      let v ← rd2 ga t i
      if tot = 0 then none else wr2 ga t i (v / tot)) ga) gamma

/-- The posterior transition probabilities, hmm/hmm.c:432-445. The matrix `xi[t]` is updated as a whole. -/
def transitions (N T : Nat) (a b alpha beta : List (List K)) (xi : List (List (List K))) : Option (List (List (List K))) :=
  loop (T - 1) (fun t (xi : List (List (List K))) => do
    let x0 ← xi[t]?
    let (x1, tot) ← loop N (fun i (st : List (List K) × K) => loop N (fun j (st : List (List K) × K) => do
      let p ← rd2 alpha t i
      let q ← rd2 a i j
      let r ← rd2 b (t + 1) j
      let s ← rd2 beta (t + 1) j
      let m ← wr2 st.1 i j (p * q * r * s)
      pure (m, st.2 + p * q * r * s)) st) (x0, 0)
    let x2 ← loop N (fun i (m : List (List K)) => loop N (fun j (m : List (List K)) => do
      let v ← rd2 m i j
      if tot = 0 then none else wr2 m i j (v / tot)) m) x1
    wr xi t x2) xi

/-- `forward_backwards`, hmm/hmm.c:335-452: `xi`, `gamma` and `*loglik`. The copies of earlier values of `*loglik` to `*loglik1` and
`*loglik2` (362, 364-366) are made by the caller `hmm_train` of the model. `alpha`, `beta`, `c` are the temporary arrays. -/
def forwardBackwards (lg : K → Option K) (N T : Nat) (p0 : List K) (a b : List (List K)) (xi : List (List (List K))) (gamma : List (List K))
    (alpha beta : List (List K)) (c : List K) : Option (List (List (List K)) × List (List K) × K) := do
  let (alpha, c, loglik) ← forward lg N T p0 a b alpha c
  let beta ← backward N T a b c beta
  let gamma ← posterior N T alpha beta gamma
  let xi ← transitions N T a b alpha beta xi
  pure (xi, gamma, loglik)

/-- What `cblas_dgemm(CblasColMajor, CblasTrans, CblasNoTrans, L, L, T, 1.0, yy, T, yy2, T, 0, u, L)` stores in `u[e*L+d]`,
ext/cblas/src/dgemm.c:306-317: the inner product of column `d` of `yy` and column `e` of `yy2` (columns of `T` elements). -/
def dgemmAt (T : Nat) (yy yy2 : List K) (d e : Nat) : Option K :=
  loop T (fun t (s : K) => do
    let x ← yy[d * T + t]?
    let y ← yy2[e * T + t]?
    pure (s + x * y)) 0

/-- The call of `cblas_dgemm` in hmm/hmm.c:300-301, as a whole, ext/cblas/src/dgemm.c:300-322 (`'T', 'N'`, `beta` 0). -/
def dgemm (T L : Nat) (yy yy2 u : List K) : Option (List K) :=
  loop L (fun e (u : List K) => loop L (fun d (u : List K) => do
    let v ← dgemmAt T yy yy2 d e
    wr u (e * L + d) v) u) u

/-- Sum of column `i` of `gamma` over the first `T` rows, as in hmm/hmm.c:249-252. -/
def colSum (gamma : List (List K)) (T i : Nat) : Option K :=
  loop T (fun t (s : K) => do
    let g ← rd2 gamma t i
    pure (s + g)) 0

/-- The re-estimated transition probabilities, hmm/hmm.c:247-267: `sum_gamma` and `a`. -/
def reestA (N T : Nat) (a : List (List K)) (xi : List (List (List K))) (gamma : List (List K)) (sumGamma : List K) :
    Option (List K × List (List K)) := do
  let sumGamma ← loop N (fun i (sg : List K) => do
    let s ← colSum gamma (T - 1) i
    wr sg i s) sumGamma
  let a ← loop N (fun i (a : List (List K)) => loop N (fun j (a : List (List K)) => do
    let sg ← sumGamma[i]?
    if sg = 0 then wr2 a i j 0 else
      let s ← loop (T - 1) (fun t (s : K) => do
        let m ← xi[t]?
        let v ← rd2 m i j
        pure (s + v)) 0
      wr2 a i j (s / sg)) a) a
  pure (sumGamma, a)

/-- The re-estimated covariance, hmm/hmm.c:286-315. -/
def reestCov (N T L : Nat) (mu cov x gamma : List (List K)) (u yy yy2 : List K) : Option (List (List K)) := do
  let cov ← loop L (fun d (cov : List (List K)) => loop L (fun e (cov : List (List K)) => wr2 cov d e 0) cov) cov
  let (cov, _, _, _) ← loop N (fun j (st : List (List K) × List K × List K × List K) => do
    let (yy, yy2) ← loop L (fun d (p : List K × List K) => loop T (fun t (p : List K × List K) => do
      let xx ← rd2 x t d
      let m ← rd2 mu j d
      let g ← rd2 gamma t j
      let y ← wr p.1 (d * T + t) (xx - m)
      let y2 ← wr p.2 (d * T + t) (g * (xx - m))
      pure (y, y2)) p) (st.2.2.1, st.2.2.2)
    let u ← dgemm T L yy yy2 st.2.1
    let cov ← loop L (fun e (cov : List (List K)) => loop L (fun d (cov : List (List K)) => do
      let c ← rd2 cov d e
      let v ← u[e * L + d]?
      wr2 cov d e (c + v)) cov) st.1
    pure (cov, u, yy, yy2)) (cov, u, yy, yy2)
  loop L (fun d (cov : List (List K)) => loop L (fun e (cov : List (List K)) => do
    let c ← rd2 cov d e
    if T = 0 then none else wr2 cov d e (c / (T : K))) cov) cov

/-- The re-estimated means, hmm/hmm.c:319-327. A mean is `none` (NaN) if the state was never occupied, since then it is 0/0. -/
def reestMu (N T L : Nat) (mu x gamma : List (List K)) (sumGamma : List K) : Option (List (List (Option K))) :=
  loop N (fun j (mu : List (List (Option K))) => loop L (fun d (mu : List (List (Option K))) => do
    let s ← loop T (fun t (s : K) => do
      let g ← rd2 gamma t j
      let xx ← rd2 x t d
      pure (s + g * xx)) 0
    let sg ← sumGamma[j]?
    wr2 mu j d (if sg = 0 then none else some (s / sg))) mu) (mu.map (·.map some))

/-- `baum_welch`, hmm/hmm.c:234-333: `p0`, `a`, `mu` and `cov` afterwards. `sumGamma`, `u`, `yy`, `yy2` are the temporary arrays.
`sum_sum_gamma` (280-283) is not used by the C code. -/
def baumWelch (N T L : Nat) (p0 : List K) (a mu cov x : List (List K)) (xi : List (List (List K))) (gamma : List (List K))
    (sumGamma u yy yy2 : List K) : Option (List K × List (List K) × List (List (Option K)) × List (List K)) := do
  let (sumGamma, a) ← reestA N T a xi gamma sumGamma
  -- 270-272
  let sumGamma ← loop N (fun i (sg : List K) => do
    let s ← sg[i]?
    let g ← if T = 0 then none else rd2 gamma (T - 1) i
    wr sg i (s + g)) sumGamma
  -- 275-277
  let p0 ← loop N (fun i (p : List K) => do
    let g ← rd2 gamma 0 i
    wr p i g) p0
  let cov ← reestCov N T L mu cov x gamma u yy yy2
  let mu ← reestMu N T L mu x gamma sumGamma
  pure (p0, a, mu, cov)

/-- The recursion of `viterbi_decode`, hmm/hmm.c:492-517: `phi` and `psi`. `lg` is `log`, which is minus infinity at 0; minus infinity is
`⊥` and a sum with it is `⊥`. -/
def viterbiPass (lg : K → WithBot K) (N T : Nat) (p0 : List K) (a : List (List K)) (logb : List (List K))
    (phi : List (List (WithBot K))) (psi : List (List Nat)) : Option (List (List (WithBot K)) × List (List Nat)) := do
  let s ← loop N (fun i (st : List (List (WithBot K)) × List (List Nat)) => do
    let p ← p0[i]?
    let l ← rd2 logb 0 i
    let phi ← wr2 st.1 0 i (lg p + (l : WithBot K))
    let psi ← wr2 st.2 0 i 0
    pure (phi, psi)) (phi, psi)
  loop (T - 1) (fun k (st : List (List (WithBot K)) × List (List Nat)) =>
    loop N (fun j (st : List (List (WithBot K)) × List (List Nat)) => do
      let psi ← wr2 st.2 (k + 1) j 0
      let r ← loop N (fun i (r : (List (List (WithBot K)) × List (List Nat)) × (WithBot K × Bool)) => do
        let p ← rd2 r.1.1 k i
        let q ← rd2 a i j
        if p + lg q > r.2.1 ∨ r.2.2 = false then do
          let l ← rd2 logb (k + 1) j
          let phi ← wr2 r.1.1 (k + 1) j (p + lg q + (l : WithBot K))
          let psi ← wr2 r.1.2 (k + 1) j i
          pure ((phi, psi), (p + lg q, true))
        else pure r) ((st.1, psi), (((-1000000 : K) : WithBot K), false))
      pure r.1) st) s

/-- The end of `viterbi_decode`, hmm/hmm.c:519-534: the best last state, and the track back. Iteration `k` has `t = T - 2 - k`. -/
def viterbiPath (N T : Nat) (phi : List (List (WithBot K))) (psi : List (List Nat)) (q : List Nat) : Option (List Nat) := do
  if T = 0 then none else
    let m ← rd2 phi (T - 1) 0
    let q ← wr q (T - 1) 0
    let (_, q) ← loop (N - 1) (fun k (st : WithBot K × List Nat) => do
      let p ← rd2 phi (T - 1) (k + 1)
      if p > st.1 then do
        let q ← wr st.2 (T - 1) (k + 1)
        pure (p, q)
      else pure st) (m, q)
    loop (T - 1) (fun k (q : List Nat) => do
      let s ← q[T - 2 - k + 1]?
      let p ← rd2 psi (T - 2 - k + 1) s
      wr q (T - 2 - k) p) q

/-- `viterbi_decode`, hmm/hmm.c:454-553, from the observation log-probabilities `logb` on (which `loggauss` computes, 483-490). -/
def viterbi (lg : K → WithBot K) (N T : Nat) (p0 : List K) (a logb : List (List K)) (phi : List (List (WithBot K))) (psi : List (List Nat))
    (q : List Nat) : Option (List Nat) := do
  let (phi, psi) ← viterbiPass lg N T p0 a logb phi psi
  viterbiPath N T phi psi q

end Generic

/-- `log` on the reals, with `none` for the infinity or NaN that C returns for numbers that are not positive. -/
noncomputable def rlog (x : ℝ) : Option ℝ := if 0 < x then some (Real.log x) else none

/-- `log` with minus infinity at 0. -/
noncomputable def blog (x : ℝ) : WithBot ℝ := if x = 0 then ⊥ else (Real.log x : ℝ)

/-- One product of `ddot_`, ext/cblas/src/ddot.c:92. -/
def dotAt (x y : List ℝ) (i : Nat) (s : ℝ) : Option ℝ := do
  let a ← x[i]?
  let b ← y[i]?
  pure (s + a * b)

/-- `cblas_ddot(L, x, 1, y, 1)`, ext/cblas/src/ddot.c:49-109, unrolled by five. -/
def ddot (L : Nat) (x y : List ℝ) : Option ℝ :=
  if L = 0 then some 0
  else do
    let m := L % 5
    let s ← loop m (fun i s => dotAt x y i s) 0
    if m ≠ 0 ∧ L < 5 then some s
    else loop ((L - m) / 5) (fun k s => do
      let s ← dotAt x y (m + 5 * k) s
      let s ← dotAt x y (m + 5 * k + 1) s
      let s ← dotAt x y (m + 5 * k + 2) s
      let s ← dotAt x y (m + 5 * k + 3) s
      dotAt x y (m + 5 * k + 4) s) s

/-- The quadratic form in `gauss` and `loggauss`, hmm/hmm.c:617-627 and 638-648; `y` and `z` are the temporary arrays. -/
def quad (x : List ℝ) (L : Nat) (mu : List ℝ) (icov : List (List ℝ)) (y z : List ℝ) : Option ℝ := do
  let y ← loop L (fun i (y : List ℝ) => do
    let a ← x[i]?
    let b ← mu[i]?
    wr y i (a - b)) y
  let z ← loop L (fun i (z : List ℝ) => do
    let r ← icov[i]?
    let v ← ddot L r y
    wr z i v) z
  ddot L z y

/-- `loggauss`, hmm/hmm.c:633-653. -/
noncomputable def loggauss (x : List ℝ) (L : Nat) (mu : List ℝ) (icov : List (List ℝ)) (detcov : ℝ) (y z : List ℝ) : Option ℝ := do
  let s ← quad x L mu icov y z
  let l ← rlog detcov
  pure (-(1 / 2) * (s + (L : ℝ) * Real.log (2 * Real.pi) + l))

/-- `gauss`, hmm/hmm.c:614-630. A division by zero or square root of a negative number is `none`. -/
noncomputable def gauss (x : List ℝ) (L : Nat) (mu : List ℝ) (icov : List (List ℝ)) (detcov : ℝ) (y z : List ℝ) : Option ℝ := do
  let s ← quad x L mu icov y z
  if detcov ≤ 0 then none else
    pure (Real.exp (-s / 2) / ((2 * Real.pi) ^ ((L : ℝ) / 2) * Real.sqrt detcov))

/-- The random initial and transition probabilities of `hmm_init`, hmm/hmm.c:100-117. `r0 i` and `r i j` are the values of
`rand() / (double) RAND_MAX`. -/
noncomputable def initProbs (N : Nat) (r0 : Nat → ℝ) (r : Nat → Nat → ℝ) (p0 : List ℝ) (a : List (List ℝ)) : Option (List ℝ × List (List ℝ)) := do
  let ((p0, a), s) ← loop N (fun i (st : (List ℝ × List (List ℝ)) × ℝ) => do
    let p ← wr st.1.1 i (1 + r0 i)
    let (a, ss) ← loop N (fun j (st : List (List ℝ) × ℝ) => do
      let a ← wr2 st.1 i j (1 + r i j)
      pure (a, st.2 + (1 + r i j))) (st.1.2, 0)
    let a ← loop N (fun j (a : List (List ℝ)) => do
      let v ← rd2 a i j
      wr2 a i j (v / ss)) a
    pure ((p, a), st.2 + (1 + r0 i))) ((p0, a), 0)
  let p0 ← loop N (fun i (p : List ℝ) => do
    let v ← p[i]?
    wr p i (v / s)) p0
  pure (p0, a)

/-- The parameters of a model, hmm/hmm.h:26-33. -/
structure Params where
  p0 : List ℝ
  a : List (List ℝ)
  mu : List (List ℝ)
  cov : List (List ℝ)

/-- The arrays used in one iteration of training (in C they are allocated once and used again). -/
structure Work where
  gamma : List (List ℝ)
  xi : List (List (List ℝ))
  b : List (List ℝ)
  gy : List ℝ
  gz : List ℝ
  alpha : List (List ℝ)
  beta : List (List ℝ)
  c : List ℝ
  sg : List ℝ
  u : List ℝ
  yy : List ℝ
  yy2 : List ℝ

/-- The probabilities of the observations, hmm/hmm.c:191-195. -/
noncomputable def observations (N T L : Nat) (x mu icov : List (List ℝ)) (detcov : ℝ) (b : List (List ℝ)) (gy gz : List ℝ) : Option (List (List ℝ)) :=
  loop T (fun t (b : List (List ℝ)) => loop N (fun i (b : List (List ℝ)) => do
    let xt ← x[t]?
    let m ← mu[i]?
    let l ← loggauss xt L m icov detcov gy gz
    wr2 b t i (Real.exp l)) b) b

/-- A matrix without NaN. -/
def allSome (m : List (List (Option ℝ))) : Option (List (List ℝ)) := m.mapM (fun r => r.mapM id)

/-- The loop of `hmm_train`, hmm/hmm.c:183-207, for at most `fuel` more iterations. `inv` is `invert` (modelled in `Invert.lean`), which gives
the inverse of a matrix and the absolute value of its determinant. Iteration `iter` uses the arrays `work iter`. `loglik2` gets the first
term of the log-likelihood only, as in hmm/hmm.c:364-366. Where the C code meets an infinity or NaN the result is `none`. -/
noncomputable def trainLoop (inv : List (List ℝ) → List (List ℝ) × ℝ) (N T L : Nat) (x : List (List ℝ)) (work : Nat → Work) :
    Nat → Nat → ℝ → ℝ → ℝ → Params → Option Params
  | 0, _, _, _, _, m => some m
  | fuel + 1, iter, loglik, loglik1, loglik2, m =>
    open Classical in
    if iter > 1 ∧ loglik - loglik1 < 1 / 10000 * (loglik1 - loglik2) then some m else do
      let w := work (iter + 1)
      let b ← observations N T L x m.mu (inv m.cov).1 (inv m.cov).2 w.b w.gy w.gz
      let (xi, gamma, ll) ← forwardBackwards rlog N T m.p0 m.a b w.xi w.gamma w.alpha w.beta w.c
      let (_, _, l0) ← forward rlog N 1 m.p0 m.a b w.alpha w.c
      let (p0, a, mu, cov) ← baumWelch N T L m.p0 m.a m.mu m.cov x xi gamma w.sg w.u w.yy w.yy2
      let mu ← allSome mu
      trainLoop inv N T L x work fuel (iter + 1) ll loglik (if iter + 1 = 2 then l0 else loglik2) ⟨p0, a, mu, cov⟩

/-- `hmm_train`, hmm/hmm.c:143-232: at most 50 iterations. The three log-likelihoods are not initialised. -/
noncomputable def hmmTrain (inv : List (List ℝ) → List (List ℝ) × ℝ) (N T L : Nat) (x : List (List ℝ)) (work : Nat → Work)
    (loglik loglik1 loglik2 : ℝ) (m : Params) : Option Params := trainLoop inv N T L x work 50 0 loglik loglik1 loglik2 m

end QM.Hmm
