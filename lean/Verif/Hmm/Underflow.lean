import Verif.Common.Ext
import Mathlib.Analysis.SpecialFunctions.Pow.Real
import Mathlib.Analysis.SpecialFunctions.Trigonometric.Basic

/-!
# `hmm_train` and `viterbi_decode` with infinities and NaN

The model in `Verif/Hmm/Model.lean` stops where the C code divides by zero. Here it goes on, with the infinities and NaN of IEEE 754. Finite results are
exact, except those of `exp`, which is a parameter `ex`, so that it may underflow to zero. Arrays are functions of their indices: bounds are the subject of
the other model, and each element is computed from elements computed before.
-/

namespace QM.Hmm.Under

open Ext

/-- The parameters of a model, hmm/hmm.h:26-33. -/
structure Params where
  p0 : Nat → Ext
  a : Nat → Nat → Ext
  mu : Nat → Nat → Ext
  cov : Nat → Nat → Ext

section
variable (N T : Nat) (p0 : Nat → Ext) (a b : Nat → Nat → Ext)

/-- Row `t` of `alpha` before scaling, hmm/hmm.c:353 and 374-378. -/
noncomputable def rawRow : Nat → Nat → Ext
  | 0 => fun i => p0 i * b 0 i
  | t + 1 => fun j => total N (fun i => rawRow t i * (1 / total N (rawRow t)) * a i j) * b (t + 1) j

/-- `c[t]`, hmm/hmm.c:356 and 383. -/
noncomputable def c (t : Nat) : Ext := 1 / total N (rawRow N p0 a b t)

/-- `alpha[t][i]`, hmm/hmm.c:358 and 385. -/
noncomputable def alpha (t i : Nat) : Ext := rawRow N p0 a b t i * c N p0 a b t

/-- `*loglik` after frame `t`, hmm/hmm.c:362 and 388. -/
noncomputable def loglik : Nat → Ext
  | 0 => -log (c N p0 a b 0)
  | t + 1 => loglik t - log (c N p0 a b (t + 1))

/-- `beta[T - 1 - k][i]`, hmm/hmm.c:394-417. -/
noncomputable def back : Nat → Nat → Ext
  | 0 => fun _ => 1 * c N p0 a b (T - 1)
  | k + 1 => fun i => total N (fun j => a i j * b (T - 1 - k) j * back k j) * c N p0 a b (T - 1 - (k + 1))

/-- `beta[t][i]`. -/
noncomputable def beta (t i : Nat) : Ext := back N T p0 a b (T - 1 - t) i

/-- `gamma[t][i]`, hmm/hmm.c:420-430. -/
noncomputable def gamma (t i : Nat) : Ext :=
  alpha N p0 a b t i * beta N T p0 a b t i / total N (fun i => alpha N p0 a b t i * beta N T p0 a b t i)

/-- `xi[t][i][j]` before scaling, hmm/hmm.c:436. -/
noncomputable def joint (t i j : Nat) : Ext := alpha N p0 a b t i * a i j * b (t + 1) j * beta N T p0 a b (t + 1) j

/-- `xi[t][i][j]`, hmm/hmm.c:432-445. `tot` is added up over both indices. -/
noncomputable def xi (t i j : Nat) : Ext := joint N T p0 a b t i j / total (N * N) (fun k => joint N T p0 a b t (k / N) (k % N))

end

/-- `baum_welch`, hmm/hmm.c:234-333. -/
noncomputable def baumWelch (N T : Nat) (x : Nat → Nat → ℝ) (mu : Nat → Nat → Ext) (g : Nat → Nat → Ext) (xi : Nat → Nat → Nat → Ext) : Params where
  p0 := fun i => g 0 i
  a := fun i j => if total (T - 1) (fun t => g t i) = 0 then 0 else total (T - 1) (fun t => xi t i j) / total (T - 1) (fun t => g t i)
  mu := fun j d => total T (fun t => g t j * fin (x t d)) / (total (T - 1) (fun t => g t j) + g (T - 1) j)
  cov := fun d e => total N (fun j => total T (fun t => (fin (x t d) - mu j d) * (g t j * (fin (x t e) - mu j e)))) / fin T

/-- `loggauss`, hmm/hmm.c:633-653. -/
noncomputable def loggauss (L : Nat) (x : Nat → ℝ) (mu : Nat → Ext) (icov : Nat → Nat → Ext) (det : Ext) : Ext :=
  fin (-1 / 2) * (total L (fun i => total L (fun k => icov i k * (fin (x k) - mu k)) * (fin (x i) - mu i)) + fin (L * Real.log (2 * Real.pi)) + log det)

/-- What training and decoding call: `exp` and `invert`. -/
structure Lib where
  ex : ℝ → ℝ
  inv : (Nat → Nat → Ext) → (Nat → Nat → Ext) × Ext

/-- `b[t][i]`, hmm/hmm.c:189-195. -/
noncomputable def density (lib : Lib) (L : Nat) (x : Nat → Nat → ℝ) (m : Params) (t i : Nat) : Ext :=
  exp lib.ex (loggauss L (x t) (m.mu i) (lib.inv m.cov).1 (lib.inv m.cov).2)

/-- The loop of `hmm_train`, hmm/hmm.c:183-207, for at most `fuel` more iterations; `ll`, `ll1`, `ll2` are `loglik`, `loglik1` and `loglik2`. -/
noncomputable def trainLoop (lib : Lib) (N T L : Nat) (x : Nat → Nat → ℝ) : Nat → Nat → Ext → Ext → Ext → Params → Params
  | 0, _, _, _, _, m => m
  | fuel + 1, iter, ll, ll1, ll2, m =>
    if iter > 1 ∧ lt (ll - ll1) (fin (1 / 10000) * (ll1 - ll2)) then m
    else
      let b := density lib L x m
      let l := loglik N m.p0 m.a b (T - 1)
      if l = nan then m
      else trainLoop lib N T L x fuel (iter + 1) l ll (if iter + 1 = 2 then loglik N m.p0 m.a b 0 else ll2)
        (baumWelch N T x m.mu (gamma N T m.p0 m.a b) (xi N T m.p0 m.a b))

/-- `hmm_train`, hmm/hmm.c:143-232: at most 50 iterations. The three log-likelihoods are not initialised. -/
noncomputable def train (lib : Lib) (N T L : Nat) (x : Nat → Nat → ℝ) (ll ll1 ll2 : Ext) (m : Params) : Params :=
  trainLoop lib N T L x 50 0 ll ll1 ll2 m

/-- `-1000000` or the greatest of the first `n` values of `f` so far, whether there is one, and its index, hmm/hmm.c:500-514. -/
noncomputable def best (f : Nat → Ext) : Nat → Ext × Bool × Nat
  | 0 => (fin (-1000000), false, 0)
  | i + 1 =>
    let s := best f i
    if lt s.1 (f i) ∨ s.2.1 = false then (f i, true, i) else s

/-- `phi[t][j]` of `viterbi_decode`, hmm/hmm.c:493-514 (with at least one state). -/
noncomputable def phi (N : Nat) (p0 : Nat → Ext) (a logb : Nat → Nat → Ext) : Nat → Nat → Ext
  | 0 => fun i => log (p0 i) + logb 0 i
  | t + 1 => fun j => (best (fun i => phi N p0 a logb t i + log (a i j)) N).1 + logb (t + 1) j

/-- `psi[t][j]`, hmm/hmm.c:495 and 503-511. -/
noncomputable def psi (N : Nat) (p0 : Nat → Ext) (a logb : Nat → Nat → Ext) : Nat → Nat → Nat
  | 0 => fun _ => 0
  | t + 1 => fun j => (best (fun i => phi N p0 a logb t i + log (a i j)) N).2.2

/-- The best last state, hmm/hmm.c:517-525: after looking at states `1` to `n`. -/
noncomputable def lastState (f : Nat → Ext) : Nat → Ext × Nat
  | 0 => (f 0, 0)
  | i + 1 =>
    let s := lastState f i
    if lt s.1 (f (i + 1)) then (f (i + 1), i + 1) else s

/-- `q[T - 1 - k]`, hmm/hmm.c:517-533. -/
noncomputable def path (N T : Nat) (p0 : Nat → Ext) (a logb : Nat → Nat → Ext) : Nat → Nat
  | 0 => (lastState (phi N p0 a logb (T - 1)) (N - 1)).2
  | k + 1 => psi N p0 a logb (T - 1 - k) (path N T p0 a logb k)

/-- `viterbi_decode`, hmm/hmm.c:454-553: the state of frame `t`. -/
noncomputable def decode (lib : Lib) (N T L : Nat) (x : Nat → Nat → ℝ) (m : Params) (t : Nat) : Nat :=
  path N T m.p0 m.a (fun t i => loggauss L (x t) (m.mu i) (lib.inv m.cov).1 (lib.inv m.cov).2) (T - 1 - t)

/-- A model of numbers. -/
def embed (p0 : Nat → ℝ) (a mu cov : Nat → Nat → ℝ) : Params :=
  ⟨fun i => fin (p0 i), fun i j => fin (a i j), fun i d => fin (mu i d), fun d e => fin (cov d e)⟩

end QM.Hmm.Under
