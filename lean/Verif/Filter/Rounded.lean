import Verif.Filter.Props
import Verif.Common.DoubleSum

/-!
# Model of `Filter` in double precision

`Verif.Filter.Model` with a rounding `fl` after every operation. The coefficients are the doubles handed to the constructor.
-/

namespace QM.Filter.Rounded

open QM QM.Filter QM.Double

variable (fl : ℝ → ℝ)

/-- `for (i = 0; i < n; ++i) sum += c[i + coff] * buf[i + off]`, dsp/signalconditioning/Filter.cpp:95-98 and 108-111. -/
noncomputable def dot (c buf : List ℝ) (coff off n : Nat) : Option ℝ :=
  loop n (fun i sum => do
    let x ← c[i + coff]?
    let y ← buf[i + off]?
    some (fl (sum + fl (x * y)))) 0

/-- One iteration of `Filter::process`, dsp/signalconditioning/Filter.cpp:83-125. -/
noncomputable def step (s : State ℝ) (x : ℝ) : Option (State ℝ × ℝ) := do
  let (bufb, offb) ← makeRoom (s.sz - 1) s.bufb s.offb
  let bufb ← wr bufb offb x
  let b_sum ← dot fl s.b bufb 0 offb s.sz
  if s.fir then
    some ({ s with bufb := bufb, offb := offb }, b_sum)
  else
    let a_sum ← dot fl s.a s.bufa 1 s.offa (s.sz - 1)
    let outval := fl (b_sum - a_sum)
    let (bufa, offa) ← makeRoom (s.sz - 1 - 1) s.bufa s.offa
    let bufa ← wr bufa offa outval
    some ({ s with bufb := bufb, offb := offb, bufa := bufa, offa := offa }, outval)

/-- `Filter::process`, dsp/signalconditioning/Filter.cpp:78-126. -/
noncomputable def process (s : State ℝ) : List ℝ → Option (State ℝ × List ℝ)
  | [] => some (s, [])
  | x :: xs => do
    let (s, y) ← step fl s x
    let (s, ys) ← process s xs
    some (s, y :: ys)

/-- Performing calls; the outputs of the `process` calls are collected, one block per call. -/
noncomputable def run (s : State ℝ) : List (Op ℝ) → Option (State ℝ × List (List ℝ))
  | [] => some (s, [])
  | .process blk :: ops => do
    let (s, out) ← process fl s blk
    let (s, outs) ← run s ops
    some (s, out :: outs)
  | .reset :: ops => run (reset s) ops

/-- The difference equation evaluated in double precision, from the newest sample to the oldest. -/
def DiffEqR (b a x y : List ℝ) : Prop :=
  y.length = x.length ∧
  ∀ n, n < x.length →
    y.getD n 0 = if a = [] then flSum fl (fun i => fl (b.getD i 0 * delayed x n i)) b.length
      else fl (flSum fl (fun i => fl (b.getD i 0 * delayed x n i)) b.length - flSum fl (fun i => fl (a.getD (i + 1) 0 * delayed y n (i + 1))) (a.length - 1))

end QM.Filter.Rounded
