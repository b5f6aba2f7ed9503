import Verif.Common.Mat
import Mathlib.Algebra.Field.Basic

/-!
# Model of `covcol` in `maths/pca/pca.c`

`none` is an access outside an array or a division by zero.
-/

namespace QM.Pca

variable {K : Type} [Field K]

/-- `covcol`, maths/pca/pca.c:33-88. `data` has `n` rows of `m` values; the results are the data matrix and `symmat` afterwards.
`mean` is the temporary array, with whatever contents `malloc` gave it. `n = 0` divides zero by zero. -/
def covcol (data : List (List K)) (n m : Nat) (symmat : List (List K)) (mean : List K) : Option (List (List K) × List (List K)) := do
  -- 43-52
  let mean ← loop m (fun j (mean : List K) => do
    let mean ← wr mean j 0
    let mean ← loop n (fun i (mean : List K) => do
      let s ← mean[j]?
      let x ← rd2 data i j
      wr mean j (s + x)) mean
    let s ← mean[j]?
    if n = 0 then none else wr mean j (s / (n : K))) mean
  -- 62-68
  let data ← loop n (fun i (data : List (List K)) => loop m (fun j (data : List (List K)) => do
    let x ← rd2 data i j
    let s ← mean[j]?
    wr2 data i j (x - s)) data) data
  -- 71-82, with `j2 = j1 + t`
  let symmat ← loop m (fun j1 (sym : List (List K)) => loop (m - j1) (fun t (sym : List (List K)) => do
    let sym ← wr2 sym j1 (j1 + t) 0
    let sym ← loop n (fun i (sym : List (List K)) => do
      let s ← rd2 sym j1 (j1 + t)
      let a ← rd2 data i j1
      let b ← rd2 data i (j1 + t)
      wr2 sym j1 (j1 + t) (s + a * b)) sym
    let s ← rd2 sym j1 (j1 + t)
    wr2 sym (j1 + t) j1 s) sym) symmat
  pure (data, symmat)

end QM.Pca
