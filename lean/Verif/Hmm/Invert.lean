import Verif.Hmm.Model
import Verif.Common.Flat
import Verif.Lapack.Model

/-!
# `invert` of `hmm/hmm.c` on top of the bundled LAPACK
-/

namespace QM.Hmm

/-- The copy to column-major order, hmm/hmm.c:559-565. -/
noncomputable def toColumns (L : Nat) (cov : List (List ℝ)) (a : List ℝ) : Option (List ℝ) :=
  loop L (fun j (a : List ℝ) => loop L (fun i (a : List ℝ) => do
    let v ← rd2 cov i j
    wr a (j * L + i) v) a) a

/-- The product of the diagonal, hmm/hmm.c:579-582. -/
noncomputable def diagProd (L : Nat) (a : List ℝ) : Option ℝ :=
  loop L (fun i (det : ℝ) => do
    let v ← a[i * L + i]?
    pure (det * v)) 1

/-- The copy back, hmm/hmm.c:602-606. -/
noncomputable def fromColumns (L : Nat) (a : List ℝ) (icov : List (List ℝ)) : Option (List (List ℝ)) :=
  loop L (fun j (icov : List (List ℝ)) => loop L (fun i (icov : List (List ℝ)) => do
    let v ← a[j * L + i]?
    wr2 icov i j v) icov) icov

/-- `invert`, hmm/hmm.c:556-612, as compiled with the LAPACK of the repository. `a`, `ipiv` and `work` are the fresh arrays (the last of the size
that the query of lines 591-597 asks for), `icov` is the caller's. The return value of `dgetrf_` is always 0 and is assigned to `ret` after `info`
was stored there, so that the test of `ret` in line 573 never succeeds. `sfmin` is the smallest safe number, of which nothing is assumed. -/
noncomputable def invert (sfmin : ℝ) (L : Nat) (cov icov : List (List ℝ)) (a : List ℝ) (ipiv : List Nat) (work : List ℝ) :
    Option (List (List ℝ) × ℝ) := do
  let a ← toColumns L cov a
  let f ← Lapack.dgetrf Lapack.blockSize sfmin L L L a ipiv
  let det ← diagProd L f.a
  let det := if det < 0 then -det else det
  let r ← Lapack.dgetri Lapack.blockSize Lapack.blockSize L L (Lapack.workSize Lapack.blockSize L) f.a f.piv work
  let icov ← fromColumns L r.1 icov
  pure (icov, det)

end QM.Hmm
