import Verif.Lapack.Blas

/-!
# The bundled LAPACK routines (`ext/clapack`): LU factors and inverse of a matrix

The same conventions as for the BLAS routines. The block size that `ilaenv_` chooses is a parameter of the routines and is filled in at the end.
`work` is the array of the caller.
-/

namespace QM.Lapack

variable {K : Type} [Field K] [LinearOrder K]

/-- Matrix, pivots (row numbers counted from 1) and `*info`. -/
structure Lu (K : Type) where
  a : List K
  piv : List Nat
  info : Nat

/-- The multipliers of one column, ext/clapack/src/dgetf2.c:157-171. `sfmin` is the machine's safe minimum. -/
def scaleColumn (sfmin : K) (a : List K) (m o lda j : Nat) : Option (List K) := do
  if j + 1 < m then
    let d ← a[o + j + j * lda]?
    if sfmin ≤ |d| then
      let r ← dv 1 d
      dscal a (m - (j + 1)) r (o + (j + 1) + j * lda)
    else loop (m - (j + 1)) (fun i a => do
      let x ← a[o + (j + 1 + i) + j * lda]?
      let d ← a[o + j + j * lda]?
      let q ← dv x d
      wr a (o + (j + 1 + i) + j * lda) q) a
  else some a

/-- The exchange of rows `j` and `jp` (the latter counted from 1), ext/clapack/src/dgetf2.c:150-153. -/
def exchange (a : List K) (n o lda j jp : Nat) : Option (List K) :=
  if jp ≠ j + 1 then dswap a n (o + j) lda (o + (jp - 1)) lda else some a

/-- Exchange and multipliers for the pivot `p` in row `jp` (counted from 1) unless it is zero, ext/clapack/src/dgetf2.c:146-171. -/
def pivotColumn (sfmin : K) (a : List K) (m n o lda j jp : Nat) (p : K) : Option (List K) :=
  if p ≠ 0 then do
    let a ← exchange a n o lda j jp
    scaleColumn sfmin a m o lda j
  else some a

/-- The update of the trailing submatrix, ext/clapack/src/dgetf2.c:178-185. -/
def updateRest (a : List K) (m n o lda j : Nat) : Option (List K) :=
  if j + 1 < min m n then
    dger a (m - (j + 1)) (n - (j + 1)) (-1) (o + (j + 1) + j * lda) (o + j + (j + 1) * lda) lda (o + (j + 1) + (j + 1) * lda) lda
  else some a

/-- Column `j` of `dgetf2_`, ext/clapack/src/dgetf2.c:139-187. -/
def getf2Step (sfmin : K) (m n o lda po j : Nat) (s : Lu K) : Option (Lu K) := do
  let r ← idamax s.a (o + j + j * lda) (m - j)
  let jp := j + r
  let piv ← wr s.piv (po + j) jp
  let p ← s.a[o + (jp - 1) + j * lda]?
  let a ← pivotColumn sfmin s.a m n o lda j jp p
  let a ← updateRest a m n o lda j
  pure ⟨a, piv, if p = 0 ∧ s.info = 0 then j + 1 else s.info⟩

/-- `dgetf2_`, ext/clapack/src/dgetf2.c:116-193, on the `m` by `n` matrix at offset `o`, with pivots at offset `po`. -/
def dgetf2 (sfmin : K) (m n o lda po : Nat) (a : List K) (piv : List Nat) : Option (Lu K) :=
  loop (min m n) (fun j s => getf2Step sfmin m n o lda po j s) ⟨a, piv, 0⟩

/-- The exchanges of rows `k1` to `k2 - 1` in `n` columns at offset `o`, ext/clapack/src/dlaswp.c:117-134, 140-155. -/
def swapRows (a : List K) (n o lda k1 k2 : Nat) (piv : List Nat) : Option (List K) :=
  loop (k2 - k1) (fun i a => do
    let ip ← piv[k1 + i]?
    if ip ≠ k1 + i + 1 then loop n (fun k a => swapAt a (o + (k1 + i) + k * lda) (o + (ip - 1) + k * lda)) a else some a) a

/-- `dlaswp_` with increment 1, ext/clapack/src/dlaswp.c:93-158: 32 columns at a time, then the rest. -/
def dlaswp (a : List K) (n o lda k1 k2 : Nat) (piv : List Nat) : Option (List K) := do
  let a ← loop (n / 32) (fun b a => swapRows a 32 (o + 32 * b * lda) lda k1 k2 piv) a
  if n / 32 * 32 ≠ n then swapRows a (n - n / 32 * 32) (o + n / 32 * 32 * lda) lda k1 k2 piv else some a

/-- Block column of U and update of the rest, ext/clapack/src/dgetrf.c:188-210. -/
def updateRight (a : List K) (m n lda j jb : Nat) (piv : List Nat) : Option (List K) := do
  if j + jb < n then
    let a ← dlaswp a (n - j - jb) ((j + jb) * lda) lda j (j + jb) piv
    let a ← dtrsmLeft a jb (n - j - jb) (j + j * lda) lda (j + (j + jb) * lda)
    if j + jb < m then
      dgemm (fun a k => a[j + (j + jb) * lda + k]?) a (m - j - jb) (n - j - jb) jb (-1) (j + jb + j * lda) lda lda (j + jb + (j + jb) * lda) lda
    else some a
  else some a

/-- One block of `dgetrf_`, ext/clapack/src/dgetrf.c:157-212. -/
def getrfStep (sfmin : K) (nb m n lda : Nat) (b : Nat) (s : Lu K) : Option (Lu K) := do
  let j := b * nb
  let jb := min (min m n - j) nb
  let f ← dgetf2 sfmin (m - j) jb (j + j * lda) lda j s.a s.piv
  let piv ← loop (min m (j + jb) - j) (fun i (piv : List Nat) => do
    let p ← piv[j + i]?
    wr piv (j + i) (j + p)) f.piv
  let a ← dlaswp f.a j 0 lda j (j + jb) piv
  let a ← updateRight a m n lda j jb piv
  pure ⟨a, piv, if s.info = 0 ∧ 0 < f.info then f.info + j else s.info⟩

/-- `dgetrf_`, ext/clapack/src/dgetrf.c:120-219. -/
def dgetrf (nb : Nat) (sfmin : K) (m n lda : Nat) (a : List K) (piv : List Nat) : Option (Lu K) :=
  if nb ≤ 1 ∨ min m n ≤ nb then dgetf2 sfmin m n 0 lda 0 a piv
  else loop ((min m n + nb - 1) / nb) (fun b s => getrfStep sfmin nb m n lda b s) ⟨a, piv, 0⟩

/-- `dtrti2_` with `"Upper", "Non-unit"`, ext/clapack/src/dtrti2.c:113-155, on the matrix at offset `o`. -/
def dtrti2 (n o lda : Nat) (a : List K) : Option (List K) :=
  loop n (fun j a => do
    let d ← a[o + j + j * lda]?
    let r ← dv 1 d
    let a ← wr a (o + j + j * lda) r
    let d ← a[o + j + j * lda]?
    let a ← dtrmv a j o lda (o + j * lda)
    dscal a j (-d) (o + j * lda)) a

/-- The search for a zero on the diagonal, ext/clapack/src/dtrtri.c:154-163: its number counted from 1, or 0. -/
def zeroDiag (n lda : Nat) (a : List K) : Option Nat :=
  loop n (fun i (info : Nat) => if info ≠ 0 then some info else do
    let d ← a[i + i * lda]?
    pure (if d = 0 then i + 1 else 0)) 0

/-- One block of `dtrtri_`, ext/clapack/src/dtrtri.c:187-205. -/
def trtriStep (nb n lda b : Nat) (a : List K) : Option (List K) := do
  let j := b * nb
  let jb := min nb (n - j)
  let a ← dtrmm a j jb 0 lda (j * lda)
  let a ← dtrsmRightUpper a j jb (-1) (j + j * lda) lda (j * lda)
  dtrti2 jb (j + j * lda) lda a

/-- The inverse of the upper triangle, ext/clapack/src/dtrtri.c:167-206. -/
def invertUpper (nb n lda : Nat) (a : List K) : Option (List K) :=
  if nb ≤ 1 ∨ n ≤ nb then dtrti2 n 0 lda a else loop ((n + nb - 1) / nb) (fun b a => trtriStep nb n lda b a) a

/-- `dtrtri_` with `"Upper", "Non-unit"`, ext/clapack/src/dtrtri.c:126-242: the array and `*info`. -/
def dtrtri (nb n lda : Nat) (a : List K) : Option (List K × Nat) := do
  let info ← zeroDiag n lda a
  if info ≠ 0 then some (a, info)
  else
    let a ← invertUpper nb n lda a
    pure (a, 0)

/-- Matrix and work array. -/
structure Wk (K : Type) where
  a : List K
  work : List K

/-- Column `c` of L goes to `work` at offset `w` and is replaced by zeros, ext/clapack/src/dgetri.c:190-195, 221-226. -/
def takeColumn (n lda w c : Nat) (s : Wk K) : Option (Wk K) :=
  loop (n - (c + 1)) (fun i (s : Wk K) => do
    let x ← s.a[c + 1 + i + c * lda]?
    let work ← wr s.work (w + (c + 1 + i)) x
    let a ← wr s.a (c + 1 + i + c * lda) 0
    pure ⟨a, work⟩) s

/-- The product of columns `j + 1`, … with the saved column, ext/clapack/src/dgetri.c:199-204. -/
def minusColumns (n lda j : Nat) (s : Wk K) : Option (List K) :=
  if j + 1 < n then dgemv (fun k => s.work[j + 1 + k]?) s.a n (n - (j + 1)) (-1) ((j + 1) * lda) lda (j * lda) else some s.a

/-- The same for a block, ext/clapack/src/dgetri.c:232-237. -/
def minusBlocks (n lda j jb : Nat) (s : Wk K) : Option (List K) :=
  if j + jb < n then dgemm (fun _ k => s.work[j + jb + k]?) s.a n jb (n - j - jb) (-1) ((j + jb) * lda) lda n (j * lda) lda else some s.a

/-- Column `j` of `dgetri_` without blocks, ext/clapack/src/dgetri.c:184-206. -/
def getriColumn (n lda j : Nat) (s : Wk K) : Option (Wk K) := do
  let s ← takeColumn n lda 0 j s
  let a ← minusColumns n lda j s
  pure ⟨a, s.work⟩

/-- One block of `dgetri_`, ext/clapack/src/dgetri.c:213-243. -/
def getriBlock (nb n lda j : Nat) (s : Wk K) : Option (Wk K) := do
  let jb := min nb (n - j)
  let s ← loop jb (fun c s => takeColumn n lda (c * n) (j + c) s) s
  let a ← minusBlocks n lda j jb s
  let a ← dtrsmRightLower (fun k => s.work[j + k]?) a n jb n (j * lda) lda
  pure ⟨a, s.work⟩

/-- The exchanges of columns, ext/clapack/src/dgetri.c:249-255. -/
def swapColumns (n lda : Nat) (piv : List Nat) (a : List K) : Option (List K) :=
  loop (n - 1) (fun k a => do
    let j := n - 2 - k
    let jp ← piv[j]?
    if jp ≠ j + 1 then dswap a n (j * lda) 1 ((jp - 1) * lda) 1 else some a) a

/-- The factor L, ext/clapack/src/dgetri.c:165-246. `lwork` is the size of the work array; `nbmin` is 2 as `ilaenv_` gives 2 for it. -/
def solveL (nb n lda lwork : Nat) (s : Wk K) : Option (Wk K) :=
  let nb := if 1 < nb ∧ nb < n ∧ lwork < max (n * nb) 1 then lwork / n else nb
  if nb < 2 ∨ n ≤ nb then loop n (fun k s => getriColumn n lda (n - 1 - k) s) s
  else loop ((n - 1) / nb + 1) (fun k s => getriBlock nb n lda ((n - 1) / nb * nb - k * nb) s) s

/-- `dgetri_` for `n` not 0 and `*lwork` not -1, ext/clapack/src/dgetri.c:131-264: matrix and `*info`. `nbt` is the block size of `dtrtri_`.
The size that is stored in `work[0]` at the end, where the first store has been, is left out. -/
def dgetri (nb nbt n lda lwork : Nat) (a : List K) (piv : List Nat) (work : List K) : Option (List K × Nat) := do
  let work ← wr work 0 ((n * nb : Nat) : K)
  let t ← dtrtri nbt n lda a
  if 0 < t.2 then some t
  else
    let s ← solveL nb n lda lwork ⟨t.1, work⟩
    let a ← swapColumns n lda piv s.a
    pure (a, 0)

/-- The query for the size of the work array (`*lwork` is -1), ext/clapack/src/dgetri.c:133-149. -/
def workSize (nb n : Nat) : Nat := n * nb

/-- The block size that `ilaenv_` gives for `DGETRF`, `DGETRI` and `DTRTRI`, ext/clapack/src/ilaenv.c:253-287, 388-395. -/
def blockSize : Nat := 64

end QM.Lapack
