import Verif.Common.Loop
import Mathlib.Algebra.Field.Defs
import Mathlib.Algebra.Order.Group.Unbundled.Abs

/-!
# The bundled BLAS routines (`ext/cblas`) that inversion of a matrix uses

An array is a list, a pointer into it an offset; all accesses are checked. C code counts from 1 after shifting its pointers; the model counts
from 0, except for pivots, which are values the caller sees. Arguments that point into the same array (as all calls in `ext/clapack` have
them) are offsets into one list; `rd` of the routines below reads the argument that in some of the calls lies in another array. Only the
variants that are called are modelled (`TRANS = 'N'`, increments as stated). The tests for illegal arguments, which do not occur, are left
out. Doubles are elements of an ordered field.
-/

namespace QM.Lapack

variable {K : Type} [Field K] [LinearOrder K]

/-- Division, a distinct outcome for a zero divisor. -/
def dv (x y : K) : Option K := if y = 0 then none else some (x / y)

/-- `idamax_` with increment 1, ext/cblas/src/idamax.c:47-93: the index, counted from 1, of the first element of largest absolute value. -/
def idamax (a : List K) (o n : Nat) : Option Nat :=
  if n < 1 then some 0
  else if n = 1 then some 1
  else do
    let x ← a[o]?
    let s ← loop (n - 1) (fun k (s : Nat × K) => do
      let v ← a[o + (k + 1)]?
      pure (if |v| ≤ s.2 then s else (k + 2, |v|))) (1, |x|)
    pure s.1

/-- One exchange, ext/cblas/src/dswap.c:67-69. -/
def swapAt (a : List K) (p q : Nat) : Option (List K) := do
  let dtemp ← a[p]?
  let y ← a[q]?
  let a ← wr a p y
  wr a q dtemp

/-- `dswap_`, ext/cblas/src/dswap.c:48-114, unrolled by three when both increments are 1. -/
def dswap (a : List K) (n xo incx yo incy : Nat) : Option (List K) :=
  if n = 0 then some a
  else if incx = 1 ∧ incy = 1 then do
    let m := n % 3
    let a ← if m = 0 then some a else loop m (fun i a => swapAt a (xo + i) (yo + i)) a
    if m ≠ 0 ∧ n < 3 then some a
    else loop ((n - m) / 3) (fun k a => do
      let a ← swapAt a (xo + (m + 3 * k)) (yo + (m + 3 * k))
      let a ← swapAt a (xo + (m + 3 * k + 1)) (yo + (m + 3 * k + 1))
      swapAt a (xo + (m + 3 * k + 2)) (yo + (m + 3 * k + 2))) a
  else loop n (fun i a => swapAt a (xo + i * incx) (yo + i * incy)) a

/-- One product, ext/cblas/src/dscal.c:75. -/
def scaleAt (a : List K) (da : K) (p : Nat) : Option (List K) := do
  let x ← a[p]?
  wr a p (da * x)

/-- `dscal_` with increment 1, ext/cblas/src/dscal.c:47-96, unrolled by five. -/
def dscal (a : List K) (n : Nat) (da : K) (xo : Nat) : Option (List K) :=
  if n = 0 then some a
  else do
    let m := n % 5
    let a ← if m = 0 then some a else loop m (fun i a => scaleAt a da (xo + i)) a
    if m ≠ 0 ∧ n < 5 then some a
    else loop ((n - m) / 5) (fun k a => do
      let a ← scaleAt a da (xo + (m + 5 * k))
      let a ← scaleAt a da (xo + (m + 5 * k + 1))
      let a ← scaleAt a da (xo + (m + 5 * k + 2))
      let a ← scaleAt a da (xo + (m + 5 * k + 3))
      scaleAt a da (xo + (m + 5 * k + 4))) a

/-- `a[y] += a[x] * t`, as in ext/cblas/src/dger.c:158. -/
def addAt (a : List K) (y x : Nat) (t : K) : Option (List K) := do
  let u ← a[y]?
  let v ← a[x]?
  wr a y (u + v * t)

/-- `a[y] -= a[x] * t`, as in ext/cblas/src/dtrsm.c:284. -/
def subAt (a : List K) (y x : Nat) (t : K) : Option (List K) := do
  let u ← a[y]?
  let v ← a[x]?
  wr a y (u - v * t)

/-- `dger_` with `incx` 1, ext/cblas/src/dger.c:121-164: `A := alpha x y' + A`. -/
def dger (a : List K) (m n : Nat) (alpha : K) (xo yo incy ao lda : Nat) : Option (List K) :=
  if m = 0 ∨ n = 0 ∨ alpha = 0 then some a
  else loop n (fun j a => do
    let y ← a[yo + j * incy]?
    if y ≠ 0 then loop m (fun i a => addAt a (ao + i + j * lda) (xo + i) (alpha * y)) a else some a) a

/-- `dgemv_` with `'N'`, `beta` 1 and increments 1, ext/cblas/src/dgemv.c:146-258: `y := alpha A x + y`; `rd` reads `x`. -/
def dgemv (rd : Nat → Option K) (a : List K) (m n : Nat) (alpha : K) (ao lda yo : Nat) : Option (List K) :=
  if m = 0 ∨ n = 0 ∨ alpha = 0 then some a
  else loop n (fun j a => do
    let x ← rd j
    if x ≠ 0 then loop m (fun i a => addAt a (yo + i) (ao + i + j * lda) (alpha * x)) a else some a) a

/-- `dtrmv_` with `"Upper", "No transpose", "Non-unit"` and increment 1, ext/cblas/src/dtrmv.c:144-208: `x := A x`. -/
def dtrmv (a : List K) (n ao lda xo : Nat) : Option (List K) :=
  loop n (fun j a => do
    let temp ← a[xo + j]?
    if temp ≠ 0 then do
      let a ← loop j (fun i a => addAt a (xo + i) (ao + i + j * lda) temp) a
      let x ← a[xo + j]?
      let d ← a[ao + j + j * lda]?
      wr a (xo + j) (x * d)
    else some a) a

/-- `dtrmm_` with `"Left", "Upper", "No transpose", "Non-unit"` and `alpha` 1, ext/cblas/src/dtrmm.c:233-261: `B := A B`. -/
def dtrmm (a : List K) (m n ao lda bo : Nat) : Option (List K) :=
  loop n (fun j a => loop m (fun k a => do
    let temp ← a[bo + k + j * lda]?
    if temp ≠ 0 then do
      let a ← loop k (fun i a => addAt a (bo + i + j * lda) (ao + i + k * lda) temp) a
      let d ← a[ao + k + k * lda]?
      wr a (bo + k + j * lda) (temp * d)
    else some a) a) a

/-- `dtrsm_` with `"Left", "Lower", "No transpose", "Unit"` and `alpha` 1, ext/cblas/src/dtrsm.c:267-293: `B := inv(A) B`. -/
def dtrsmLeft (a : List K) (m n ao lda bo : Nat) : Option (List K) :=
  loop n (fun j a => loop m (fun k a => do
    let b ← a[bo + k + j * lda]?
    if b ≠ 0 then loop (m - (k + 1)) (fun i a => do
      let b ← a[bo + k + j * lda]?
      subAt a (bo + (k + 1 + i) + j * lda) (ao + (k + 1 + i) + k * lda) b) a
    else some a) a) a

/-- The factor `alpha`, ext/cblas/src/dtrsm.c:345-352. -/
def scaleB (a : List K) (m : Nat) (alpha : K) (lda bo j : Nat) : Option (List K) :=
  if alpha ≠ 1 then loop m (fun i a => scaleAt a alpha (bo + i + j * lda)) a else some a

/-- `dtrsm_` with `"Right", "Upper", "No transpose", "Non-unit"`, ext/cblas/src/dtrsm.c:340-372: `B := alpha B inv(A)`. -/
def dtrsmRightUpper (a : List K) (m n : Nat) (alpha : K) (ao lda bo : Nat) : Option (List K) :=
  loop n (fun j a => do
    let a ← scaleB a m alpha lda bo j
    let a ← loop j (fun k a => do
      let t ← a[ao + k + j * lda]?
      if t ≠ 0 then loop m (fun i a => do
        let t ← a[ao + k + j * lda]?
        subAt a (bo + i + j * lda) (bo + i + k * lda) t) a
      else some a) a
    let d ← a[ao + j + j * lda]?
    let temp ← dv 1 d
    loop m (fun i a => scaleAt a temp (bo + i + j * lda)) a) a

/-- `dtrsm_` with `"Right", "Lower", "No transpose", "Unit"` and `alpha` 1, ext/cblas/src/dtrsm.c:373-404: `B := B inv(A)`; `rd` reads
`A`. -/
def dtrsmRightLower (rd : Nat → Option K) (a : List K) (m n lda bo ldb : Nat) : Option (List K) :=
  loop n (fun l a => do
    let j := n - 1 - l
    loop (n - (j + 1)) (fun k a => do
      let t ← rd (j + 1 + k + j * lda)
      if t ≠ 0 then loop m (fun i a => do
        let t ← rd (j + 1 + k + j * lda)
        subAt a (bo + i + j * ldb) (bo + i + (j + 1 + k) * ldb) t) a
      else some a) a) a

/-- `dgemm_` with `'N', 'N'` and `beta` 1, ext/cblas/src/dgemm.c:229-290: `C := alpha A B + C`; `rd` reads `B` in the current contents of
the array. -/
def dgemm (rd : List K → Nat → Option K) (a : List K) (m n k : Nat) (alpha : K) (ao lda ldb co ldc : Nat) : Option (List K) :=
  if m = 0 ∨ n = 0 ∨ alpha = 0 ∨ k = 0 then some a
  else loop n (fun j a => loop k (fun l a => do
    let b ← rd a (l + j * ldb)
    if b ≠ 0 then loop m (fun i a => addAt a (co + i + j * ldc) (ao + i + l * lda) (alpha * b)) a else some a) a) a

end QM.Lapack
