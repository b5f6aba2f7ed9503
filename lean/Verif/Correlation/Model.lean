import Verif.Common.Loop
import Mathlib.Algebra.Order.Field.Basic

/-!
# Model of `maths/Correlation.cpp`

`none` is an access outside an array.
-/

namespace QM.Correlation

variable {K : Type} [Field K] [LinearOrder K]

/-- `EPS`, maths/MathAliases.h:23: 2.2204e-016. -/
def eps : K := 22204 / 10 ^ 20

/-- `Correlation::doAutoUnBiased`, maths/Correlation.cpp:34-56. The inner loop runs over `j = i + t`. -/
def doAutoUnBiased (src dst : List K) (length : Nat) : Option (List K) :=
  loop length (fun i (dst : List K) => do
    let tmp ← loop (length - i) (fun t (tmp : K) => do
      let a ← src[i + t - i]?
      let b ← src[i + t]?
      pure (tmp + a * b)) 0
    let outVal := tmp / ((length - i : Nat) : K)
    if outVal ≤ 0 then wr dst i eps else wr dst i outVal) dst

end QM.Correlation
