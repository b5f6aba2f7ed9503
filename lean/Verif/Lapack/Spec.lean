import Mathlib.Algebra.Group.End
import Mathlib.Data.Matrix.Basic
import Mathlib.Logic.Equiv.Basic

/-!
# Factors of a matrix, as LAPACK documents them
-/

namespace QM.Lapack

variable {K : Type} [Zero K] [One K]

/-- The array holds the matrix, column after column. -/
def InArray {L : Nat} (M : Matrix (Fin L) (Fin L) K) (a : List K) : Prop := a.length = L * L ∧ ∀ i j : Fin L, a[(i : ℕ) + j * L]? = some (M i j)

/-- The lower triangle below a diagonal of ones. -/
def unitLower {L : Nat} (F : Matrix (Fin L) (Fin L) K) : Matrix (Fin L) (Fin L) K := fun i j => if i = j then 1 else if j < i then F i j else 0

/-- The upper triangle with the diagonal. -/
def upper {L : Nat} (F : Matrix (Fin L) (Fin L) K) : Matrix (Fin L) (Fin L) K := fun i j => if i ≤ j then F i j else 0

/-- Row 0 has been exchanged with row `P 0`, then row 1 with row `P 1`, and so on to row `n - 1`: the row that is now at `i` was at
`rowNow P n i`. -/
def rowNow (P : Nat → Nat) : Nat → Nat → Nat
  | 0, i => i
  | n + 1, i => rowNow P n (Equiv.swap n (P n) i)

/-- What `*info` means: 0 if none of the first `k` numbers `d` is zero, otherwise the number (counted from 1) of the first zero. -/
def FirstZero (k : Nat) (d : Nat → K) (info : Nat) : Prop :=
  (info = 0 ∧ ∀ i < k, d i ≠ 0) ∨ (0 < info ∧ info ≤ k ∧ d (info - 1) = 0 ∧ ∀ i < info - 1, d i ≠ 0)

end QM.Lapack
