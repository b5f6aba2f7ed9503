import Mathlib.Algebra.BigOperators.Group.Finset.Basic
import Mathlib.Algebra.Ring.Defs

/-!
# The linear difference equation
-/

namespace QM.Filter

variable {R : Type} [CommRing R]

open Finset

/-- Sample `n - i` of a signal that is zero before its start. -/
def delayed (x : List R) (n i : Nat) : R := if i ≤ n then x.getD (n - i) 0 else 0

/-- `y` is the response to `x` of the filter with numerator `b` and denominator `a`, at rest before
time 0: `y[n] = Σ_i b[i] x[n-i] - Σ_{i ≥ 1} a[i] y[n-i]` (`a = []`: no recursive part). -/
def DiffEq (b a x y : List R) : Prop :=
  y.length = x.length ∧
  ∀ n, n < x.length →
    y.getD n 0 = ∑ i ∈ range b.length, b.getD i 0 * delayed x n i
      - ∑ i ∈ range (a.length - 1), a.getD (i + 1) 0 * delayed y n (i + 1)

end QM.Filter
