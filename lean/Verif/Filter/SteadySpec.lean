import Verif.Filter.Spec
import Mathlib.Analysis.SpecialFunctions.Complex.Circle

/-!
# Stability and frequency response of a recursive filter

Written without reference to the model of the code.
-/

namespace QM.Filter

open Finset

/-- The response to a single one followed by zeros never exceeds `D * r ^ k` after `k` samples. -/
def Stable (a : List ℝ) (D r : ℝ) : Prop :=
  ∀ (N : ℕ) (y : List ℝ), DiffEq [1] a (1 :: List.replicate N 0) y → ∀ k ≤ N, |y.getD k 0| ≤ D * r ^ k

/-- The response of the filter with numerator `b` and denominator `a` (whose first coefficient counts as one) at `w` radians per sample. -/
noncomputable def freqResponse (b a : List ℝ) (w : ℝ) : ℂ :=
  (∑ j ∈ range b.length, b.getD j 0 * Complex.exp (-(w * j) * Complex.I)) / (1 + ∑ j ∈ range (a.length - 1), a.getD (j + 1) 0 * Complex.exp (-(w * (j + 1 : ℕ)) * Complex.I))

end QM.Filter
