import Mathlib.Analysis.SpecialFunctions.Trigonometric.Basic
import Mathlib.Algebra.BigOperators.Group.Finset.Basic

/-!
# Cosine transforms

Written without reference to the model of the code.
-/

namespace QM.DCT

/-- The kernel `cos (π k (j + 1/2) / n)`. -/
noncomputable def ker (n k j : Nat) : ℝ := Real.cos (Real.pi * k * (2 * j + 1) / (2 * n))

/-- The DCT-II, `Σ_{j<n} x[j] cos (π k (j + 1/2) / n)`. -/
noncomputable def dct2 (n : Nat) (x : Nat → ℝ) (k : Nat) : ℝ := ∑ j ∈ Finset.range n, x j * ker n k j

/-- The DCT-III, `y[0]/2 + Σ_{0<k<n} y[k] cos (π k (m + 1/2) / n)`. -/
noncomputable def dct3 (n : Nat) (y : Nat → ℝ) (m : Nat) : ℝ :=
  y 0 / 2 + ∑ k ∈ Finset.Ico 1 n, y k * ker n k m

/-- The unitary DCT-II: row 0 scaled by `1/√n`, the other rows by `√(2/n)`. -/
noncomputable def dctU (n : Nat) (x : Nat → ℝ) (k : Nat) : ℝ :=
  (if k = 0 then Real.sqrt (1 / n) else Real.sqrt (2 / n)) * dct2 n x k

end QM.DCT
