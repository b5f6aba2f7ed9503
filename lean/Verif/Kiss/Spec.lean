import Mathlib.Analysis.SpecialFunctions.Trigonometric.Basic
import Mathlib.Algebra.BigOperators.Group.Finset.Basic

/-!
# The discrete Fourier transform

Written without reference to the model of the code.
-/

namespace QM.DFT

open Complex

/-- The kernel `exp (∓ 2 π i / n)`: minus for the forward transform, plus for the inverse. -/
noncomputable def root (inverse : Bool) (n : Nat) : ℂ :=
  Complex.exp ((if inverse then 1 else -1) * (2 * Real.pi * I / n))

/-- `X[k] = Σ_{j<n} x[j] · exp (∓ 2 π i j k / n)`, not normalised. -/
noncomputable def dft (inverse : Bool) (n : Nat) (x : Nat → ℂ) (k : Nat) : ℂ :=
  ∑ j ∈ Finset.range n, x j * Complex.exp ((if inverse then 1 else -1) * (2 * Real.pi * I * j * k / n))

end QM.DFT
