import Mathlib.Algebra.BigOperators.Ring.Finset
import Mathlib.Analysis.SpecialFunctions.Complex.Circle

/-!
# What zero-phase filtering works on

Written without reference to the model of the code.
-/

namespace QM.Filter

variable {R : Type} [CommRing R]
open Finset

/-- The signal around a block: the block itself, point reflections of it in its first and last value on both sides, and zero where the block is
too short to be reflected. -/
def around (src : List R) (i : Int) : R :=
  let n : Int := src.length
  if i < 0 then (if -i < n then 2 * src.getD 0 0 - src.getD (-i).toNat 0 else 0)
  else if i < n then src.getD i.toNat 0
  else (if i - n + 1 < n then 2 * src.getD (src.length - 1) 0 - src.getD (2 * (n - 1) - i).toNat 0 else 0)

/-- The response of a non-recursive filter at `w` radians per sample. -/
noncomputable def firResponse (b : List ℝ) (w : ℝ) : ℂ := ∑ j ∈ range b.length, b.getD j 0 * Complex.exp (-(w * j) * Complex.I)

end QM.Filter
