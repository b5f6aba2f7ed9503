import Verif.Common.Mat
import Mathlib.Analysis.SpecialFunctions.Log.Base

/-!
# `mpeg7_constq`, dsp/segmentation/cluster_segmenter.c

`none` is an access outside an array, the logarithm of a number that is not positive or a division by zero.
-/

namespace QM.Segment

/-- `DBL_EPSILON`. -/
noncomputable def dblEpsilon : ℝ := 2⁻¹ ^ 52

/-- `log10`, or `none` where its value is not a number. -/
noncomputable def log10? (v : ℝ) : Option ℝ := if 0 < v then some (Real.logb 10 v) else none

/-- Division of the doubles. -/
noncomputable def div? (x y : ℝ) : Option ℝ := if y = 0 then none else some (x / y)

/-- The conversion to decibels, dsp/segmentation/cluster_segmenter.c:50-54. -/
noncomputable def toDecibels (n ncoeff : Nat) (f : List (List ℝ)) : Option (List (List ℝ)) :=
  loop n (fun i (f : List (List ℝ)) => loop ncoeff (fun j (f : List (List ℝ)) => do
    let v ← rd2 f i j
    let l ← log10? (v + dblEpsilon)
    wr2 f i j (10 * l)) f) f

/-- `ss`, dsp/segmentation/cluster_segmenter.c:58-61. -/
noncomputable def sumSquares (ncoeff i : Nat) (f : List (List ℝ)) : Option ℝ :=
  loop ncoeff (fun j (ss : ℝ) => do
    let v ← rd2 f i j
    pure (ss + v * v)) 0

/-- The normalisation of the rows, dsp/segmentation/cluster_segmenter.c:57-70; the result is the matrix and `maxenv`. -/
noncomputable def normaliseRows (n ncoeff : Nat) (f : List (List ℝ)) : Option (List (List ℝ) × ℝ) :=
  loop n (fun i (s : List (List ℝ) × ℝ) => do
    let ss ← sumSquares ncoeff i s.1
    let env := Real.sqrt ss
    let f ← loop ncoeff (fun j (f : List (List ℝ)) => do
      let v ← rd2 f i j
      let w ← div? v env
      wr2 f i j w) s.1
    let f ← wr2 f i ncoeff env
    pure (f, if s.2 < env then env else s.2)) (f, 0)

/-- `mpeg7_constq`, dsp/segmentation/cluster_segmenter.c:42-75. -/
noncomputable def mpeg7 (f : List (List ℝ)) (n ncoeff : Nat) : Option (List (List ℝ)) := do
  let f ← toDecibels n ncoeff f
  let s ← normaliseRows n ncoeff f
  loop n (fun i (f : List (List ℝ)) => do
    let v ← rd2 f i ncoeff
    let w ← div? v s.2
    wr2 f i ncoeff w) s.1

end QM.Segment
