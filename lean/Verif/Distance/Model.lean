import Verif.Common.Loop
import Mathlib.Analysis.SpecialFunctions.Log.Base

/-!
# Models of `maths/CosineDistance.cpp` and `maths/KLDivergence.cpp`

`none` is an access outside a vector.
-/

namespace QM.Distance

/-- The constant `small` of both files: maths/CosineDistance.cpp:28 and maths/KLDivergence.cpp:31,54. -/
noncomputable def small : ℝ := 1 / 10 ^ 20

/-- `CosineDistance::distance`, maths/CosineDistance.cpp:24-48. -/
noncomputable def cosine (v1 v2 : List ℝ) : Option ℝ :=
  if v1.length ≠ v2.length then some 1
  else do
    let s ← loop v1.length (fun i (s : ℝ × ℝ × ℝ) => do
      let a ← v1[i]?
      let b ← v2[i]?
      pure (s.1 + a * b, s.2.1 + a * a, s.2.2 + b * b)) (0, 0, 0)
    pure (1 - s.1 / (Real.sqrt |s.2.1 * s.2.2| + small))

/-- `KLDivergence::distanceGaussian`, maths/KLDivergence.cpp:22-46. -/
noncomputable def gaussian (m1 v1 m2 v2 : List ℝ) : Option ℝ := do
  let d ← loop m1.length (fun k (d : ℝ) => do
    let a1 ← v1[k]?
    let kv1 := a1 + small
    let a2 ← v2[k]?
    let kv2 := a2 + small
    let b1 ← m1[k]?
    let b2 ← m2[k]?
    let km := (b1 - b2) + small
    let d := d + (kv1 / kv2 + kv2 / kv1)
    pure (d + km * (1 / kv1 + 1 / kv2) * km)) (-2 * (m1.length : ℝ))
  pure (d / 2)

/-- `KLDivergence::distanceDistribution` with `symmetrised` false, maths/KLDivergence.cpp:48-59. -/
noncomputable def oneSided (d1 d2 : List ℝ) : Option ℝ :=
  loop d1.length (fun i (d : ℝ) => do
    let a ← d1[i]?
    let b ← d2[i]?
    pure (d + a * Real.logb 10 ((a + small) / (b + small)))) 0

/-- `KLDivergence::distanceDistribution`, maths/KLDivergence.cpp:48-65. -/
noncomputable def distribution (d1 d2 : List ℝ) (symmetrised : Bool) : Option ℝ := do
  let d ← oneSided d1 d2
  if symmetrised then do
    let e ← oneSided d2 d1
    pure (d + e)
  else pure d

end QM.Distance
