import Verif.MathReal.Model
import Verif.Common.Nearest

/-!
# Statistics, rounding and normalisation in double precision

The functions of `Verif.MathReal.Model` with `fl` after every operation that rounds. Comparisons, `fabs` and `floor` are exact, an `int` converts to a double
without error.
-/

namespace QM.MathReal.Rounded

open QM.Double

variable (fl : ℝ → ℝ)

/-- `MathUtilities::round`, maths/MathUtilities.cpp:75-82. -/
noncomputable def round (x : ℝ) : ℤ :=
  if x < 0 then -⌊fl (-x + 1 / 2)⌋ else ⌊fl (x + 1 / 2)⌋

/-- `MathUtilities::median`, maths/MathUtilities.cpp:84-98. -/
noncomputable def median (src : List ℝ) : Option ℝ :=
  if src.length = 0 then some 0
  else
    let scratch := src.mergeSort (fun a b => decide (a ≤ b))
    let middle := src.length / 2
    if src.length % 2 = 0 then do
      let a ← scratch[middle]?
      let b ← scratch[middle - 1]?
      some (fl (fl (a + b) / 2))
    else scratch[middle]?

/-- `MathUtilities::sum`, maths/MathUtilities.cpp:100-110. -/
noncomputable def sum (src : List ℝ) : ℝ := src.foldl (fun retVal x => fl (retVal + x)) 0

/-- `MathUtilities::mean(const double*, int)`, maths/MathUtilities.cpp:112-123. -/
noncomputable def mean (src : List ℝ) : ℝ :=
  if src.length = 0 then 0 else fl (sum fl src / (src.length : ℝ))

/-- `MathUtilities::normalise(vector&, type)`, maths/MathUtilities.cpp:274-303. -/
noncomputable def normalise (data : List ℝ) : NormaliseType → List ℝ
  | .none => data
  | .unitSum =>
    let s := sum fl data
    if s ≠ 0 then data.map (fun x => fl (x / s)) else data
  | .unitMax =>
    let m := maxAbs data
    if m ≠ 0 then data.map (fun x => fl (x / m)) else data

end QM.MathReal.Rounded
