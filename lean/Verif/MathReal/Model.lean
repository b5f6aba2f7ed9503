import Mathlib.Algebra.Order.Field.Basic
import Mathlib.Algebra.Order.Floor.Ring
import Mathlib.Analysis.SpecialFunctions.Trigonometric.Basic
import Mathlib.Analysis.SpecialFunctions.Pow.Real

/-!
# Model of the floating-point helpers of `MathUtilities`

Models `maths/MathUtilities.cpp` lines 25-353. `double` is an arbitrary linearly ordered field `α`
(or `ℝ` where `pi`/`pow` occur): arithmetic is exact. A C array or `std::vector<double>` of length
`n` is a `List α` of length `n`; a read outside it is `none`.
-/

namespace QM.MathReal

section field
variable {α : Type*} [Field α] [LinearOrder α]

/-- `MathUtilities::mod`, maths/MathUtilities.cpp:25-31. -/
def mod [FloorRing α] (x y : α) : α :=
  let a := ((⌊x / y⌋ : Int) : α)
  x - y * a

/-- `MathUtilities::round`, maths/MathUtilities.cpp:75-82. -/
def round [FloorRing α] (x : α) : Int :=
  if x < 0 then -⌊-x + 1/2⌋ else ⌊x + 1/2⌋

/-- `MathUtilities::median`, maths/MathUtilities.cpp:84-98. `std::sort` is a sorting function. The
`none` outcome is an out-of-range index of `scratch` (proved unreachable). -/
def median (src : List α) : Option α :=
  if src.length = 0 then some 0
  else
    let scratch := src.mergeSort (fun a b => decide (a ≤ b))
    let middle := src.length / 2
    if src.length % 2 = 0 then do
      let a ← scratch[middle]?
      let b ← scratch[middle - 1]?
      some ((a + b) / 2)
    else scratch[middle]?

/-- `MathUtilities::sum`, maths/MathUtilities.cpp:100-110: accumulate from index 0 upwards. -/
def sum (src : List α) : α := src.foldl (fun retVal x => retVal + x) 0

/-- `MathUtilities::mean(const double*, int)`, maths/MathUtilities.cpp:112-123. -/
def mean (src : List α) : α :=
  if src.length = 0 then 0 else sum src / (src.length : α)

/-- The accumulation loop of `MathUtilities::mean(vector, start, count)`,
maths/MathUtilities.cpp:133-135, with checked reads of `src[start + i]`. -/
def sumRange (src : List α) (start : Nat) : Nat → Option α
  | 0 => some 0
  | k + 1 => do
    let s ← sumRange src start k
    let v ← src[start + k]?
    some (s + v)

/-- `MathUtilities::mean(vector, start, count)`, maths/MathUtilities.cpp:125-138. -/
def meanRange (src : List α) (start count : Nat) : Option α :=
  if count = 0 then some 0
  else (sumRange src start count).map (fun s => s / (count : α))

/-- `MathUtilities::getFrameMinMax`, maths/MathUtilities.cpp:140-163. -/
def getFrameMinMax (data : List α) : α × α :=
  match data with
  | [] => (0, 0)
  | d0 :: _ =>
    data.foldl (fun (mm : α × α) temp =>
      let mn := if temp < mm.1 then temp else mm.1
      let mx := if temp > mm.2 then temp else mm.2
      (mn, mx)) (d0, d0)

/-- The loop of `getMax`, maths/MathUtilities.cpp:173-180: state `(i, index, max)`. -/
def getMaxLoop : List α → Nat → Nat → α → Nat × α
  | [], _, index, mx => (index, mx)
  | temp :: rest, i, index, mx =>
    if temp > mx then getMaxLoop rest (i + 1) i temp else getMaxLoop rest (i + 1) index mx

/-- `MathUtilities::getMax` (array and vector overloads), maths/MathUtilities.cpp:165-210. Returns
index and maximum; `none` is the read of `data[0]` of an empty block. -/
def getMax (data : List α) : Option (Nat × α) :=
  match data with
  | [] => none
  | d0 :: _ => some (getMaxLoop data 0 0 d0)

/-- Inner loop of `circShift`, maths/MathUtilities.cpp:222-224: for `n = k-1` down to `0` copy
element `n` to `n+1`; `none` is an access outside the block. -/
def circInner (d : List α) : Nat → Option (List α)
  | 0 => some d
  | n + 1 => do
    let v ← d[n]?
    if n + 1 < d.length then circInner (d.set (n + 1) v) n else none

/-- One iteration of the outer loop of `circShift`, maths/MathUtilities.cpp:220-226. -/
def circStep (d : List α) : Option (List α) := do
  let temp ← d[d.length - 1]?
  let d' ← circInner d (d.length - 1)
  some (d'.set 0 temp)

/-- Outer loop of `circShift`, maths/MathUtilities.cpp:218-227. -/
def circLoop (d : List α) : Nat → Option (List α)
  | 0 => some d
  | n + 1 => do
    let d' ← circStep d
    circLoop d' n

/-- `MathUtilities::circShift`, maths/MathUtilities.cpp:212-228. C's `%` truncates towards zero;
`none` is the division by zero for an empty block (or an access outside the block). -/
def circShift (d : List α) (shift : Int) : Option (List α) :=
  if d.length = 0 then none
  else circLoop d (shift.tmod (d.length : Int)).toNat

/-- `MathUtilities::NormaliseType`, maths/MathUtilities.h:93-97. -/
inductive NormaliseType | none | unitSum | unitMax

/-- The maximum search of `normalise`, maths/MathUtilities.cpp:257-262 and 292-295. -/
def maxAbs (data : List α) : α :=
  data.foldl (fun mx x => if |x| > mx then |x| else mx) 0

/-- `MathUtilities::normalise(double*, int, type)`, maths/MathUtilities.cpp:235-272 (writes only the
first `length` elements of the memory `mem`). -/
def normaliseArr (mem : List α) (length : Nat) : NormaliseType → List α
  | .none => mem
  | .unitSum =>
    let s := sum (mem.take length)
    if s ≠ 0 then (mem.take length).map (· / s) ++ mem.drop length else mem
  | .unitMax =>
    let m := maxAbs (mem.take length)
    if m ≠ 0 then (mem.take length).map (· / m) ++ mem.drop length else mem

/-- `MathUtilities::normalise(vector&, type)`, maths/MathUtilities.cpp:274-303. -/
def normaliseVec (data : List α) : NormaliseType → List α
  | .none => data
  | .unitSum =>
    let s := sum data
    if s ≠ 0 then data.map (· / s) else data
  | .unitMax =>
    let m := maxAbs data
    if m ≠ 0 then data.map (· / m) else data

/-- `MathUtilities::adaptiveThreshold`, maths/MathUtilities.cpp:331-353. `none` would be a read
outside the vector. -/
def adaptiveThreshold (data : List α) : Option (List α) :=
  let sz := data.length
  let p_pre := 8
  let p_post := 7
  (List.range sz).mapM (fun i => do
    let first := i - p_pre            -- max(0, i - p_pre): natural subtraction
    let last := min (sz - 1) (i + p_post)
    let sm ← meanRange data first (last - first + 1)
    let x ← data[i]?
    let y := x - sm
    some (if y < 0 then 0 else y))

end field

/-- `MathUtilities::princarg`, maths/MathUtilities.cpp:33-40. -/
noncomputable def princarg (ang : ℝ) : ℝ := mod (ang + Real.pi) (-2 * Real.pi) + Real.pi

/-- `MathUtilities::getLpNorm`, maths/MathUtilities.cpp:305-312. -/
noncomputable def getLpNorm (data : List ℝ) (p : Nat) : ℝ :=
  (data.foldl (fun tot x => tot + |x ^ p|) 0) ^ ((1 : ℝ) / p)

/-- `MathUtilities::normaliseLp`, maths/MathUtilities.cpp:314-329 (`p ≥ 0`). -/
noncomputable def normaliseLp (data : List ℝ) (p : Nat) (threshold : ℝ) : List ℝ :=
  let n := data.length
  if n = 0 ∨ p = 0 then data
  else
    let norm := getLpNorm data p
    if norm < threshold then List.replicate n (1 / (n : ℝ) ^ ((1 : ℝ) / p))
    else data.map (· / norm)

/-- `MathUtilities::getAlphaNorm` (both overloads), maths/MathUtilities.cpp:42-73, for positive
`alpha` and a non-empty block (an empty block divides by zero). -/
noncomputable def getAlphaNorm (data : List ℝ) (alpha : Nat) : Option ℝ :=
  if data.length = 0 ∨ alpha = 0 then none
  else some (((data.foldl (fun a x => a + |x| ^ (alpha : ℝ)) 0) / (data.length : ℝ))
    ^ ((1 : ℝ) / alpha))

end QM.MathReal
