import Mathlib.Algebra.Order.Floor.Ring
import Mathlib.Algebra.Order.Field.Basic
import Mathlib.Data.Rat.Floor

/-!
# Model of `MedianFilter<T>` (maths/MedianFilter.h)

`T` is a linearly ordered type with a zero (exact arithmetic); a pushed value is `none` when it is
NaN (`value != value`, line 48) and `some v` otherwise. Arrays `m_frame` and `m_sorted` are lists of
`m_size` elements; every access is checked and `none` is an access outside them. The percentile is an
element of an ordered field; converting a value outside the range of `int` is not modelled.
-/

namespace QM.MedianFilter

variable {T : Type} [LinearOrder T] [Zero T]

/-- `MedianFilter` data members, maths/MedianFilter.h:93-98 (`m_sortend` is `m_sorted + m_size - 1`). -/
structure State (T : Type) where
  size : Nat
  frame : List T
  sorted : List T
  index : Nat
deriving Repr, DecidableEq

/-- `std::lower_bound` on the elements `first .. first+len-1` of `xs` (used at maths/MedianFilter.h:103
and 111), written as the usual binary search. `none` is a read outside `xs`. -/
def lowerBound (xs : List T) (v : T) (first len : Nat) : Option Nat :=
  if h : len = 0 then some first
  else do
    let half := len / 2
    let m ← xs[first + half]?
    if m < v then lowerBound xs v (first + half + 1) (len - half - 1)
    else lowerBound xs v first half
termination_by len
decreasing_by all_goals omega

/-- The loop `for (i = n; i > 0; --i) point[i] = point[i-1]`, maths/MedianFilter.h:105. -/
def shiftUp (xs : List T) (p : Nat) : Nat → Option (List T)
  | 0 => some xs
  | i + 1 => do
    let v ← xs[p + i]?
    if p + (i + 1) < xs.length then shiftUp (xs.set (p + (i + 1)) v) p i else none

/-- The loop `for (i = 0; i < n; ++i) point[i] = point[i+1]`, maths/MedianFilter.h:117, with `n - i`
iterations left. -/
def shiftDown (xs : List T) (p i : Nat) : Nat → Option (List T)
  | 0 => some xs
  | k + 1 => do
    let v ← xs[p + i + 1]?
    if p + i < xs.length then shiftDown (xs.set (p + i) v) p (i + 1) k else none

/-- `put`, maths/MedianFilter.h:100-107. -/
def put (s : State T) (value : T) : Option (State T) := do
  let sortend := s.size - 1
  let point ← lowerBound s.sorted value 0 sortend
  let n := sortend - point
  let xs ← shiftUp s.sorted point n
  if point < xs.length then some { s with sorted := xs.set point value } else none

/-- `drop`, maths/MedianFilter.h:109-119 (the warning of lines 113-116 reads `*point`). -/
def drop (s : State T) (value : T) : Option (State T) := do
  let sortend := s.size - 1
  let point ← lowerBound s.sorted value 0 (sortend + 1)
  let _ ← s.sorted[point]?
  let n := sortend - point
  let xs ← shiftDown s.sorted point 0 n
  if sortend < xs.length then some { s with sorted := xs.set sortend 0 } else none

/-- `push`, maths/MedianFilter.h:47-58. `none` as argument is NaN. The frame shift of lines 54-56 is
the loop `shiftDown` with `point = m_frame`. -/
def push (s : State T) (v : Option T) : Option (State T) := do
  let value := v.getD 0
  let f0 ← s.frame[0]?
  let s ← drop s f0
  let frame ← shiftDown s.frame 0 0 (s.size - 1)
  if s.size - 1 < frame.length then
    put { s with frame := frame.set (s.size - 1) value } value
  else none

/-- `get`, maths/MedianFilter.h:60-62. -/
def get (s : State T) : Option T := s.sorted[s.index]?

/-- `reset`, maths/MedianFilter.h:75-78. -/
def reset (s : State T) : State T :=
  { s with frame := List.replicate s.size 0, sorted := List.replicate s.size 0 }

section percentile
variable {α : Type} [Field α] [LinearOrder α] [IsStrictOrderedRing α] [FloorRing α]

/-- Conversion to `int` (truncation toward zero). -/
def truncInt (x : α) : Int := if x < 0 then -⌊-x⌋ else ⌊x⌋

/-- The index computation of `setPercentile` and `getAt`, maths/MedianFilter.h:41-45 and 68-73. -/
def percentileIndex (size : Nat) (p : α) : Nat :=
  let ix := truncInt (((size : α) * p) / 100)
  let ix := if ix ≥ (size : Int) then (size : Int) - 1 else ix
  let ix := if ix < 0 then 0 else ix
  ix.toNat

/-- `setPercentile`, maths/MedianFilter.h:41-45. -/
def setPercentile (s : State T) (p : α) : State T := { s with index := percentileIndex s.size p }

/-- `getAt`, maths/MedianFilter.h:68-73. -/
def getAt (s : State T) (p : α) : Option T := s.sorted[percentileIndex s.size p]?

/-- Constructor, maths/MedianFilter.h:28-35 (`size ≥ 1`; `new T[size]` for negative sizes is not
modelled, and size 0 makes every later access out of bounds). -/
def mk (size : Nat) (p : α) : State T :=
  reset (setPercentile { size := size, frame := List.replicate size 0,
                         sorted := List.replicate size 0, index := 0 } p)

end percentile

/-- Loop of the static `filter`, maths/MedianFilter.h:83-87. -/
def filterLoop (size : Nat) (f : State T) (i : Nat) (out : List T) :
    List (Option T) → Option (State T × List T)
  | [] => some (f, out)
  | x :: rest => do
    let f ← push f x
    let median ← get f
    filterLoop size f (i + 1) (if i ≥ size / 2 then out ++ [median] else out) rest

/-- Padding loop of the static `filter`, maths/MedianFilter.h:88-91, `k` iterations. -/
def padLoop (f : State T) (out : List T) : Nat → Option (List T)
  | 0 => some out
  | k + 1 => do
    let f ← push f (some 0)
    let m ← get f
    padLoop f (out ++ [m]) k

/-- The static `filter`, maths/MedianFilter.h:80-93, default percentile 50. The `while` of line 88
runs `in.size() - out.size()` times. -/
def filter (size : Nat) (inp : List (Option T)) : Option (List T) := do
  let (f, out) ← filterLoop size (mk size (50 : ℚ)) 0 [] inp
  padLoop f out (inp.length - out.length)

end QM.MedianFilter
