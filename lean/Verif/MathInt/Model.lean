import Mathlib.Data.Nat.Bitwise

/-!
# Model of the integer helpers of `MathUtilities`

Models `maths/MathUtilities.cpp` lines 355-414. A C `int` is an `Int` (callers are expected to
pass a value in the 32-bit range, see `isInt32`); `none` stands for undefined behaviour
(signed overflow of `n <<= 1`, or division by zero in `%`).
-/

namespace QM.MathInt

/-- Largest value of a 32-bit C `int`. -/
def intMax : Nat := 2147483647

/-- `x` fits a 32-bit C `int`. -/
def isInt32 (x : Int) : Prop := -2147483648 ≤ x ∧ x ≤ 2147483647

/-- `MathUtilities::isPowerOfTwo`, maths/MathUtilities.cpp:355-361. For `x ≥ 1` the bit patterns of
`x` and `x-1` are those of the natural numbers, so `&` is `Nat.land`. -/
def isPowerOfTwo (x : Int) : Bool :=
  if x < 1 then false
  else if x.toNat &&& (x - 1).toNat ≠ 0 then false
  else true

/-- `while (x) { x >>= 1; n <<= 1; }`, maths/MathUtilities.cpp:369 and 380; `none` when the shift
overflows `int`. -/
def shiftLoop (x n : Nat) : Option Nat :=
  if x = 0 then some n
  else if n * 2 > intMax then none
  else shiftLoop (x / 2) (n * 2)
termination_by x
decreasing_by omega

/-- `MathUtilities::nextPowerOfTwo`, maths/MathUtilities.cpp:363-371. -/
def nextPowerOfTwo (x : Int) : Option Int :=
  if isPowerOfTwo x then some x
  else if x < 1 then some 1
  else (shiftLoop x.toNat 1).map (fun n : Nat => (n : Int))

/-- `MathUtilities::previousPowerOfTwo`, maths/MathUtilities.cpp:373-382. -/
def previousPowerOfTwo (x : Int) : Option Int :=
  if isPowerOfTwo x then some x
  else if x < 1 then some 1
  else (shiftLoop (x.toNat / 2) 1).map (fun n : Nat => (n : Int))

/-- `MathUtilities::nearestPowerOfTwo`, maths/MathUtilities.cpp:384-392. -/
def nearestPowerOfTwo (x : Int) : Option Int :=
  if isPowerOfTwo x then some x
  else
    match previousPowerOfTwo x, nextPowerOfTwo x with
    | some n0, some n1 => if x - n0 < n1 - x then some n0 else some n1
    | _, _ => none

/-- The loop of `MathUtilities::factorial`, maths/MathUtilities.cpp:398-401: `f = f * i` for
`i = 1..n`. The `double` accumulator is an exact natural number here (rounding not modelled). -/
def factLoop : Nat → Nat
  | 0 => 1
  | n + 1 => factLoop n * (n + 1)

/-- `MathUtilities::factorial`, maths/MathUtilities.cpp:394-403. -/
def factorial (x : Int) : Nat :=
  if x < 0 then 0 else factLoop x.toNat

/-- `MathUtilities::gcd`, maths/MathUtilities.cpp:405-414, on natural numbers as documented in
maths/MathUtilities.h:162-165; `none` is the division by zero of `a % b` with `b = 0`. -/
def gcd (a b : Nat) : Option Nat :=
  if b = 0 then none
  else if a % b = 0 then some b
  else gcd b (a % b)
termination_by b
decreasing_by exact Nat.mod_lt _ (by omega)

end QM.MathInt
