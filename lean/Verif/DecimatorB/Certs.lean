import Verif.DecimatorB.Model
import Verif.Common.Stable

/-!
# Checks of the filter of `DecimatorB`, evaluated by the kernel
-/

namespace QM.DecimatorB

open QM.IntPoly QM.Stable

/-- The coefficients, dsp/rateconversion/DecimatorB.cpp:63-69, times `10 ^ 15`. -/
def intB : List ℤ := [29588223638661, 177529341831965, 443823354579912, 591764472773216, 443823354579912, 177529341831965, 29588223638661]

/-- The coefficients, dsp/rateconversion/DecimatorB.cpp:71-77, times `10 ^ 15`. -/
def intA : List ℤ := [1000000000000000, 0, 777695961855673, 0, 114199425062434, 0, 1750925956183]

theorem coeffs_int : bCoeffs = intB.map (fun k : ℤ => (k : ℚ) / 10 ^ 15) ∧ aCoeffs = intA.map (fun k : ℤ => (k : ℚ) / 10 ^ 15) := by
  norm_num [bCoeffs, aCoeffs, intA, intB]

/-- A certificate of stability. -/
def certQ : List ℤ := (recip 1000000000000000 intA.tail 40 [2 ^ 26]).reverse

theorem cert_two : cert intA intB certQ 50 2 60 = true := by decide +kernel

theorem cert_three : cert intA intB certQ 50 3 60 = true := by decide +kernel

theorem cert_rec : cert intA [1000000000000000] certQ 50 4 60 = true := by decide +kernel

/-- The polynomial whose sign says that the gain is at most `m / k`. -/
def upPoly (m k : ℤ) : List ℤ := add (smul (m * m) (normPoly intA)) (smul (-(k * k)) (normPoly intB))

/-- The polynomial whose sign says that the gain is at least `m / k`. -/
def loPoly (m k : ℤ) : List ℤ := add (smul (k * k) (normPoly intB)) (smul (-(m * m)) (normPoly intA))

theorem upper : pos (scale 1048576 (upPoly 100001 100000)).1 (-1048576) 1048576 20 = true := by decide +kernel

/-- From the new Nyquist frequency up. -/
theorem upperNyquist : pos (scale 1048576 (upPoly 70711 100000)).1 (-1048576) 0 20 = true := by decide +kernel

theorem upperTwoThirds : pos (scale 1048576 (upPoly 371 10000)).1 (-1048576) (-524288) 20 = true := by decide +kernel

theorem upperThreeQuarters : pos (scale 1048576 (upPoly 51 10000)).1 (-1048576) (-741455) 20 = true := by decide +kernel

/-- Up to the new Nyquist frequency. -/
theorem lowerNyquist : pos (scale 1048576 (loPoly 70710 100000)).1 0 1048576 20 = true := by decide +kernel

theorem lowerTwoThirds : pos (scale 1048576 (loPoly 9993 10000)).1 524288 1048576 20 = true := by decide +kernel

theorem lowerHalf : pos (scale 1048576 (loPoly 99998 100000)).1 741455 1048576 20 = true := by decide +kernel

/-- `(1 + c) ^ 6`. -/
def num6 : List ℤ := [1, 6, 15, 20, 15, 6, 1]
/-- `(1 + c) ^ 6 + (1 - c) ^ 6`. -/
def den6 : List ℤ := [2, 0, 30, 0, 30, 0, 2]

/-- The polynomials whose signs say that the squared gain is within `1 / d` of the sixth order Butterworth response. -/
def bwUp (d : ℤ) : List ℤ := add (mul (normPoly intA) den6) (smul d (add (mul (normPoly intA) num6) (smul (-1) (mul (normPoly intB) den6))))
/-- The polynomials whose signs say that the squared gain is within `1 / d` of the sixth order Butterworth response. -/
def bwLo (d : ℤ) : List ℤ := add (mul (normPoly intA) den6) (smul d (add (mul (normPoly intB) den6) (smul (-1) (mul (normPoly intA) num6))))

theorem bw_up : pos (scale 1048576 (bwUp (10 ^ 13))).1 (-1048576) 1048576 20 = true := by decide +kernel

theorem bw_lo : pos (scale 1048576 (bwLo (10 ^ 13))).1 (-1048576) 1048576 20 = true := by decide +kernel

end QM.DecimatorB
