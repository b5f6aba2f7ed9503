import Verif.Decimator.Model
import Verif.Common.Stable

/-!
# Checks of the filters of `Decimator`, evaluated by the kernel
-/

namespace QM.Decimator

open QM.IntPoly QM.Stable

/-- The coefficients, dsp/rateconversion/Decimator.cpp:49-112, times `10 ^ 19`. -/
def intB : Nat → List ℤ
  | 8 => [601113784921360000, -2573234208305980000, 4205835031659280000, -2227507851974180000, -2227507851974180000, 4205835031659280000, -2573234208305980000, 601113784921360000]
  | 4 => [1013330690491861900, -2447523353702363000, 3362252859012096500, -1393658156063351800, -1393658156063338200, 3362252859012087000, -2447523353702358000, 1013330690491859400]
  | 2 => [2089894426007572700, 4001123487981436700, 8197419730727330000, 10087419911682323000, 10087419911682325000, 8197419730727315600, 4001123487981429500, 2089894426007566100]
  | _ => [10000000000000000000, 0, 0, 0, 0, 0, 0, 0]

/-- The coefficients, dsp/rateconversion/Decimator.cpp:49-112, times `10 ^ 19`. -/
def intA : Nat → List ℤ
  | 8 => [10000000000000000000, -56676548785774320000, 140624522780884170000, -197373038406977380000, 168896988746086410000, -87966006123259280000, 25775534469798880000, -3269039168157510000]
  | 4 => [10000000000000000000, -39035590278139427000, 75299379980621133000, -86890803793177511000, 64578667096099176000, -30242979431223631000, 8304338513674838200, -944208008378093350]
  | 2 => [10000000000000000000, 77331184208358217, 19853971155964376000, 1929673927534100400, 12330748872852182000, 1870534138931646600, 2365926590801386800, 323529242505339460]
  | _ => [10000000000000000000, 0, 0, 0, 0, 0, 0, 0]

theorem coeffs_int (f : Nat) (hf : f = 2 ∨ f = 4 ∨ f = 8) :
    (coeffs f).1 = (intB f).map (fun k : ℤ => (k : ℚ) / 10 ^ 19) ∧ (coeffs f).2 = (intA f).map (fun k : ℤ => (k : ℚ) / 10 ^ 19) := by
  rcases hf with rfl | rfl | rfl <;> norm_num [coeffs, intA, intB]

/-- A certificate of stability. -/
def certQ (f : Nat) : List ℤ :=
  (recip 10000000000000000000 (intA f).tail (match f with | 8 => 1200 | 4 => 400 | _ => 300) [2 ^ 26]).reverse

theorem cert2 : cert (intA 2) (intB 2) (certQ 2) 50 3 1250 = true := by decide +kernel

theorem cert4 : cert (intA 4) (intB 4) (certQ 4) 50 3 1250 = true := by decide +kernel

theorem cert8 : cert (intA 8) (intB 8) (certQ 8) 50 3 1250 = true := by decide +kernel

/-- The polynomial whose sign says that the gain is at most `m / k`. -/
def upPoly (f : Nat) (m k : ℤ) : List ℤ := add (smul (m * m) (normPoly (intA f))) (smul (-(k * k)) (normPoly (intB f)))

/-- The polynomial whose sign says that the gain is at least `m / k`. -/
def loPoly (f : Nat) (m k : ℤ) : List ℤ := add (smul (k * k) (normPoly (intB f))) (smul (-(m * m)) (normPoly (intA f)))

theorem stop2 : pos (scale 1048576 (upPoly 2 1003 10000)).1 (-1048576) 0 16 = true := by decide +kernel

theorem upper2 : pos (scale 1048576 (upPoly 2 10001 10000)).1 (-1048576) 1048576 16 = true := by decide +kernel

theorem pass2 : pos (scale 1048576 (loPoly 2 9998 10000)).1 324007 1048576 16 = true := by decide +kernel

theorem stop4 : pos (scale 1048576 (upPoly 4 1003 10000)).1 (-1048576) 741476 16 = true := by decide +kernel

theorem upper4 : pos (scale 1048576 (upPoly 4 10001 10000)).1 (-1048576) 1048576 16 = true := by decide +kernel

theorem pass4 : pos (scale 1048576 (loPoly 4 9998 10000)).1 848295 1048576 16 = true := by decide +kernel

theorem stop8 : pos (scale 1048576 (upPoly 8 1003 10000)).1 (-1048576) 968778 16 = true := by decide +kernel

theorem upper8 : pos (scale 1048576 (upPoly 8 10001 10000)).1 (-1048576) 1048576 16 = true := by decide +kernel

theorem pass8 : pos (scale 1048576 (loPoly 8 9998 10000)).1 997235 1048576 16 = true := by decide +kernel

end QM.Decimator
