import Mathlib.Algebra.Order.Round
import Mathlib.Data.Int.Log
import Mathlib.Data.Real.Archimedean
import Mathlib.Tactic.FieldSimp
import Mathlib.Tactic.Linarith

/-!
# Rounding to double precision

`Rounds fl` is what the theorems about rounded arithmetic use: the result of an operation is the exact result, off by at most half a unit in
the last place. It is assumed only in the range of a double, so a theorem that uses it shows as well that nothing overflows. `rn` is
rounding to the nearest double, without an upper limit of the exponent, and meets it.
-/

namespace QM.Double

/-- `fl` rounds to double precision: relative error `2 ^ -53` for normal, absolute error `2 ^ -1075` for subnormal numbers. -/
def Rounds (fl : ℝ → ℝ) : Prop := ∀ x, |x| ≤ 2 ^ 1023 → |fl x - x| ≤ |x| / 2 ^ 53 + 1 / 2 ^ 1075

/-- The distance between neighbouring doubles near `x`: 53 bits, and no bit below `2 ^ -1074`. -/
noncomputable def ulp (x : ℝ) : ℝ := (2 : ℝ) ^ max (Int.log 2 |x| - 52) (-1074)

/-- The nearest double. -/
noncomputable def rn (x : ℝ) : ℝ := round (x / ulp x) * ulp x

theorem rounds_rn : Rounds rn := by
  intro x _
  by_cases hz : x = 0
  · subst hz
    simp [rn]
  have hu : 0 < ulp x := zpow_pos (by norm_num) _
  have h1 : |rn x - x| ≤ ulp x / 2 := by
    have h := abs_sub_round (x / ulp x)
    have e : rn x - x = -((x / ulp x - round (x / ulp x)) * ulp x) := by
      unfold rn
      field_simp
      ring
    rw [e, abs_neg, abs_mul, abs_of_pos hu]
    have := mul_le_mul_of_nonneg_right h hu.le
    linarith
  refine h1.trans ?_
  have hx : 0 ≤ |x| / 2 ^ 53 := by positivity
  have h0 : (0 : ℝ) ≤ 1 / 2 ^ 1075 := by positivity
  unfold ulp
  rcases le_total (Int.log 2 |x| - 52) (-1074) with h | h
  · rw [max_eq_right h]
    have : (2 : ℝ) ^ (-1074 : ℤ) / 2 = 1 / 2 ^ 1075 := by
      rw [zpow_neg, show (2 : ℝ) ^ (1074 : ℤ) = 2 ^ 1074 from zpow_ofNat _ _, pow_succ 2 1074, one_div, mul_inv, div_eq_mul_inv]
    linarith
  · rw [max_eq_left h]
    · have hl : (2 : ℝ) ^ Int.log 2 |x| ≤ |x| := Int.zpow_log_le_self (by norm_num) (abs_pos.mpr hz)
      have e : (2 : ℝ) ^ (Int.log 2 |x| - 52) / 2 = 2 ^ Int.log 2 |x| / 2 ^ 53 := by
        rw [zpow_sub₀ (by norm_num), show (2 : ℝ) ^ (52 : ℤ) = 2 ^ 52 from zpow_ofNat _ _]
        norm_num
        ring
      rw [e]
      have := div_le_div_of_nonneg_right hl (show (0 : ℝ) ≤ 2 ^ 53 by positivity)
      linarith

/-- Numbers that need no rounding: what a double holds is kept. -/
theorem rn_half : rn (1 / 2) = 1 / 2 := by
  have hl : Int.log 2 |(1 / 2 : ℝ)| = -1 := by
    rw [abs_of_pos (by norm_num), show (1 / 2 : ℝ) = ((2 : ℕ) : ℝ) ^ (-1 : ℤ) by norm_num]
    exact Int.log_zpow (by norm_num) _
  have hu : ulp (1 / 2) = 2 ^ (-53 : ℤ) := by
    unfold ulp
    rw [hl]
    norm_num
  unfold rn
  rw [hu]
  have : (1 / 2 : ℝ) / 2 ^ (-53 : ℤ) = ((2 ^ 52 : ℤ) : ℝ) := by
    rw [zpow_neg]
    norm_num
  rw [this, round_intCast, zpow_neg]
  norm_num

end QM.Double
