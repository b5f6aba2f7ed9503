import Verif.Common.Double

/-!
# Rounding to single precision

As in `Verif.Common.Double`, with 24 bits.
-/

namespace QM.Double

/-- `g` rounds to single precision: relative error `2 ^ -24` for normal, absolute error `2 ^ -150` for subnormal numbers. -/
def RoundsF (g : ℝ → ℝ) : Prop := ∀ x, |x| ≤ 2 ^ 127 → |g x - x| ≤ |x| / 2 ^ 24 + 1 / 2 ^ 150

/-- The distance between neighbouring floats near `x`. -/
noncomputable def ulpF (x : ℝ) : ℝ := (2 : ℝ) ^ max (Int.log 2 |x| - 23) (-149)

/-- The nearest float. -/
noncomputable def rnF (x : ℝ) : ℝ := round (x / ulpF x) * ulpF x

theorem roundsF_rnF : RoundsF rnF := by
  intro x _
  by_cases hz : x = 0
  · subst hz
    simp [rnF]
  have hu : 0 < ulpF x := zpow_pos (by norm_num) _
  have h1 : |rnF x - x| ≤ ulpF x / 2 := by
    have h := abs_sub_round (x / ulpF x)
    have e : rnF x - x = -((x / ulpF x - round (x / ulpF x)) * ulpF x) := by
      unfold rnF
      field_simp
      ring
    rw [e, abs_neg, abs_mul, abs_of_pos hu]
    have := mul_le_mul_of_nonneg_right h hu.le
    linarith
  refine h1.trans ?_
  have hx : 0 ≤ |x| / 2 ^ 24 := by positivity
  have h0 : (0 : ℝ) ≤ 1 / 2 ^ 150 := by positivity
  unfold ulpF
  rcases le_total (Int.log 2 |x| - 23) (-149) with h | h
  · rw [max_eq_right h]
    have : (2 : ℝ) ^ (-149 : ℤ) / 2 = 1 / 2 ^ 150 := by
      rw [zpow_neg, show (2 : ℝ) ^ (149 : ℤ) = 2 ^ 149 from zpow_ofNat _ _, pow_succ 2 149, one_div, mul_inv, div_eq_mul_inv]
    linarith
  · rw [max_eq_left h]
    have hl : (2 : ℝ) ^ Int.log 2 |x| ≤ |x| := Int.zpow_log_le_self (by norm_num) (abs_pos.mpr hz)
    have e : (2 : ℝ) ^ (Int.log 2 |x| - 23) / 2 = 2 ^ Int.log 2 |x| / 2 ^ 24 := by
      rw [zpow_sub₀ (by norm_num), show (2 : ℝ) ^ (23 : ℤ) = 2 ^ 23 from zpow_ofNat _ _]
      norm_num
      ring
    rw [e]
    have := div_le_div_of_nonneg_right hl (show (0 : ℝ) ≤ 2 ^ 24 by positivity)
    linarith

end QM.Double
