import Verif.Counting.Model
import Verif.Common.Nearest
import Mathlib.Data.Nat.Sqrt
import Mathlib.Algebra.Order.Archimedean.Real.Basic

/-!
# Ceilings of quotients and floors of roots survive rounding
-/

namespace QM.Counting

open QM QM.Resampler QM.Double

variable {fl : ℝ → ℝ} (hfl : Nearest fl)

theorem cdiv_eq_of {a b k : Nat} (hb : 0 < b) (h1 : a ≤ k * b) (h2 : k * b < a + b) : cdiv a b = k := by
  unfold cdiv
  apply Nat.div_eq_of_lt_le
  · omega
  · rw [Nat.succ_mul]
    omega

theorem cdiv_spec (a b : Nat) (hb : 0 < b) : a ≤ cdiv a b * b ∧ cdiv a b * b < a + b := by
  unfold cdiv
  have h := Nat.div_add_mod (a + b - 1) b
  have h2 := Nat.mod_lt (a + b - 1) hb
  rw [mul_comm] at h
  omega

/-- A small quantity is above the least positive double. -/
theorem tiny106 : (1 : ℝ) / 2 ^ 1075 < 1 / 2 ^ 107 :=
  one_div_lt_one_div_of_lt (by positivity) (pow_lt_pow_right₀ (by norm_num) (by norm_num))

include hfl in
theorem ceil_div (a b : Nat) (ha : a < 2 ^ 53) (hb : 0 < b) (hb' : b ≤ 2 ^ 53) : ⌈fl ((a : ℝ) / b)⌉ = (cdiv a b : ℤ) := by
  obtain ⟨h1, h2⟩ := cdiv_spec a b hb
  set k := cdiv a b with hk
  have hbR : (0 : ℝ) < b := by exact_mod_cast hb
  have h1R : (a : ℝ) ≤ k * b := by exact_mod_cast h1
  have h2R : (k : ℝ) * b < a + b := by exact_mod_cast h2
  have hka : k ≤ a + 1 := by
    by_contra hc
    have : (a + 2) * b ≤ k * b := Nat.mul_le_mul_right _ (by omega)
    nlinarith
  have hkd : IsDbl k := isDbl_nat k (by omega)
  have up : fl ((a : ℝ) / b) ≤ k := hfl.le hkd ((div_le_iff₀ hbR).mpr h1R)
  rw [Int.ceil_eq_iff]
  refine ⟨?_, by exact_mod_cast up⟩
  push_cast
  by_cases heq : a = k * b
  · have : (a : ℝ) / b = k := by
      rw [heq]
      push_cast
      field_simp
    rw [this, hfl.exact hkd]
    linarith
  · have hlt : (k : ℝ) * b - b + 1 ≤ a := by
      have : k * b + 1 ≤ a + b := by omega
      have : ((k * b + 1 : ℕ) : ℝ) ≤ ((a + b : ℕ) : ℝ) := by exact_mod_cast this
      push_cast at this
      linarith
    have ha0 : 0 < a := by
      rcases Nat.eq_zero_or_pos a with h | h
      · subst h
        have : k * b < 1 * b := by omega
        have := Nat.lt_of_mul_lt_mul_right this
        have : k = 0 := by omega
        rw [this] at heq
        simp at heq
      · exact h
    have hq0 : 0 ≤ (a : ℝ) / b := by positivity
    have hqs : (a : ℝ) / b ≤ 2 ^ 53 := by
      rw [div_le_iff₀ hbR]
      have h1 : (a : ℝ) ≤ 2 ^ 53 := by exact_mod_cast ha.le
      have h2 : (1 : ℝ) ≤ b := by exact_mod_cast hb
      nlinarith
    have herr := hfl.rounds ((a : ℝ) / b) (by
      rw [abs_of_nonneg hq0]
      exact hqs.trans (pow_le_pow_right₀ (by norm_num) (by norm_num)))
    rw [abs_of_nonneg hq0] at herr
    have herr := (abs_le.mp herr).1
    have ht := tiny106
    have h3 : (k : ℝ) - 1 + 1 / b ≤ a / b := by
      rw [le_div_iff₀ hbR, add_mul, sub_mul, one_mul, one_div, inv_mul_cancel₀ hbR.ne']
      exact hlt
    have h4 : (a : ℝ) / b / 2 ^ 53 + 1 / 2 ^ 107 ≤ 1 / b := by
      have ha1 : (a : ℝ) ≤ 2 ^ 53 - 1 := by
        have : a + 1 ≤ 2 ^ 53 := by omega
        have : ((a + 1 : ℕ) : ℝ) ≤ ((2 ^ 53 : ℕ) : ℝ) := by exact_mod_cast this
        push_cast at this
        linarith
      have hb1 : (b : ℝ) ≤ 2 ^ 53 := by exact_mod_cast hb'
      have e : 1 / (b : ℝ) - a / b / 2 ^ 53 = (2 ^ 53 - a) / b / 2 ^ 53 := by field_simp
      have : (1 : ℝ) / 2 ^ 53 ≤ (2 ^ 53 - a) / b := by
        rw [le_div_iff₀ hbR]
        have : (1 : ℝ) / 2 ^ 53 * b ≤ 1 := by
          rw [one_div, inv_mul_le_iff₀ (by positivity)]
          linarith
        linarith
      have := div_le_div_of_nonneg_right this (show (0 : ℝ) ≤ 2 ^ 53 by positivity)
      rw [← e] at this
      have e2 : (1 : ℝ) / 2 ^ 53 / 2 ^ 53 = 2 / 2 ^ 107 := by norm_num
      have : (1 : ℝ) / 2 ^ 107 ≤ 2 / 2 ^ 107 := by norm_num
      linarith
    generalize (1 : ℝ) / 2 ^ 1075 = t at *
    linarith

include hfl in
theorem ceilDiv_eq (a b : Nat) (ha : a < 2 ^ 53) (hb : 0 < b) (hb' : b ≤ 2 ^ 53) : ceilDiv fl a b = cdiv a b := by
  unfold ceilDiv
  rw [ceil_div hfl a b ha hb hb', Int.toNat_natCast]

include hfl in
theorem ceilMulDiv_eq (n a b : Nat) (ha : n * a < 2 ^ 53) (hb : 0 < b) (hb' : b ≤ 2 ^ 53) : ceilMulDiv fl n a b = cdiv (n * a) b := by
  unfold ceilMulDiv
  rw [show (n : ℝ) * a = ((n * a : ℕ) : ℝ) by push_cast; rfl, hfl.exact (isDbl_nat _ ha.le), ceil_div hfl _ b ha hb hb', Int.toNat_natCast]

include hfl in
theorem floor_sqrt (n : Nat) (h : n < 2 ^ 50) : ⌊fl (Real.sqrt n)⌋ = (Nat.sqrt n : ℤ) := by
  set k := Nat.sqrt n with hk
  have h1 : k * k ≤ n := Nat.sqrt_le n
  have h2 : n + 1 ≤ (k + 1) * (k + 1) := Nat.succ_le_succ_sqrt n
  have hk26 : k < 2 ^ 25 := by
    by_contra hc
    have : 2 ^ 25 * 2 ^ 25 ≤ k * k := Nat.mul_le_mul (by omega) (by omega)
    omega
  have hkR : (k : ℝ) ≤ Real.sqrt n := Real.le_sqrt_of_sq_le (by
    rw [sq]; exact_mod_cast h1)
  rw [Int.floor_eq_iff]
  refine ⟨by exact_mod_cast hfl.ge (isDbl_nat k (by omega)) hkR, ?_⟩
  push_cast
  set s := Real.sqrt n with hs
  have hs0 : 0 ≤ s := Real.sqrt_nonneg _
  have hss : s * s = n := Real.mul_self_sqrt (by positivity)
  have h2R : s * s + 1 ≤ ((k : ℝ) + 1) * (k + 1) := by
    rw [hss]
    exact_mod_cast h2
  have hk26R : (k : ℝ) + 1 ≤ 2 ^ 25 := by exact_mod_cast hk26
  have hsk : s < k + 1 := by nlinarith
  have herr := hfl.rounds s (by
    rw [abs_of_nonneg hs0]
    have : s ≤ 2 ^ 25 := by linarith
    exact this.trans (pow_le_pow_right₀ (by norm_num) (by norm_num)))
  rw [abs_of_nonneg hs0] at herr
  have herr := (abs_le.mp herr).2
  have ht := tiny106
  have h3 : 1 / 2 ^ 26 ≤ (k : ℝ) + 1 - s := by
    have : 1 ≤ ((k : ℝ) + 1 - s) * 2 ^ 26 := by nlinarith
    rw [div_le_iff₀ (by positivity)]
    exact this
  have h4 : s / 2 ^ 53 ≤ 1 / 2 ^ 27 - 1 / 2 ^ 107 := by
    have : s / 2 ^ 53 ≤ 2 ^ 25 / 2 ^ 53 := div_le_div_of_nonneg_right (by linarith) (by positivity)
    refine this.trans ?_
    norm_num
  generalize (1 : ℝ) / 2 ^ 1075 = t at *
  have h5 : (1 : ℝ) / 2 ^ 27 < 1 / 2 ^ 26 := by norm_num
  linarith

end QM.Counting
