import Verif.Common.Double

/-!
# Rounding to the nearest double

`Nearest fl` says what IEEE 754 says about the result of an operation in its default mode: it is a double, and no double is nearer to the exact
result; which of two is taken in the middle between them is left open. Overflow is not modelled: exponents have no upper limit here.
-/

namespace QM.Double

/-- `d` can be held by a double: 53 bits, none of them below `2 ^ -1074`. -/
def IsDbl (d : ℝ) : Prop := ∃ m e : ℤ, |m| < 2 ^ 53 ∧ -1074 ≤ e ∧ d = m * (2 : ℝ) ^ e

/-- `fl` rounds to nearest. -/
structure Nearest (fl : ℝ → ℝ) : Prop where
  dbl : ∀ x, IsDbl (fl x)
  near : ∀ x d, IsDbl d → |fl x - x| ≤ |d - x|

/-- `m` times a power of two, `m` one more than fits. -/
theorem isDbl_of_le (m e : ℤ) (h : |m| ≤ 2 ^ 53) (he : -1074 ≤ e) : IsDbl (m * (2 : ℝ) ^ e) := by
  rcases h.lt_or_eq with h | h
  · exact ⟨m, e, h, he, rfl⟩
  · rcases abs_eq (by norm_num) |>.mp h with h | h
    · refine ⟨2 ^ 52, e + 1, by norm_num, by omega, ?_⟩
      rw [h, zpow_add₀ (by norm_num)]
      norm_num
      ring
    · refine ⟨-2 ^ 52, e + 1, by norm_num, by omega, ?_⟩
      rw [h, zpow_add₀ (by norm_num)]
      norm_num
      ring

theorem isDbl_int (k : ℤ) (h : |k| ≤ 2 ^ 53) : IsDbl k := by
  have := isDbl_of_le k 0 h (by norm_num)
  simpa using this

theorem isDbl_nat (k : ℕ) (h : k ≤ 2 ^ 53) : IsDbl k := by
  have := isDbl_int k (by rw [abs_of_nonneg (by positivity)]; exact_mod_cast h)
  simpa using this

section
variable {fl : ℝ → ℝ} (hfl : Nearest fl)
include hfl

theorem Nearest.exact {d : ℝ} (h : IsDbl d) : fl d = d := by
  have := hfl.near d d h
  rw [sub_self, abs_zero] at this
  exact sub_eq_zero.mp (abs_eq_zero.mp (le_antisymm this (abs_nonneg _)))

theorem Nearest.ge {d x : ℝ} (h : IsDbl d) (hx : d ≤ x) : d ≤ fl x := by
  by_contra hc
  have := hfl.near x d h
  rw [abs_of_nonpos (by linarith), abs_of_nonpos (by linarith)] at this
  linarith

theorem Nearest.le {d x : ℝ} (h : IsDbl d) (hx : x ≤ d) : fl x ≤ d := by
  by_contra hc
  have := hfl.near x d h
  rw [abs_of_nonneg (by linarith), abs_of_nonneg (by linarith)] at this
  linarith

end

theorem ulp_pos (x : ℝ) : 0 < ulp x := zpow_pos (by norm_num) _

theorem abs_div_ulp_lt {x : ℝ} (hx : x ≠ 0) : |x / ulp x| < 2 ^ 53 := by
  rw [abs_div, abs_of_pos (ulp_pos x), div_lt_iff₀ (ulp_pos x)]
  have h := Int.lt_zpow_succ_log_self (b := 2) (by norm_num) |x|
  refine h.trans_le ?_
  unfold ulp
  rw [show (2 : ℝ) ^ 53 = 2 ^ (53 : ℤ) from (zpow_ofNat _ _).symm, ← zpow_add₀ (by norm_num), Nat.cast_ofNat]
  exact zpow_le_zpow_right₀ (by norm_num) (by omega)

theorem isDbl_rn (x : ℝ) : IsDbl (rn x) := by
  by_cases hx : x = 0
  · subst hx
    exact ⟨0, 0, by norm_num, by norm_num, by simp [rn]⟩
  refine isDbl_of_le _ _ ?_ (le_max_right _ _)
  have h := abs_lt.mp (abs_div_ulp_lt hx)
  rw [abs_le]
  constructor
  · rw [round_eq]
    exact Int.le_floor.mpr (by push_cast; linarith [h.1])
  · rw [round_eq]
    have : ⌊x / ulp x + 1 / 2⌋ < 2 ^ 53 + 1 := Int.floor_lt.mpr (by push_cast; linarith [h.2])
    omega

/-- Multiples of the last place are not nearer. -/
theorem rn_le_mul (x : ℝ) (k : ℤ) : |rn x - x| ≤ |k * ulp x - x| := by
  have hu := ulp_pos x
  have h := round_le (x / ulp x) k
  have e1 : rn x - x = -((x / ulp x - round (x / ulp x)) * ulp x) := by
    unfold rn
    field_simp
    ring
  have e2 : k * ulp x - x = -((x / ulp x - k) * ulp x) := by
    field_simp
    ring
  rw [e1, e2, abs_neg, abs_neg, abs_mul, abs_mul]
  exact mul_le_mul_of_nonneg_right h (abs_nonneg _)

theorem nearest_rn : Nearest rn := by
  refine ⟨isDbl_rn, fun x d hd => ?_⟩
  obtain ⟨m, e, hm, he, rfl⟩ := hd
  by_cases hx : x = 0
  · subst hx
    simp only [rn, zero_div, round_zero, Int.cast_zero, zero_mul, sub_zero, abs_zero]
    exact abs_nonneg _
  have hu : ulp x = (2 : ℝ) ^ max (Int.log 2 |x| - 52) (-1074) := rfl
  by_cases hle : max (Int.log 2 |x| - 52) (-1074) ≤ e
  · have : (m : ℝ) * (2 : ℝ) ^ e = ((m * 2 ^ (e - max (Int.log 2 |x| - 52) (-1074)).toNat : ℤ) : ℝ) * ulp x := by
      rw [hu]
      push_cast
      rw [mul_assoc, ← zpow_natCast, Int.toNat_of_nonneg (by omega), ← zpow_add₀ (by norm_num)]
      congr 2
      ring
    rw [this]
    exact rn_le_mul x _
  · rw [not_le] at hle
    have h52 : max (Int.log 2 |x| - 52) (-1074) = Int.log 2 |x| - 52 := by
      rcases le_total (Int.log 2 |x| - 52) (-1074) with h | h
      · rw [max_eq_right h] at hle
        omega
      · exact max_eq_left h
    rw [h52] at hle hu
    have hl : (2 : ℝ) ^ Int.log 2 |x| ≤ |x| := Int.zpow_log_le_self (by norm_num) (abs_pos.mpr hx)
    have hp : (2 : ℝ) ^ Int.log 2 |x| = 2 ^ 52 * ulp x := by
      rw [hu, show (2 : ℝ) ^ 52 = 2 ^ (52 : ℤ) from (zpow_ofNat _ _).symm, ← zpow_add₀ (by norm_num)]
      congr 1
      ring
    have hd : |(m : ℝ) * (2 : ℝ) ^ e| ≤ 2 ^ 52 * ulp x := by
      rw [← hp, abs_mul, abs_of_pos (zpow_pos (by norm_num : (0 : ℝ) < 2) e)]
      have hm' : |(m : ℝ)| ≤ 2 ^ 53 := by exact_mod_cast hm.le
      calc |(m : ℝ)| * 2 ^ e ≤ 2 ^ 53 * 2 ^ e := mul_le_mul_of_nonneg_right hm' (zpow_pos (by norm_num) _).le
        _ = 2 ^ (53 + e) := by rw [show (2 : ℝ) ^ 53 = 2 ^ (53 : ℤ) from (zpow_ofNat _ _).symm, ← zpow_add₀ (by norm_num)]
        _ ≤ 2 ^ Int.log 2 |x| := zpow_le_zpow_right₀ (by norm_num) (by omega)
    rw [hp] at hl
    rcases lt_or_gt_of_ne hx with hneg | hpos
    · refine (rn_le_mul x (-2 ^ 52)).trans ?_
      rw [abs_of_neg hneg] at hl
      have := (abs_le.mp hd).1
      push_cast
      rw [abs_of_nonneg (by linarith), abs_of_nonneg (by linarith)]
      linarith
    · refine (rn_le_mul x (2 ^ 52)).trans ?_
      rw [abs_of_pos hpos] at hl
      have := (abs_le.mp hd).2
      push_cast
      rw [abs_of_nonpos (by linarith), abs_of_nonpos (by linarith)]
      linarith

/-- What rounding to nearest is has at most half a unit in the last place of error. -/
theorem Nearest.rounds {fl : ℝ → ℝ} (hfl : Nearest fl) : Rounds fl := fun x hx => (hfl.near x _ (isDbl_rn x)).trans (rounds_rn x hx)

end QM.Double
