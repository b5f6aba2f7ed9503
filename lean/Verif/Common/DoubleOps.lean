import Verif.Common.Double

/-!
# The error of a rounded statement of a recursive filter
-/

namespace QM.Double

/-- A scale in the middle of the range of a double. -/
structure Scale (M : ℝ) : Prop where
  pos : 0 < M
  small : 1 / 2 ^ 1075 ≤ M / 2 ^ 53
  large : 2 ^ 20 * M ≤ 2 ^ 1023

theorem scale_of (M : ℝ) (h1 : 1 / 2 ^ 1000 ≤ M) (h2 : M ≤ 2 ^ 1000) : Scale M := by
  have hp : (0 : ℝ) < 1 / 2 ^ 1000 := by positivity
  refine ⟨hp.trans_le h1, ?_, ?_⟩
  · rw [show (1 : ℝ) / 2 ^ 1075 = 1 / 2 ^ 1000 * (1 / 2 ^ 75) by
      rw [show 1075 = 1000 + 75 from rfl, pow_add, one_div_mul_one_div]]
    generalize (1 : ℝ) / 2 ^ 1000 = e at *
    have : e * (1 / 2 ^ 75) ≤ e / 2 ^ 53 := by
      rw [div_eq_mul_one_div e]
      exact mul_le_mul_of_nonneg_left (by norm_num) hp.le
    refine this.trans ?_
    exact div_le_div_of_nonneg_right h1 (by norm_num)
  · rw [show (2 : ℝ) ^ 1023 = 2 ^ 23 * 2 ^ 1000 by rw [← pow_add]]
    generalize (2 : ℝ) ^ 1000 = e at *
    have := hp.trans_le h1
    nlinarith

theorem tiny : (1 : ℝ) / 2 ^ 1075 ≤ 1 / 2 ^ 54 := one_div_le_one_div_of_le (by positivity) (pow_le_pow_right₀ (by norm_num) (by norm_num))

theorem huge : (20 : ℝ) ≤ 2 ^ 1023 :=
  le_trans (by norm_num : (20 : ℝ) ≤ 2 ^ 5) (pow_le_pow_right₀ (by norm_num) (by norm_num))

variable {fl : ℝ → ℝ} (hfl : Rounds fl) {M : ℝ} (hM : Scale M)

include hfl hM in
/-- One rounding of a number within `X` times the scale. -/
theorem rnd (x X : ℝ) (hX : X ≤ 2 ^ 20) (hx : |x| ≤ X * M) : |fl x - x| ≤ (X + 1) * (M / 2 ^ 53) := by
  have h := hfl x (hx.trans ((mul_le_mul_of_nonneg_right hX hM.pos.le).trans hM.large))
  have h1 := hM.small
  have h2 := div_le_div_of_nonneg_right hx (show (0 : ℝ) ≤ 2 ^ 53 by norm_num)
  calc |fl x - x| ≤ |x| / 2 ^ 53 + 1 / 2 ^ 1075 := h
    _ ≤ X * M / 2 ^ 53 + M / 2 ^ 53 := add_le_add h2 h1
    _ = (X + 1) * (M / 2 ^ 53) := by ring

include hfl in
/-- A constant of the source. -/
theorem const (c : ℝ) (hc : |c| ≤ 20) : |fl c - c| ≤ 20.5 / 2 ^ 53 := by
  have h := hfl c (hc.trans huge)
  have h1 := tiny
  have h2 := div_le_div_of_nonneg_right hc (show (0 : ℝ) ≤ 2 ^ 53 by norm_num)
  calc |fl c - c| ≤ |c| / 2 ^ 53 + 1 / 2 ^ 1075 := h
    _ ≤ 20 / 2 ^ 53 + 1 / 2 ^ 54 := add_le_add h2 h1
    _ = 20.5 / 2 ^ 53 := by norm_num

include hfl hM in
/-- A product with a constant of the source. -/
theorem mulc (c x X : ℝ) (hc : |c| ≤ 20) (hX0 : 0 ≤ X) (hX : X ≤ 2 ^ 10) (hx : |x| ≤ X * M) :
    |fl (x * fl c) - x * c| ≤ (41.5 * X + 1) * (M / 2 ^ 53) := by
  have h1 := const hfl c hc
  have hXM : 0 ≤ X * M := mul_nonneg hX0 hM.pos.le
  have h2 : |x * fl c - x * c| ≤ X * M * (20.5 / 2 ^ 53) := by
    rw [← mul_sub, abs_mul]
    exact mul_le_mul hx h1 (abs_nonneg _) hXM
  have h3 : |fl c| ≤ 21 := by
    have := abs_sub_abs_le_abs_sub (fl c) c
    norm_num at h1
    linarith
  have h4 : |x * fl c| ≤ 21 * X * M := by
    rw [abs_mul]
    calc |x| * |fl c| ≤ X * M * 21 := mul_le_mul hx h3 (abs_nonneg _) hXM
      _ = 21 * X * M := by ring
  have h5 := rnd hfl hM _ (21 * X) (by norm_num at hX ⊢; linarith) h4
  have h6 := abs_sub_le (fl (x * fl c)) (x * fl c) (x * c)
  calc |fl (x * fl c) - x * c| ≤ (21 * X + 1) * (M / 2 ^ 53) + X * M * (20.5 / 2 ^ 53) := h6.trans (add_le_add h5 h2)
    _ = (41.5 * X + 1) * (M / 2 ^ 53) := by ring

include hM in
theorem unit_pos : 0 ≤ M / 2 ^ 53 := div_nonneg hM.pos.le (by norm_num)

theorem unit_le (hM : Scale M) : 1000 * (M / 2 ^ 53) ≤ M := by
  have := hM.pos
  rw [← mul_div_assoc, div_le_iff₀ (by norm_num)]
  norm_num
  linarith

theorem abs_le_of_sub (x y a b : ℝ) (h : |x - y| ≤ a) (hy : |y| ≤ b) : |x| ≤ a + b := by
  have := abs_sub_abs_le_abs_sub x y
  linarith

include hfl hM in
/-- `x * b + o`. -/
theorem stmtFirst (b x o : ℝ) (hb : |b| ≤ 20) (hx : |x| ≤ M) (ho : |o| ≤ 600 * M) :
    |fl (fl (x * fl b) + o) - (x * b + o)| ≤ 1000 * (M / 2 ^ 53) := by
  have hw := unit_pos hM
  have hwM := unit_le hM
  have hM0 := hM.pos
  have h1 := mulc hfl hM b x 1 hb (by norm_num) (by norm_num) (by rwa [one_mul])
  have hxb : |x * b| ≤ 20 * M := by
    rw [abs_mul]
    nlinarith [abs_nonneg x, abs_nonneg b]
  have h2 : |fl (x * fl b)| ≤ 21 * M := by
    have := abs_le_of_sub _ _ _ _ h1 hxb
    linarith
  have h3 : |fl (x * fl b) + o| ≤ 621 * M := by
    have := abs_add_le (fl (x * fl b)) o
    linarith
  have h4 := rnd hfl hM _ 621 (by norm_num) h3
  have h5 := abs_sub_le (fl (fl (x * fl b) + o)) (fl (x * fl b) + o) (x * b + o)
  rw [add_sub_add_right_eq_sub] at h5
  linarith

include hfl hM in
/-- `x * b - y * a`. -/
theorem stmtLast (b a x y : ℝ) (hb : |b| ≤ 20) (ha : |a| ≤ 20) (hx : |x| ≤ M) (hy : |y| ≤ 3.1 * M) :
    |fl (fl (x * fl b) - fl (y * fl a)) - (x * b - y * a)| ≤ 270 * (M / 2 ^ 53) ∧ |x * b - y * a| ≤ 82 * M := by
  have hw := unit_pos hM
  have hwM := unit_le hM
  have hM0 := hM.pos
  have h1 := mulc hfl hM b x 1 hb (by norm_num) (by norm_num) (by rwa [one_mul])
  have h1' := mulc hfl hM a y 3.1 ha (by norm_num) (by norm_num) hy
  have hxb : |x * b| ≤ 20 * M := by
    rw [abs_mul]
    nlinarith [abs_nonneg x, abs_nonneg b]
  have hya : |y * a| ≤ 62 * M := by
    rw [abs_mul]
    nlinarith [abs_nonneg y, abs_nonneg a]
  have h2 : |fl (x * fl b)| ≤ 21 * M := by
    have := abs_le_of_sub _ _ _ _ h1 hxb
    linarith
  have h2' : |fl (y * fl a)| ≤ 63 * M := by
    have := abs_le_of_sub _ _ _ _ h1' hya
    linarith
  have h3 : |fl (x * fl b) - fl (y * fl a)| ≤ 84 * M := by
    have := abs_sub (fl (x * fl b)) (fl (y * fl a))
    linarith
  have h4 := rnd hfl hM _ 84 (by norm_num) h3
  refine ⟨?_, ?_⟩
  · have h5 := abs_sub_le (fl (fl (x * fl b) - fl (y * fl a))) (fl (x * fl b) - fl (y * fl a)) (x * b - y * a)
    have h6 := abs_sub (fl (x * fl b) - x * b) (fl (y * fl a) - y * a)
    rw [show fl (x * fl b) - x * b - (fl (y * fl a) - y * a) = fl (x * fl b) - fl (y * fl a) - (x * b - y * a) by ring] at h6
    linarith
  · have := abs_sub (x * b) (y * a)
    linarith

include hfl hM in
/-- `x * b - y * a + o`. -/
theorem stmtNext (b a x y o : ℝ) (hb : |b| ≤ 20) (ha : |a| ≤ 20) (hx : |x| ≤ M) (hy : |y| ≤ 3.1 * M) (ho : |o| ≤ 600 * M) :
    |fl (fl (fl (x * fl b) - fl (y * fl a)) + o) - (x * b - y * a + o)| ≤ 1000 * (M / 2 ^ 53) := by
  have hw := unit_pos hM
  have hwM := unit_le hM
  have hM0 := hM.pos
  obtain ⟨h1, h2⟩ := stmtLast hfl hM b a x y hb ha hx hy
  set t := fl (fl (x * fl b) - fl (y * fl a)) with ht
  have h3 : |t| ≤ 83 * M := by
    have := abs_le_of_sub _ _ _ _ h1 h2
    linarith
  have h4 : |t + o| ≤ 683 * M := by
    have := abs_add_le t o
    linarith
  have h5 := rnd hfl hM _ 683 (by norm_num) h4
  have h6 := abs_sub_le (fl (t + o)) (t + o) (x * b - y * a + o)
  rw [add_sub_add_right_eq_sub] at h6
  linarith

end QM.Double
