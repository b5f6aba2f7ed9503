import Verif.ConstantQ.Rounded
import Verif.ConstantQ.Kernel
import Verif.Pitch.RoundedLemmas

/-! # Sizes of the constant-Q transform in floating point: lemmas -/

namespace QM.ConstantQ.Rounded

open QM QM.Double
open QM.Pitch.Rounded (flD log_one_add_le)

/-- A C library: `log` is off by at most one unit in the last place; `pow`, with base 2 and exponents that are not negative, too, it is never below one, and exact where the
exponent is whole. -/
structure Libm (logF : ℝ → ℝ) (powF : ℝ → ℝ → ℝ) : Prop where
  log : ∀ x, 1 ≤ x → x ≤ 2 ^ 64 → |logF x - Real.log x| ≤ |Real.log x| * (2 / 2 ^ 53) + 1 / 2 ^ 1075
  pow : ∀ y, 0 ≤ y → y ≤ 64 → |powF 2 y - (2 : ℝ) ^ y| ≤ (2 : ℝ) ^ y * (2 / 2 ^ 53)
  pow_ge : ∀ y, 0 ≤ y → 1 ≤ powF 2 y
  pow_int : ∀ n : ℤ, 0 ≤ n → n ≤ 64 → powF 2 n = (2 : ℝ) ^ n

variable {fl logF : ℝ → ℝ} {powF : ℝ → ℝ → ℝ}

theorem _root_.QM.Double.Nearest.mono (hfl : Nearest fl) {x y : ℝ} (h : x ≤ y) : fl x ≤ fl y := by
  by_contra hc
  rw [not_le] at hc
  have h1 := hfl.near x (fl y) (hfl.dbl y)
  have h2 := hfl.near y (fl x) (hfl.dbl x)
  rcases h.eq_or_lt with rfl | h
  · exact lt_irrefl _ hc
  rcases le_total (fl y) x with a | a
  · rw [abs_sub_comm (fl y) x, abs_of_nonneg (by linarith : 0 ≤ x - fl y)] at h1
    rw [abs_sub_comm (fl y) y, abs_of_nonneg (by linarith : 0 ≤ y - fl y)] at h2
    have b1 := (abs_le.1 h1).2
    rcases le_total (fl x) y with b | b
    · rw [abs_of_nonpos (by linarith)] at h2
      linarith
    · rw [abs_of_nonneg (by linarith)] at h2
      linarith
  · exact absurd (hfl.le (hfl.dbl y) a) (not_le.2 hc)

theorem flSmall {X : ℝ} : X / 2 ^ 53 = X * (1 / 2 ^ 53) := by ring

theorem log2_bounds : 69 / 100 < Real.log 2 ∧ Real.log 2 < 7 / 10 := by
  have a := Real.log_two_gt_d9
  have b := Real.log_two_lt_d9
  constructor <;> norm_num at * <;> linarith

theorem log_near (hlib : Libm logF powF) (x : ℝ) (h1 : 1 ≤ x) (h2 : x ≤ 2 ^ 64) : |logF x - Real.log x| ≤ 92 / 2 ^ 53 := by
  have h := hlib.log x h1 h2
  have hl : Real.log x ≤ 45 := by
    calc Real.log x ≤ Real.log (2 ^ 64) := Real.log_le_log (by linarith) h2
      _ = 64 * Real.log 2 := by rw [Real.log_pow]; norm_num
      _ ≤ 45 := by linarith [log2_bounds.2]
  rw [abs_of_nonneg (Real.log_nonneg h1)] at h
  have hs : (1 : ℝ) / 2 ^ 1075 ≤ 1 / 2 ^ 53 := one_div_le_one_div_of_le (by positivity) (pow_le_pow_right₀ (by norm_num) (by norm_num))
  generalize (1 : ℝ) / 2 ^ 1075 = t at *
  refine h.trans ?_
  have := mul_le_mul_of_nonneg_right hl (by norm_num : (0 : ℝ) ≤ 2 / 2 ^ 53)
  norm_num at *
  linarith

theorem log2_near (hlib : Libm logF powF) : |logF 2 - Real.log 2| ≤ 3 / 2 ^ 53 := by
  have h := hlib.log 2 (by norm_num) (by norm_num)
  rw [abs_of_pos (Real.log_pos (by norm_num))] at h
  have hs : (1 : ℝ) / 2 ^ 1075 ≤ 1 / 2 ^ 53 := one_div_le_one_div_of_le (by positivity) (pow_le_pow_right₀ (by norm_num) (by norm_num))
  generalize (1 : ℝ) / 2 ^ 1075 = t at *
  have := log2_bounds.2
  norm_num at *
  linarith

/-- A quotient by the logarithm of two. -/
theorem quot_near (hfl : Rounds fl) (hlib : Libm logF powF) (m v E : ℝ) (hE : 0 ≤ E) (hE' : E ≤ 2 ^ 32) (hv0 : 0 ≤ v) (hv : v ≤ 2 ^ 28) (hm : |m - v * Real.log 2| ≤ E / 2 ^ 53) :
    |fl (m / logF 2) - v| ≤ (E * 2 + v * 6 + 2) / 2 ^ 53 := by
  have hk := log2_near hlib
  obtain ⟨l1, l2⟩ := log2_bounds
  generalize logF 2 = k at *
  obtain ⟨k1, k2⟩ := abs_le.1 hk
  norm_num at k1 k2
  have kp : 68 / 100 < k := by linarith
  have hq : |m / k - v| ≤ (E * (3 / 2) + v * (9 / 2)) / 2 ^ 53 := by
    rw [div_sub' (by linarith : k ≠ 0), abs_div, abs_of_pos (by linarith : 0 < k), div_le_iff₀ (by linarith)]
    have e1 : m - k * v = (m - v * Real.log 2) + v * (Real.log 2 - k) := by ring
    rw [e1]
    have h2 : |v * (Real.log 2 - k)| ≤ v * (3 / 2 ^ 53) := by
      rw [abs_mul, abs_of_nonneg hv0, abs_sub_comm]
      exact mul_le_mul_of_nonneg_left hk hv0
    refine (abs_add_le _ _).trans ((add_le_add hm h2).trans ?_)
    have h3 : (E * (3 / 2) + v * (9 / 2)) / 2 ^ 53 * (68 / 100) ≤ (E * (3 / 2) + v * (9 / 2)) / 2 ^ 53 * k :=
      mul_le_mul_of_nonneg_left kp.le (by positivity)
    refine le_trans ?_ h3
    norm_num
    linarith
  have hs : (E * (3 / 2) + v * (9 / 2)) / 2 ^ 53 ≤ 1 / 4 := by
    norm_num at *
    linarith
  have hb : |m / k| ≤ v + 1 / 4 := by
    have := abs_add_le (m / k - v) v
    rw [sub_add_cancel, abs_of_nonneg hv0] at this
    linarith
  have hr := flD hfl (m / k) (v + 1 / 4) hb (by norm_num at *; linarith)
  have := abs_add_le (fl (m / k) - m / k) (m / k - v)
  rw [sub_add_sub_cancel] at this
  refine this.trans ((add_le_add hr hq).trans ?_)
  norm_num
  linarith

/-- The number of bins for whole octaves, before it is rounded up. -/
theorem bins_near (hfl : Rounds fl) (hlib : Libm logF powF) (bpo c : Nat) (hb : bpo ≤ 2 ^ 20) (hc : c ≤ 64) :
    |fl (fl (bpo * logF ((2 : ℝ) ^ c)) / logF 2) - bpo * c| ≤ 1 / 2 := by
  have hb' : (bpo : ℝ) ≤ 2 ^ 20 := by exact_mod_cast hb
  have hc' : (c : ℝ) ≤ 64 := by exact_mod_cast hc
  have b0 : (0 : ℝ) ≤ bpo := Nat.cast_nonneg _
  have c0 : (0 : ℝ) ≤ c := Nat.cast_nonneg _
  have h1 := log_near hlib ((2 : ℝ) ^ c) (one_le_pow₀ (by norm_num)) (pow_le_pow_right₀ (by norm_num) hc)
  rw [Real.log_pow] at h1
  obtain ⟨l1, l2⟩ := log2_bounds
  have hcl : c * Real.log 2 ≤ 64 * (7 / 10) := mul_le_mul hc' l2.le (by linarith) (by norm_num)
  have hcl0 : 0 ≤ c * Real.log 2 := mul_nonneg c0 (by linarith)
  set l := logF ((2 : ℝ) ^ c)
  obtain ⟨t1, t2⟩ := abs_le.1 h1
  norm_num at t1 t2
  have hl : |l| ≤ 50 := abs_le.2 ⟨by linarith, by linarith⟩
  have hbl : |bpo * l| ≤ 2 ^ 20 * 50 := by
    rw [abs_mul, abs_of_nonneg b0]
    exact mul_le_mul hb' hl (abs_nonneg _) (by norm_num)
  have h2 := flD hfl (bpo * l) (2 ^ 20 * 50) hbl (by norm_num)
  have h3 : |bpo * l - bpo * c * Real.log 2| ≤ 2 ^ 20 * (92 / 2 ^ 53) := by
    rw [mul_assoc, ← mul_sub, abs_mul, abs_of_nonneg b0]
    exact mul_le_mul hb' h1 (abs_nonneg _) (by norm_num)
  have h4 := abs_add_le (fl (bpo * l) - bpo * l) (bpo * l - bpo * c * Real.log 2)
  rw [sub_add_sub_cancel] at h4
  have hv : (bpo : ℝ) * c ≤ 2 ^ 20 * 64 := mul_le_mul hb' hc' c0 (by norm_num)
  have h5 := quot_near hfl hlib (fl (bpo * l)) (bpo * c) (2 ^ 28) (by norm_num) (by norm_num) (mul_nonneg b0 c0) (hv.trans (by norm_num))
    (h4.trans ((add_le_add h2 h3).trans (by norm_num)))
  refine h5.trans ?_
  norm_num at *
  linarith

/-- The number of octaves, before it is rounded up. -/
theorem octaves_near (hfl : Nearest fl) (hlib : Libm logF powF) (r : ℝ) (h1 : 1 ≤ r) (h2 : r ≤ 2 ^ 60) :
    |fl (logF (fl r) / logF 2) - Real.log r / Real.log 2| ≤ 1 / 2 ^ 43 := by
  have d1 : IsDbl 1 := by simpa using isDbl_nat 1 (by norm_num)
  have d2 : IsDbl (2 ^ 60) := by simpa using isDbl_of_le 1 60 (by norm_num) (by norm_num)
  have a1 := hfl.ge d1 h1
  have a2 := hfl.le d2 h2
  have hr := hfl.rounds r (by
    rw [abs_of_pos (by linarith)]
    exact h2.trans (pow_le_pow_right₀ (by norm_num) (by norm_num)))
  rw [abs_of_pos (by linarith : 0 < r)] at hr
  have hs : (1 : ℝ) / 2 ^ 1075 ≤ 1 / 2 ^ 53 := one_div_le_one_div_of_le (by positivity) (pow_le_pow_right₀ (by norm_num) (by norm_num))
  generalize (1 : ℝ) / 2 ^ 1075 = t at *
  set s := fl r
  have hδ : |(s - r) / r| ≤ 2 / 2 ^ 53 := by
    rw [abs_div, abs_of_pos (by linarith : 0 < r), div_le_iff₀ (by linarith)]
    refine hr.trans ?_
    norm_num at *
    linarith
  have hlog : |Real.log s - Real.log r| ≤ 4 / 2 ^ 53 := by
    rw [← Real.log_div (by linarith) (by linarith)]
    have e : s / r = 1 + (s - r) / r := by field_simp; ring
    rw [e]
    have := log_one_add_le ((s - r) / r) (hδ.trans (by norm_num))
    refine this.trans ?_
    norm_num at *
    linarith
  have hl := log_near hlib s a1 (a2.trans (by norm_num))
  have h4 := abs_add_le (logF s - Real.log s) (Real.log s - Real.log r)
  rw [sub_add_sub_cancel] at h4
  obtain ⟨l1, l2⟩ := log2_bounds
  have hlr : Real.log r ≤ 60 * Real.log 2 := by
    calc Real.log r ≤ Real.log (2 ^ 60) := Real.log_le_log (by linarith) h2
      _ = 60 * Real.log 2 := by rw [Real.log_pow]; norm_num
  have hv : Real.log r / Real.log 2 ≤ 60 := by
    rw [div_le_iff₀ (by linarith)]
    exact hlr
  have h5 := quot_near hfl.rounds hlib (logF s) (Real.log r / Real.log 2) 96 (by norm_num) (by norm_num)
    (div_nonneg (Real.log_nonneg h1) (by linarith)) (hv.trans (by norm_num)) (by
      rw [div_mul_cancel₀ _ (by linarith : Real.log 2 ≠ 0)]
      refine h4.trans ((add_le_add hl hlog).trans ?_)
      norm_num)
  refine h5.trans ?_
  norm_num at *
  linarith

end QM.ConstantQ.Rounded
