import Verif.DCT.Unitary

/-!
# Rounding errors of the scale factors
-/

namespace QM.DCT

open QM.FFT QM.DFT QM.Kiss QM.Double Finset

/-! ## One operation -/

section Abstract

variable {fl : ℝ → ℝ} {M u τ : ℝ} (hr : ∀ x, |x| ≤ M → |fl x - x| ≤ u * (|x| + τ)) (hu : 0 ≤ u) (hu1 : u ≤ 1 / 1000000) (hτ : 0 ≤ τ)

include hr hu hu1 hτ

omit hτ in
theorem div_near {v s t : ℝ} (hs : 0 < s) (ht : |t - s| ≤ 4 * u * s) (hM : 2 * |v / s| ≤ M) : |fl (v / t) - v / s| ≤ 6 * u * |v / s| + u * τ := by
  have ht0 : 0 < t := by
    have := (abs_le.mp ht).1
    have : 4 * u * s ≤ 1 / 2 * s := mul_le_mul_of_nonneg_right (by linarith) hs.le
    linarith
  obtain ⟨w, hw⟩ : ∃ w, w = v / t := ⟨_, rfl⟩
  obtain ⟨x, hx⟩ : ∃ x, x = v / s := ⟨_, rfl⟩
  have e1 : w * t = v := by rw [hw]; field_simp
  have e2 : x * s = v := by rw [hx]; field_simp
  rw [← hx] at hM
  rw [← hw, ← hx]
  have h1 : |w - x| ≤ 4 * u * |w| := by
    have e3 : (w - x) * s = w * (s - t) := by linarith
    have h2 : |w - x| * s = |w| * |s - t| := by rw [← abs_mul, ← e3, abs_mul, abs_of_pos hs]
    have h3 : |w| * |s - t| ≤ |w| * (4 * u * s) := mul_le_mul_of_nonneg_left (by rwa [abs_sub_comm]) (abs_nonneg _)
    refine le_of_mul_le_mul_right ?_ hs
    linarith
  have h2 : |w| ≤ |x| + |w - x| := by
    have := abs_add_le x (w - x)
    rwa [add_sub_cancel] at this
  have hw0 := abs_nonneg w
  have hx0 := abs_nonneg x
  have h4 : 4 * u * |w| ≤ 1 / 100 * |w| := mul_le_mul_of_nonneg_right (by linarith) hw0
  have h5 : |w| ≤ 102 / 100 * |x| := by linarith
  have h6 := hr w (by linarith)
  have h7 : u * |w| ≤ u * (102 / 100 * |x|) := mul_le_mul_of_nonneg_left h5 hu
  have h8 : 0 ≤ u * |x| := by positivity
  refine (abs_sub_le _ w _).trans ?_
  linarith

omit hτ in
theorem mul_near {y s t : ℝ} (hs : 0 < s) (ht : |t - s| ≤ 4 * u * s) (hM : 2 * |y * s| ≤ M) : |fl (y * t) - y * s| ≤ 6 * u * |y * s| + u * τ := by
  have e1 : |y * s| = |y| * s := by rw [abs_mul, abs_of_pos hs]
  rw [e1] at hM ⊢
  have hy0 := abs_nonneg y
  have h1 : |y * t - y * s| ≤ 4 * u * (|y| * s) := by
    rw [← mul_sub, abs_mul]
    have := mul_le_mul_of_nonneg_left ht hy0
    linarith
  have hp : 0 ≤ |y| * s := by positivity
  have h2 : |y * t| ≤ |y| * s + |y * t - y * s| := by
    have := abs_add_le (y * s) (y * t - y * s)
    rwa [add_sub_cancel, e1] at this
  have h4 : 4 * u * (|y| * s) ≤ 1 / 100 * (|y| * s) := mul_le_mul_of_nonneg_right (by linarith) hp
  have h6 := hr (y * t) (by linarith)
  have h7 : u * |y * t| ≤ u * (102 / 100 * (|y| * s)) := mul_le_mul_of_nonneg_left (by linarith) hu
  have h8 : 0 ≤ u * (|y| * s) := by positivity
  refine (abs_sub_le _ (y * t) _).trans ?_
  linarith

omit hu1 hτ in
theorem sqrt2_near (hτ1 : τ ≤ 1) (hM : 4 ≤ M) : |fl (Real.sqrt 2) - Real.sqrt 2| ≤ 4 * u * Real.sqrt 2 := by
  have h1 : 1 ≤ Real.sqrt 2 := Real.one_le_sqrt.mpr (by norm_num)
  have h2 : Real.sqrt 2 ≤ 2 := Real.sqrt_le_iff.mpr ⟨by norm_num, by norm_num⟩
  have h3 := hr (Real.sqrt 2) (by rw [abs_of_nonneg (by linarith)]; linarith)
  rw [abs_of_nonneg (by linarith : (0 : ℝ) ≤ Real.sqrt 2)] at h3
  have h4 : u * (Real.sqrt 2 + τ) ≤ u * (4 * Real.sqrt 2) := mul_le_mul_of_nonneg_left (by linarith) hu
  linarith

omit hτ in
theorem scale_near {n : ℝ} (hn : 1 ≤ n) (hnτ : n * τ ≤ 1 / 10000) (hM : 4 * n ≤ M) :
    |fl (n * fl (Real.sqrt (fl (2 / n)))) - n * Real.sqrt (2 / n)| ≤ 4 * u * (n * Real.sqrt (2 / n)) := by
  have hn0 : 0 < n := by linarith
  obtain ⟨b, hb⟩ : ∃ b, b = Real.sqrt (2 / n) := ⟨_, rfl⟩
  have hb0 : 0 < b := by rw [hb]; exact Real.sqrt_pos.mpr (by positivity)
  have hbb : b * b = 2 / n := by rw [hb]; exact Real.mul_self_sqrt (by positivity)
  rw [← hb, ← hbb]
  have hnbb : n * (b * b) = 2 := by rw [hbb]; field_simp
  have hb2 : b * b ≤ 2 := by nlinarith
  have hb3 : b ≤ 2 := by nlinarith
  have hnb : 1 ≤ n * b := by
    have : n * b * b ≤ n * b * 2 := mul_le_mul_of_nonneg_left hb3 (by positivity)
    linarith
  have t1 : τ ≤ b / 10000 := by
    refine le_of_mul_le_mul_left ?_ hn0
    linarith
  have t2 : τ ≤ b * b / 1000 := by
    refine le_of_mul_le_mul_left ?_ hn0
    linarith
  have hbbp : 0 < b * b := by positivity
  have a1 := hr (b * b) (by rw [abs_of_pos hbbp]; linarith)
  rw [abs_of_pos hbbp] at a1
  have a2 : |fl (b * b) - b * b| ≤ 1001 / 1000 * u * (b * b) := by
    have := mul_le_mul_of_nonneg_left t2 hu
    linarith
  have a3 : 0 ≤ fl (b * b) := by
    have := (abs_le.mp a2).1
    have : 1001 / 1000 * u * (b * b) ≤ 1 * (b * b) := mul_le_mul_of_nonneg_right (by linarith) hbbp.le
    linarith
  obtain ⟨c, hc⟩ : ∃ c, c = Real.sqrt (fl (b * b)) := ⟨_, rfl⟩
  have hc0 : 0 ≤ c := by rw [hc]; exact Real.sqrt_nonneg _
  have hcc : c * c = fl (b * b) := by rw [hc]; exact Real.mul_self_sqrt a3
  rw [← hc]
  have a4 : |c - b| ≤ 1001 / 1000 * u * b := by
    refine le_of_mul_le_mul_right ?_ hb0
    have e : |c - b| * (c + b) = |fl (b * b) - b * b| := by
      rw [← hcc, show c * c - b * b = (c - b) * (c + b) by ring, abs_mul, abs_of_nonneg (show 0 ≤ c + b by linarith)]
    have : |c - b| * b ≤ |c - b| * (c + b) := mul_le_mul_of_nonneg_left (by linarith) (abs_nonneg _)
    linarith
  have hub : 0 ≤ u * b := by positivity
  have hub1 : u * b ≤ 1 / 1000000 * b := mul_le_mul_of_nonneg_right hu1 hb0.le
  have c1 := abs_le.mp a4
  have cu : c ≤ 1001 / 1000 * b := by linarith
  have a5 := hr c (by rw [abs_of_nonneg hc0]; linarith)
  rw [abs_of_nonneg hc0] at a5
  have a6 : u * (c + τ) ≤ u * (1002 / 1000 * b) := mul_le_mul_of_nonneg_left (by linarith) hu
  have a7 : |fl c - b| ≤ 2003 / 1000 * u * b := by
    refine (abs_sub_le _ c _).trans ?_
    linarith
  obtain ⟨e, he⟩ : ∃ e, e = fl c := ⟨_, rfl⟩
  rw [← he] at a7 ⊢
  have c2 := abs_le.mp a7
  have e0 : 0 ≤ e := by linarith
  have eu : e ≤ 1001 / 1000 * b := by linarith
  have a8 : |n * e - n * b| ≤ 2003 / 1000 * u * (n * b) := by
    rw [← mul_sub, abs_mul, abs_of_pos hn0]
    have := mul_le_mul_of_nonneg_left a7 hn0.le
    linarith
  have hne : n * e ≤ n * (1001 / 1000 * b) := mul_le_mul_of_nonneg_left eu hn0.le
  have hnb2 : n * b ≤ n * 2 := mul_le_mul_of_nonneg_left hb3 hn0.le
  have a9 := hr (n * e) (by rw [abs_of_nonneg (by positivity)]; linarith)
  rw [abs_of_nonneg (show 0 ≤ n * e by positivity)] at a9
  have hbn : b ≤ n * b := by nlinarith
  have b1 : u * (n * e + τ) ≤ u * (1002 / 1000 * (n * b)) := mul_le_mul_of_nonneg_left (by linarith) hu
  have b2 : 0 ≤ u * (n * b) := by positivity
  refine (abs_sub_le _ (n * e) _).trans ?_
  linarith

/-- The two divisions of `forwardUnitary`. -/
theorem forward_near {v X S D s t r : ℝ} (hs : 1 ≤ s) (ht : |t - s| ≤ 4 * u * s) (hq : |r - Real.sqrt 2| ≤ 4 * u * Real.sqrt 2) (hv : |v - 2 * X| ≤ D)
    (hX : |X| ≤ S) (hM : 8 * (2 * S + D) + 8 * τ ≤ M) :
    |fl (v / t) - 2 * X / s| ≤ (D + 30 * u * (S + D)) / s + 3 * (u * τ) ∧ |fl (fl (v / t) / r) - 2 * X / s / Real.sqrt 2| ≤ (D + 30 * u * (S + D)) / s + 3 * (u * τ) := by
  have hs0 : 0 < s := by linarith
  have hD : 0 ≤ D := (abs_nonneg _).trans hv
  have hS : 0 ≤ S := (abs_nonneg _).trans hX
  have v1 : |v| ≤ 2 * S + D := by
    rw [abs_le] at hv hX ⊢
    constructor <;> linarith
  have w1 : |v / s| ≤ (2 * S + D) / s := by rw [abs_div, abs_of_pos hs0]; exact div_le_div_of_nonneg_right v1 hs0.le
  have w2 : (2 * S + D) / s ≤ 2 * S + D := div_le_self (by linarith) hs
  have w3 : |v / s - 2 * X / s| ≤ D / s := by
    rw [← sub_div, abs_div, abs_of_pos hs0]; exact div_le_div_of_nonneg_right hv hs0.le
  have w4 : |2 * X / s| ≤ 2 * S / s := by
    rw [abs_div, abs_of_pos hs0]
    refine div_le_div_of_nonneg_right ?_ hs0.le
    rw [abs_mul, abs_of_pos (by norm_num : (0 : ℝ) < 2)]; linarith
  have h1 := div_near hr hu hu1 hs0 ht (v := v) (by linarith)
  obtain ⟨p, hp⟩ : ∃ p, p = S / s := ⟨_, rfl⟩
  obtain ⟨q, hq'⟩ : ∃ q, q = D / s := ⟨_, rfl⟩
  have p0 : 0 ≤ p := by rw [hp]; positivity
  have q0 : 0 ≤ q := by rw [hq']; positivity
  have e1 : (2 * S + D) / s = 2 * p + q := by rw [hp, hq']; ring
  have e2 : (D + 30 * u * (S + D)) / s = q + 30 * u * (p + q) := by rw [hp, hq']; ring
  have e3 : 2 * S / s = 2 * p := by rw [hp]; ring
  rw [e1] at w1 w2
  rw [← hq'] at w3
  rw [e3] at w4
  rw [e2]
  have up : 0 ≤ u * p := by positivity
  have uq : 0 ≤ u * q := by positivity
  have uτ : 0 ≤ u * τ := by positivity
  have h2 : 6 * u * |v / s| ≤ 6 * u * (2 * p + q) := mul_le_mul_of_nonneg_left w1 (by linarith)
  have h3 : |fl (v / t) - 2 * X / s| ≤ q + 6 * u * (2 * p + q) + u * τ := (abs_sub_le _ (v / s) _).trans (by linarith)
  refine ⟨h3.trans (by linarith), ?_⟩
  obtain ⟨o, ho⟩ : ∃ o, o = fl (v / t) := ⟨_, rfl⟩
  obtain ⟨x, hx⟩ : ∃ x, x = 2 * X / s := ⟨_, rfl⟩
  rw [← ho, ← hx] at h3
  rw [← hx] at w4
  rw [← ho, ← hx]
  have g1 : 1 ≤ Real.sqrt 2 := Real.one_le_sqrt.mpr (by norm_num)
  have g0 : 0 < Real.sqrt 2 := by linarith
  have us1 : u * p ≤ 1 / 1000000 * p := mul_le_mul_of_nonneg_right hu1 p0
  have us2 : u * q ≤ 1 / 1000000 * q := mul_le_mul_of_nonneg_right hu1 q0
  have us3 : u * τ ≤ 1 / 1000000 * τ := mul_le_mul_of_nonneg_right hu1 hτ
  have o1 : |o| ≤ 21 / 10 * p + 11 / 10 * q + τ / 1000 := by
    have : |o| ≤ |o - x| + |x| := by simpa using abs_add_le (o - x) x
    linarith
  have o2 : |o / Real.sqrt 2| ≤ |o| := by rw [abs_div, abs_of_pos g0]; exact div_le_self (abs_nonneg _) g1
  have k1 := div_near hr hu hu1 g0 hq (v := o) (by linarith)
  have k2 : 6 * u * |o / Real.sqrt 2| ≤ 6 * u * (21 / 10 * p + 11 / 10 * q + τ / 1000) := mul_le_mul_of_nonneg_left (o2.trans o1) (by linarith)
  have k3 : |o / Real.sqrt 2 - x / Real.sqrt 2| ≤ 3 / 4 * |o - x| := by
    rw [← sub_div, abs_div, abs_of_pos g0, div_le_iff₀ g0]
    have g2 : 4 / 3 ≤ Real.sqrt 2 := Real.le_sqrt_of_sq_le (by norm_num)
    have := mul_le_mul_of_nonneg_left g2 (abs_nonneg (o - x))
    linarith
  refine (abs_sub_le _ (o / Real.sqrt 2) _).trans ?_
  linarith

/-- The two multiplications of `inverseUnitary`. -/
theorem inverse_near {y s t r : ℝ} (hs : 0 < s) (ht : |t - s| ≤ 4 * u * s) (hq : |r - Real.sqrt 2| ≤ 4 * u * Real.sqrt 2) (hM : 8 * |y * s| + 8 * τ ≤ M) :
    |fl (y * t) - y * s| ≤ 20 * u * |y * s| + 3 * (u * τ) ∧ |fl (fl (y * t) * r) - y * s * Real.sqrt 2| ≤ 20 * u * |y * s| + 3 * (u * τ) := by
  have h1 := mul_near hr hu hu1 hs ht (y := y) (by linarith [abs_nonneg (y * s)])
  obtain ⟨x, hx⟩ : ∃ x, x = y * s := ⟨_, rfl⟩
  obtain ⟨z, hz⟩ : ∃ z, z = fl (y * t) := ⟨_, rfl⟩
  rw [← hz, ← hx] at h1
  rw [← hx] at hM
  rw [← hz, ← hx]
  have x0 := abs_nonneg x
  have ux : 0 ≤ u * |x| := by positivity
  have uτ : 0 ≤ u * τ := by positivity
  have us1 : u * |x| ≤ 1 / 1000000 * |x| := mul_le_mul_of_nonneg_right hu1 x0
  have us3 : u * τ ≤ 1 / 1000000 * τ := mul_le_mul_of_nonneg_right hu1 hτ
  refine ⟨h1.trans (by linarith), ?_⟩
  have g1 : 1 ≤ Real.sqrt 2 := Real.one_le_sqrt.mpr (by norm_num)
  have g0 : 0 < Real.sqrt 2 := by linarith
  have g2 : Real.sqrt 2 ≤ 3 / 2 := Real.sqrt_le_iff.mpr ⟨by norm_num, by norm_num⟩
  have z1 : |z| ≤ 1001 / 1000 * |x| + τ / 1000 := by
    have : |z| ≤ |z - x| + |x| := by simpa using abs_add_le (z - x) x
    linarith
  have z2 : |z * Real.sqrt 2| ≤ 16 / 10 * |x| + τ / 100 := by
    rw [abs_mul, abs_of_pos g0]
    have := mul_le_mul_of_nonneg_left g2 (abs_nonneg z)
    linarith
  have k1 := mul_near hr hu hu1 g0 hq (y := z) (by linarith)
  have k2 : 6 * u * |z * Real.sqrt 2| ≤ 6 * u * (16 / 10 * |x| + τ / 100) := mul_le_mul_of_nonneg_left z2 (by linarith)
  have k3 : |z * Real.sqrt 2 - x * Real.sqrt 2| ≤ 3 / 2 * |z - x| := by
    rw [← sub_mul, abs_mul, abs_of_pos g0, mul_comm]
    exact mul_le_mul_of_nonneg_right g2 (abs_nonneg _)
  refine (abs_sub_le _ (z * Real.sqrt 2) _).trans ?_
  linarith

end Abstract

/-! ## Doubles -/

theorem rounds_rel {fl : ℝ → ℝ} (hfl : Rounds fl) : ∀ x, |x| ≤ 2 ^ 1023 → |fl x - x| ≤ 1 / 2 ^ 53 * (|x| + 1 / 2 ^ 1022) := by
  intro x hx
  refine (hfl x hx).trans (le_of_eq ?_)
  rw [mul_add, one_div_mul_one_div, ← pow_add, one_div_mul_eq_div]

theorem tiny_small {n : Nat} (h2 : 4 * n ≤ 2147483647) : (n : ℝ) * (1 / 2 ^ 1022) ≤ 1 / 10000 := by
  have h3 : (n : ℝ) ≤ 2 ^ 32 := by
    have : (n : ℝ) ≤ 2147483647 := by exact_mod_cast (show n ≤ 2147483647 by omega)
    linarith [show (2147483647 : ℝ) ≤ 2 ^ 32 by norm_num]
  rw [mul_one_div, div_le_div_iff₀ (by positivity) (by norm_num), one_mul]
  refine (mul_le_mul_of_nonneg_right h3 (by norm_num)).trans ?_
  have : (2 : ℝ) ^ 1022 = 2 ^ 32 * 2 ^ 990 := by rw [← pow_add]
  rw [this]
  refine mul_le_mul_of_nonneg_left ?_ (by positivity)
  exact le_trans (by norm_num : (10000 : ℝ) ≤ 2 ^ 14) (pow_le_pow_right₀ (by norm_num) (by norm_num))

/-- What the theorems below need of double precision, without large powers. -/
theorem setting {n : Nat} (h1 : 1 ≤ n) (h2 : 4 * n ≤ 2147483647) : ∃ M u τ : ℝ, u = 1 / 2 ^ 53 ∧ τ = 1 / 2 ^ 1022 ∧ M = 2 ^ 1023 ∧ 0 ≤ u ∧ u ≤ 1 / 1000000 ∧ 0 ≤ τ ∧ τ ≤ 1 ∧
    (n : ℝ) * τ ≤ 1 / 10000 ∧ 4 * (n : ℝ) ≤ M ∧ 1000 * 2 ^ 1000 ≤ M := by
  have hp : (2 : ℝ) ^ 1023 = 2 ^ 13 * (2 ^ 10 * 2 ^ 1000) := by rw [← pow_add, ← pow_add]
  have hP : (1 : ℝ) ≤ 2 ^ 1000 := one_le_pow₀ (by norm_num)
  have hn1 : (1 : ℝ) ≤ n := by exact_mod_cast h1
  have ht := tiny_small h2
  have h3 : 4 * (n : ℝ) ≤ 2147483647 := by exact_mod_cast h2
  refine ⟨_, _, _, rfl, rfl, rfl, by positivity, by norm_num, by positivity, ?_, ht, ?_, ?_⟩
  · rw [div_le_one (by positivity)]; exact one_le_pow₀ (by norm_num)
  · exact h3.trans (le_trans (by norm_num : (2147483647 : ℝ) ≤ 2 ^ 31) (pow_le_pow_right₀ (by norm_num) (by norm_num)))
  · rw [hp]
    clear hp ht
    generalize (2 : ℝ) ^ 1000 = P at *
    norm_num
    linarith

end QM.DCT
