import Verif.Distance.Rounded

namespace QM.Distance

open QM.Double

section
variable {fl : ℝ → ℝ} (hfl : Rounds fl)

/-- Rounding a number of size at most `y`. -/
theorem rel (hfl : Rounds fl) {x y : ℝ} (h1 : 1 / 2 ^ 1000 ≤ y) (h2 : y ≤ 2 ^ 1020) (hx : |x| ≤ y) : |fl x - x| ≤ 1.01 * (y / 2 ^ 53) := by
  have h := hfl x (hx.trans (h2.trans (pow_le_pow_right₀ (by norm_num) (by norm_num))))
  have h3 : (1 : ℝ) / 2 ^ 1075 = 1 / 2 ^ 75 * (1 / 2 ^ 1000) := by rw [one_div_mul_one_div, ← pow_add]
  have h4 : (1 : ℝ) / 2 ^ 1075 ≤ 1 / 2 ^ 75 * y := by
    rw [h3]; exact mul_le_mul_of_nonneg_left h1 (by positivity)
  have hy : 0 ≤ y := (abs_nonneg x).trans hx
  generalize (1 : ℝ) / 2 ^ 1075 = t at h h4
  clear h1 h2 h3
  have h5 : |x| / 2 ^ 53 ≤ y / 2 ^ 53 := div_le_div_of_nonneg_right hx (by positivity)
  have h6 : 1 / 2 ^ 75 * y ≤ 0.01 * (y / 2 ^ 53) := by
    rw [show 0.01 * (y / 2 ^ 53) = (0.01 / 2 ^ 53) * y by ring]
    exact mul_le_mul_of_nonneg_right (by norm_num) hy
  linarith

theorem sum_abs_le (v w : List ℝ) (h : v.length = w.length) :
    ∑ k ∈ Finset.range v.length, |v.getD k 0 * w.getD k 0| ≤ Real.sqrt (dot v v * dot w w) := by
  refine Real.le_sqrt_of_sq_le ?_
  have := Finset.sum_mul_sq_le_sq_mul_sq (Finset.range v.length) (fun i => |v.getD i 0|) (fun i => |w.getD i 0|)
  unfold dot
  rw [← h]
  simpa only [abs_mul, sq_abs, pow_two, abs_mul_abs_self] using this

/-- The range of sums of squares the theorems are about. -/
def Fair (x : ℝ) : Prop := 1 / 2 ^ 500 ≤ x ∧ x ≤ 2 ^ 500

theorem Fair.pos {x : ℝ} (h : Fair x) : 0 < x := lt_of_lt_of_le (by positivity) h.1

theorem fair_mul {x y : ℝ} (hx : Fair x) (hy : Fair y) : 1 / 2 ^ 1000 ≤ x * y ∧ x * y ≤ 2 ^ 1000 := by
  have h1 := mul_le_mul hx.1 hy.1 (by positivity) hx.pos.le
  have h2 := mul_le_mul hx.2 hy.2 hy.pos.le (by positivity)
  rw [one_div_mul_one_div, ← pow_add] at h1
  rw [← pow_add] at h2
  exact ⟨h1, h2⟩

theorem fair_sqrt {x y : ℝ} (hx : Fair x) (hy : Fair y) : Fair (Real.sqrt (x * y)) := by
  obtain ⟨h1, h2⟩ := fair_mul hx hy
  constructor
  · refine Real.le_sqrt_of_sq_le ?_
    rw [div_pow, one_pow, ← pow_mul]
    exact h1
  · rw [Real.sqrt_le_left (by positivity), ← pow_mul]
    exact h2

theorem Fair.scale {x : ℝ} (h : Fair x) : Scale x :=
  scale_of x ((one_div_le_one_div_of_le (by positivity) (pow_le_pow_right₀ (by norm_num) (by norm_num))).trans h.1)
    (h.2.trans (pow_le_pow_right₀ (by norm_num) (by norm_num)))

theorem dot_near (hfl : Rounds fl) (v w : List ℝ) (h : v.length = w.length) (hn : (v.length : ℝ) ≤ 2 ^ 40) (hv : Fair (dot v v)) (hw : Fair (dot w w)) :
    |dotD fl v w - dot v w| ≤ 5 * (v.length / 2 ^ 53) * Real.sqrt (dot v v * dot w w) := by
  have := flSum_rounded hfl (fair_sqrt hv hw).scale (fun k => v.getD k 0 * w.getD k 0) v.length hn (sum_abs_le v w h)
  unfold dotD
  calc _ ≤ _ := this
    _ = _ := by ring

theorem wide {y : ℝ} (h1 : 1 / 2 ^ 500 ≤ y) (h2 : y ≤ 2 ^ 501) : 1 / 2 ^ 1000 ≤ y ∧ y ≤ 2 ^ 1020 :=
  ⟨(one_div_le_one_div_of_le (by positivity) (pow_le_pow_right₀ (by norm_num) (by norm_num))).trans h1,
    h2.trans (pow_le_pow_right₀ (by norm_num) (by norm_num))⟩

/-- The product of the two sums of squares. -/
theorem step_product {A B a b ε : ℝ} (hA : 0 < A) (hB : 0 < B) (hε0 : 0 ≤ ε) (hε' : ε ≤ 1 / 2 ^ 13)
    (ha : |a - A| ≤ 5 * ε * A) (hb : |b - B| ≤ 5 * ε * B) : |a * b - A * B| ≤ 10.01 * ε * (A * B) := by
  have e : a * b - A * B = (a - A) * B + A * (b - B) + (a - A) * (b - B) := by ring
  rw [e]
  have h1 := abs_add_le ((a - A) * B + A * (b - B)) ((a - A) * (b - B))
  have h2 := abs_add_le ((a - A) * B) (A * (b - B))
  rw [abs_mul, abs_mul, abs_of_pos hA, abs_of_pos hB] at h2
  rw [abs_mul (a - A) (b - B)] at h1
  have h3 : |a - A| * |b - B| ≤ (5 * ε * A) * (5 * ε * B) := mul_le_mul ha hb (abs_nonneg _) (by positivity)
  have h4 : |a - A| * B ≤ (5 * ε * A) * B := mul_le_mul_of_nonneg_right ha hB.le
  have h5 : A * |b - B| ≤ A * (5 * ε * B) := mul_le_mul_of_nonneg_left hb hA.le
  have hAB := mul_pos hA hB
  have h6 : ε * ε ≤ 1 / 2 ^ 13 * ε := mul_le_mul_of_nonneg_right hε' hε0
  have h7 : (25 * (ε * ε)) * (A * B) ≤ (0.01 * ε) * (A * B) := mul_le_mul_of_nonneg_right (by norm_num at h6; linarith) hAB.le
  nlinarith

/-- The square root of a number near a square. -/
theorem step_root {Q N δ : ℝ} (hN : 0 < N) (hQ : |Q - N ^ 2| ≤ δ * N ^ 2) (hδ : δ ≤ 1) : |Real.sqrt |Q| - N| ≤ δ * N := by
  have h := abs_le.mp hQ
  have hN2 : 0 < N ^ 2 := by positivity
  have hQ0 : 0 ≤ Q := by nlinarith
  rw [abs_of_nonneg hQ0]
  have hr := Real.sqrt_nonneg Q
  have e : (Real.sqrt Q - N) * (Real.sqrt Q + N) = Q - N ^ 2 := by
    have := Real.mul_self_sqrt hQ0
    linear_combination this
  have h2 : |Real.sqrt Q - N| * N ≤ |Q - N ^ 2| := by
    rw [← e, abs_mul, abs_of_pos (by linarith : 0 < Real.sqrt Q + N)]
    exact mul_le_mul_of_nonneg_left (by linarith) (abs_nonneg _)
  have h3 : |Real.sqrt Q - N| * N ≤ (δ * N) * N := h2.trans (hQ.trans (le_of_eq (by ring)))
  exact le_of_mul_le_mul_right h3 hN

/-- A quotient whose numerator and denominator are off. -/
theorem step_quotient {S s T t ε : ℝ} (hT : 0 < T) (hε0 : 0 ≤ ε) (hε' : ε ≤ 1 / 2 ^ 13) (hS : |S| ≤ T) (hs : |s - S| ≤ 5 * ε * T)
    (ht : |t - T| ≤ 13.4 * ε * T) : |s / t - S / T| ≤ 18.5 * ε := by
  have h := abs_le.mp ht
  have h13 : 13.4 * ε * T ≤ 0.002 * T := mul_le_mul_of_nonneg_right (by norm_num at hε' ⊢; linarith) hT.le
  have ht1 : 0.998 * T ≤ t := by linarith
  have ht0 : 0 < t := by linarith
  have e : s / t - S / T = ((s - S) * T - S * (t - T)) / (t * T) := by
    field_simp
    ring
  rw [e, abs_div, abs_of_pos (mul_pos ht0 hT), div_le_iff₀ (mul_pos ht0 hT)]
  have h1 := abs_sub ((s - S) * T) (S * (t - T))
  rw [abs_mul, abs_mul, abs_of_pos hT] at h1
  have h2 : |s - S| * T ≤ 5 * ε * T * T := mul_le_mul_of_nonneg_right hs hT.le
  have h3 : |S| * |t - T| ≤ T * (13.4 * ε * T) := mul_le_mul hS ht (abs_nonneg _) hT.le
  have h4 : 18.5 * ε * ((0.998 * T) * T) ≤ 18.5 * ε * (t * T) :=
    mul_le_mul_of_nonneg_left (mul_le_mul_of_nonneg_right ht1 hT.le) (by positivity)
  have h5 : 0 ≤ ε * (T * T) := by positivity
  nlinarith

/-- One more rounding. -/
theorem step_round {x' x X Y c ε : ℝ} (hY : 0 ≤ Y) (hε : 1 / 2 ^ 53 ≤ ε) (h1 : |x' - x| ≤ 1.01 * (1.01 * Y / 2 ^ 53)) (h2 : |x - X| ≤ c * ε * Y) :
    |x' - X| ≤ (c + 1.1) * ε * Y := by
  have h3 := abs_sub_le x' x X
  have h4 : 1 / 2 ^ 53 * Y ≤ ε * Y := mul_le_mul_of_nonneg_right hε hY
  have h5 : 0 ≤ ε * Y := le_trans (by positivity) h4
  have e1 : 1.01 * (1.01 * Y / 2 ^ 53) = 1.0201 * (1 / 2 ^ 53 * Y) := by ring
  have e2 : (c + 1.1) * ε * Y = c * ε * Y + 1.1 * (ε * Y) := by ring
  rw [e1] at h1
  rw [e2]
  linarith

/-- What is near is not much larger. -/
theorem step_size {x X c ε : ℝ} (hX : 0 < X) (hc : 0 ≤ c) (hc' : c ≤ 20) (hε : ε ≤ 1 / 2 ^ 13) (h : |x - X| ≤ c * ε * X) : |x| ≤ 1.01 * X := by
  have h1 := abs_le_of_sub _ _ _ _ h (le_of_eq (abs_of_pos hX))
  have h2 : c * ε ≤ 20 * (1 / 2 ^ 13) := (mul_le_mul_of_nonneg_left hε hc).trans (mul_le_mul_of_nonneg_right hc' (by norm_num))
  have h3 : c * ε * X ≤ 0.01 * X := mul_le_mul_of_nonneg_right (h2.trans (by norm_num)) hX.le
  linarith

/-- The denominator with `small` added. -/
theorem step_den {R N σ s ε : ℝ} (hs0 : 0 ≤ s) (hε : 1 / 2 ^ 53 ≤ ε) (h1 : |R - N| ≤ 12.21 * ε * N) (h2 : |σ - s| ≤ 1.01 * (s / 2 ^ 53)) :
    |R + σ - (N + s)| ≤ 12.21 * ε * (N + s) := by
  have h3 := abs_add_le (R - N) (σ - s)
  rw [show R - N + (σ - s) = R + σ - (N + s) by ring] at h3
  have h4 : 1 / 2 ^ 53 * s ≤ ε * s := mul_le_mul_of_nonneg_right hε hs0
  have h5 : 0 ≤ ε * s := le_trans (by positivity) h4
  have e1 : 1.01 * (s / 2 ^ 53) = 1.01 * (1 / 2 ^ 53 * s) := by ring
  rw [e1] at h2
  rw [mul_add]
  linarith

theorem small_lt : small < 1 := by unfold small; norm_num

/-- All the estimates of the distance in one place: `ε` is the number of elements over `2 ^ 53`. -/
theorem estimate (hfl : Rounds fl) {A B S a b s ε : ℝ} (hA : Fair A) (hB : Fair B) (hε : 1 / 2 ^ 53 ≤ ε) (hε' : ε ≤ 1 / 2 ^ 13)
    (ha : |a - A| ≤ 5 * ε * A) (hb : |b - B| ≤ 5 * ε * B) (hS : |S| ≤ Real.sqrt (A * B)) (hs : |s - S| ≤ 5 * ε * Real.sqrt (A * B)) :
    |fl (1 - fl (s / fl (fl (Real.sqrt |fl (a * b)|) + fl small))) - (1 - S / (Real.sqrt (A * B) + small))| ≤ 22 * ε := by
  have hε0 : 0 ≤ ε := le_trans (by positivity) hε
  have hAB := mul_pos hA.pos hB.pos
  have hfN := fair_sqrt hA hB
  obtain ⟨hAB1, hAB2⟩ := fair_mul hA hB
  have hN2 : Real.sqrt (A * B) ^ 2 = A * B := Real.sq_sqrt hAB.le
  have hN := hfN.pos
  set N := Real.sqrt (A * B) with hNd
  have hp0 : (1 : ℝ) / 2 ^ 1000 ≤ 1.01 * (A * B) := hAB1.trans (le_mul_of_one_le_left hAB.le (by norm_num))
  have hp1 : 1.01 * (A * B) ≤ (2 : ℝ) ^ 1020 := by
    calc 1.01 * (A * B) ≤ 2 * 2 ^ 1000 := mul_le_mul (by norm_num) hAB2 hAB.le (by norm_num)
      _ = 2 ^ 1001 := by rw [pow_succ' 2 1000]
      _ ≤ 2 ^ 1020 := pow_le_pow_right₀ (by norm_num) (by norm_num)
  have hr0 : (1 : ℝ) / 2 ^ 500 ≤ 1.01 * N := hfN.1.trans (le_mul_of_one_le_left hN.le (by norm_num))
  have hr1 : 1.01 * N ≤ 2 ^ 501 := by
    calc 1.01 * N ≤ 2 * 2 ^ 500 := mul_le_mul (by norm_num) hfN.2 hN.le (by norm_num)
      _ = 2 ^ 501 := by rw [pow_succ' 2 500]
  have hs0 := small_pos
  have hs1 := small_lt
  have ht0 : (1 : ℝ) / 2 ^ 500 ≤ 1.01 * (N + small) := hfN.1.trans (by linarith)
  have h500 : (1 : ℝ) ≤ 2 ^ 500 := one_le_pow₀ (by norm_num)
  have ht1 : 1.01 * (N + small) ≤ 2 ^ 1020 := by
    calc 1.01 * (N + small) ≤ 2 * (2 ^ 500 + 2 ^ 500) :=
          mul_le_mul (by norm_num) (add_le_add hfN.2 (hs1.le.trans h500)) (by linarith) (by norm_num)
      _ = 2 ^ 502 := by rw [← two_mul, ← mul_assoc, pow_add 2 2 500]; norm_num
      _ ≤ 2 ^ 1020 := pow_le_pow_right₀ (by norm_num) (by norm_num)
  have hsm0 : (1 : ℝ) / 2 ^ 1000 ≤ small :=
    (one_div_le_one_div_of_le (by positivity) (pow_le_pow_right₀ (by norm_num) (by norm_num : 100 ≤ 1000))).trans (by unfold small; norm_num)
  have hone0 : (1 : ℝ) / 2 ^ 1000 ≤ 1.01 := (div_le_one (by positivity)).mpr (one_le_pow₀ (by norm_num)) |>.trans (by norm_num)
  have hone1 : (2.1 : ℝ) ≤ 2 ^ 1020 := le_trans (by norm_num) (pow_le_pow_right₀ (by norm_num : (1 : ℝ) ≤ 2) (by norm_num : 2 ≤ 1020))
  have rP := fun x hx => rel hfl (x := x) hp0 hp1 hx
  have rR := fun x hx => rel hfl (x := x) (wide hr0 hr1).1 (wide hr0 hr1).2 hx
  have rS := fun x hx => rel hfl (x := x) hsm0 ((hs1.le.trans h500).trans (pow_le_pow_right₀ (by norm_num) (by norm_num))) hx
  have rT := fun x hx => rel hfl (x := x) ((one_div_le_one_div_of_le (by positivity) (pow_le_pow_right₀ (by norm_num) (by norm_num : 500 ≤ 1000))).trans ht0) ht1 hx
  have rQ := fun x hx => rel hfl (x := x) hone0 (le_trans (by norm_num) hone1) hx
  have rD := fun x hx => rel hfl (x := x) (hone0.trans (by norm_num : (1.01 : ℝ) ≤ 2.1)) hone1 hx
  clear hp0 hp1 hr0 hr1 ht0 ht1 hsm0 hone0 hone1 hAB1 hAB2 h500 hfN
  have hu : ∀ y : ℝ, 0 ≤ y → y / 2 ^ 53 ≤ ε * y := fun y hy => by
    have := mul_le_mul_of_nonneg_right hε hy
    calc y / 2 ^ 53 = 1 / 2 ^ 53 * y := by ring
      _ ≤ _ := this
  have hε2 : ε ≤ 0.00013 := hε'.trans (by norm_num)
  -- the product
  have p1 := step_product hA.pos hB.pos hε0 hε' ha hb
  have p3 := rP _ (step_size hAB (by norm_num) (by norm_num) hε' p1)
  have p5 := step_round hAB.le hε p3 p1
  rw [← hN2] at p5
  -- the square root
  have q1 := step_root hN p5 (by linarith)
  have q3 := rR _ (step_size hN (by norm_num) (by norm_num) hε' q1)
  have q5 := step_round hN.le hε q3 q1
  -- the denominator
  have s1 := rS small (le_of_eq (abs_of_pos hs0))
  set R := fl (Real.sqrt |fl (a * b)|) with hR
  have hT : 0 < N + small := by linarith
  have t1 := step_den (R := R) hs0.le hε (q5.trans (mul_le_mul_of_nonneg_right (mul_le_mul_of_nonneg_right (by norm_num) hε0) hN.le)) s1
  have t3 := rT _ (step_size hT (by norm_num) (by norm_num) hε' t1)
  have t5 : |fl (R + fl small) - (N + small)| ≤ 13.4 * ε * (N + small) :=
    (step_round hT.le hε t3 t1).trans (mul_le_mul_of_nonneg_right (mul_le_mul_of_nonneg_right (by norm_num) hε0) hT.le)
  -- the quotient
  have u1 := step_quotient hT hε0 hε' (hS.trans (by linarith)) (hs.trans (mul_le_mul_of_nonneg_left (by linarith) (by positivity))) t5
  have u2 : |S / (N + small)| ≤ 1 := by
    rw [abs_div, abs_of_pos hT, div_le_one hT]
    linarith
  set f := fl (R + fl small) with hf
  have u3 : |s / f| ≤ 1.01 := by
    have := abs_le_of_sub _ _ _ _ u1 u2
    linarith
  have u4 := rQ _ u3
  have u5 := hu 1.01 (by norm_num)
  have u6 : |fl (s / f) - S / (N + small)| ≤ 19.6 * ε := by
    have := abs_sub_le (fl (s / f)) (s / f) (S / (N + small))
    linarith
  -- the distance
  have w1 : |1 - fl (s / f)| ≤ 2.1 := by
    have h1 := abs_le_of_sub _ _ _ _ u6 u2
    have h2 := abs_sub 1 (fl (s / f))
    rw [abs_one] at h2
    linarith
  have w2 := rD _ w1
  have w3 := hu 2.1 (by norm_num)
  have w4 := abs_sub_le (fl (1 - fl (s / f))) (1 - fl (s / f)) (1 - S / (N + small))
  rw [show 1 - fl (s / f) - (1 - S / (N + small)) = -(fl (s / f) - S / (N + small)) by ring, abs_neg] at w4
  linarith

end

/-! ## C118 -/

/-- **C118** Vectors of different lengths are at distance exactly 1. -/
theorem C118_lengths (fl : ℝ → ℝ) (v w : List ℝ) (h : v.length ≠ w.length) : cosineD fl v w = some 1 := if_pos h

/-- One value against two. -/
example : cosineD rn [1] [1, 2] = some 1 := C118_lengths rn _ _ (by simp)

/-- **C118** In double precision, too, the distance is symmetric, to the last bit and however the machine rounds. -/
theorem C118_symmetric (fl : ℝ → ℝ) (v w : List ℝ) : cosineD fl v w = cosineD fl w v := by
  by_cases h : v.length = w.length
  · rw [cosineD_eq fl v w h, cosineD_eq fl w v h.symm, dotD_comm fl v w h, mul_comm (dotD fl v v)]
  · unfold cosineD
    rw [if_pos h, if_pos (Ne.symm h)]

theorem eps_range (v : List ℝ) (hn : (v.length : ℝ) ≤ 2 ^ 40) (hv : Fair (dot v v)) :
    (1 : ℝ) / 2 ^ 53 ≤ v.length / 2 ^ 53 ∧ (v.length : ℝ) / 2 ^ 53 ≤ 1 / 2 ^ 13 := by
  constructor
  · refine div_le_div_of_nonneg_right ?_ (by norm_num)
    have : v ≠ [] := by
      rintro rfl
      have := hv.pos
      simp [dot] at this
    exact_mod_cast List.length_pos_iff.mpr this
  · rw [div_le_div_iff₀ (by norm_num) (by norm_num)]
    calc (v.length : ℝ) * 2 ^ 13 ≤ 2 ^ 40 * 2 ^ 13 := mul_le_mul_of_nonneg_right hn (by norm_num)
      _ = 1 * 2 ^ 53 := by norm_num

/-- **C118** The rounded distance differs from the exact one by at most 22 units of `2 ^ -53` for each element of the vectors. -/
theorem C118_error (fl : ℝ → ℝ) (hfl : Rounds fl) (v w : List ℝ) (h : v.length = w.length) (hn : (v.length : ℝ) ≤ 2 ^ 40)
    (hv : Fair (dot v v)) (hw : Fair (dot w w)) :
    ∃ c d, cosineD fl v w = some c ∧ cosine v w = some d ∧ |c - d| ≤ 22 * (v.length / 2 ^ 53) := by
  refine ⟨_, _, cosineD_eq fl v w h, C47_value v w h, ?_⟩
  obtain ⟨he1, he2⟩ := eps_range v hn hv
  have e : norm v * norm w = Real.sqrt (dot v v * dot w w) := by unfold norm; rw [Real.sqrt_mul (dot_self_nonneg v)]
  have ha := dot_near hfl v v rfl hn hv hv
  have hb := dot_near hfl w w rfl (h ▸ hn) hw hw
  have hs := dot_near hfl v w h hn hv hw
  rw [Real.sqrt_mul_self (dot_self_nonneg _)] at ha hb
  rw [← h] at hb
  rw [e]
  exact estimate hfl hv hw he1 he2 ha hb (e ▸ abs_dot_le v w h) hs

/-- **C118** So it can leave the range from 0 to 2 by no more than that. -/
theorem C118_range (fl : ℝ → ℝ) (hfl : Rounds fl) (v w : List ℝ) (h : v.length = w.length) (hn : (v.length : ℝ) ≤ 2 ^ 40)
    (hv : Fair (dot v v)) (hw : Fair (dot w w)) :
    ∃ c, cosineD fl v w = some c ∧ -(22 * (v.length / 2 ^ 53)) < c ∧ c < 2 + 22 * (v.length / 2 ^ 53) := by
  obtain ⟨c, d, h1, h2, h3⟩ := C118_error fl hfl v w h hn hv hw
  obtain ⟨d', h4, h5, h6⟩ := C47_range v w
  obtain rfl : d' = d := Option.some.inj (h4.symm.trans h2)
  have := abs_le.mp h3
  exact ⟨c, h1, by linarith, by linarith⟩

/-- **C118** The distance of a vector to itself is exactly 0, unless its elements are tiny: rounding to nearest undoes the square by the
square root and swallows the `1e-20` that keeps the denominator from being 0. -/
theorem C118_self (fl : ℝ → ℝ) (hfl : Nearest fl) (v : List ℝ) (hn : (v.length : ℝ) ≤ 2 ^ 40) (h1 : 1 / 2 ^ 12 ≤ dot v v) (h2 : dot v v ≤ 2 ^ 500) :
    cosineD fl v v = some 0 := by
  have hv : Fair (dot v v) :=
    ⟨(one_div_le_one_div_of_le (by positivity) (pow_le_pow_right₀ (by norm_num) (by norm_num))).trans h1, h2⟩
  have hd := dot_near hfl.rounds v v rfl hn hv hv
  rw [Real.sqrt_mul_self (dot_self_nonneg _)] at hd
  obtain ⟨he1, he2⟩ := eps_range v hn hv
  have hA := hv.pos
  have h3 : 5 * ((v.length : ℝ) / 2 ^ 53) * dot v v ≤ 0.1 * dot v v := mul_le_mul_of_nonneg_right (by norm_num at he2 ⊢; linarith) hA.le
  have h4 := abs_le.mp (hd.trans h3)
  have h5 : (2 : ℝ) ^ (-13 : ℤ) ≤ dotD fl v v := by
    calc (2 : ℝ) ^ (-13 : ℤ) ≤ 0.9 * (1 / 2 ^ 12) := by norm_num
      _ ≤ 0.9 * dot v v := mul_le_mul_of_nonneg_left h1 (by norm_num)
      _ ≤ dotD fl v v := by linarith [h4.1]
  have h6 : dotD fl v v ≤ 2 ^ 510 := by
    have : dotD fl v v ≤ 2 * dot v v := by linarith [h4.2]
    calc dotD fl v v ≤ 2 * dot v v := this
      _ ≤ 2 * 2 ^ 500 := mul_le_mul_of_nonneg_left h2 (by norm_num)
      _ = 2 ^ 501 := by rw [pow_succ' 2 500]
      _ ≤ 2 ^ 510 := pow_le_pow_right₀ (by norm_num) (by norm_num)
  have hD : IsDbl (dotD fl v v) := by
    unfold dotD
    cases hl : v.length with
    | zero => exact ⟨0, 0, by norm_num, by norm_num, by simp [flSum]⟩
    | succ n => exact hfl.dbl _
  have hpos : 0 < dotD fl v v := lt_of_lt_of_le (by positivity) h5
  rw [cosineD_eq fl v v rfl, sqrt_sq hfl hD h5 h6, add_small hfl hD h5, div_self hpos.ne']
  have one : fl 1 = 1 := by
    have := hfl.exact (isDbl_nat 1 (by norm_num))
    simpa using this
  have zero : fl 0 = 0 := by
    have := hfl.exact (isDbl_nat 0 (by norm_num))
    simpa using this
  rw [one, sub_self, zero]

/-- **C118** The condition on the size is needed: a quiet vector is far from itself, whatever the rounding. -/
theorem C118_quiet (fl : ℝ → ℝ) (hfl : Rounds fl) : ∃ c, cosineD fl [1 / 2 ^ 34] [1 / 2 ^ 34] = some c ∧ 0.7 < c := by
  have hd : dot [1 / 2 ^ 34] [1 / 2 ^ 34] = 1 / 2 ^ 68 := by norm_num [dot]
  have hf : Fair (dot [1 / 2 ^ 34] [1 / 2 ^ 34]) := by
    rw [hd]
    refine ⟨one_div_le_one_div_of_le (by positivity) (pow_le_pow_right₀ (by norm_num) (by norm_num)), ?_⟩
    exact le_trans (by norm_num) (one_le_pow₀ (by norm_num))
  obtain ⟨c, d, h1, h2, h3⟩ := C118_error fl hfl [1 / 2 ^ 34] [1 / 2 ^ 34] rfl (by norm_num) hf hf
  refine ⟨c, h1, ?_⟩
  rw [C47_value _ _ rfl] at h2
  have h2 := Option.some.inj h2
  unfold norm at h2
  rw [Real.mul_self_sqrt (dot_self_nonneg _), hd] at h2
  have h4 : (0.72 : ℝ) ≤ d := by rw [← h2]; unfold small; norm_num
  have h5 := (abs_le.mp h3).1
  norm_num at h5
  norm_num at h4 ⊢
  linarith

/-- Rounding to nearest exists, and a vector of length 1 meets the conditions. -/
example : cosineD rn [1] [1] = some 0 := C118_self rn nearest_rn [1] (by norm_num) (by norm_num [dot])
  (by simpa [dot] using one_le_pow₀ (by norm_num : (1 : ℝ) ≤ 2))

/-- Two different vectors that meet the conditions. -/
example : ∃ c d, cosineD rn [3, 4] [4, -3] = some c ∧ cosine [3, 4] [4, -3] = some d ∧ |c - d| ≤ 22 * (2 / 2 ^ 53) := by
  have hf : Fair 25 := ⟨le_trans ((div_le_one (by positivity)).mpr (one_le_pow₀ (by norm_num))) (by norm_num),
    le_trans (by norm_num) (pow_le_pow_right₀ (by norm_num : (1 : ℝ) ≤ 2) (by norm_num : 5 ≤ 500))⟩
  have h1 : dot [3, 4] [3, 4] = 25 := by norm_num [dot, Finset.sum_range_succ]
  have h2 : dot [4, -3] [4, -3] = 25 := by norm_num [dot, Finset.sum_range_succ]
  simpa using C118_error rn rounds_rn [3, 4] [4, -3] rfl (by norm_num) (h1 ▸ hf) (h2 ▸ hf)

end QM.Distance
