import Verif.Pitch.Rounded
import Mathlib.Analysis.SpecialFunctions.Log.Base
import Mathlib.Analysis.SpecialFunctions.Pow.Real
import Mathlib.Analysis.Complex.ExponentialBounds

namespace QM.Pitch.Rounded

open QM QM.Double

/-- A C library whose `log` and `powf(2, ·)` are within one unit in the last place. -/
structure Libm (logF : ℝ → ℝ) (powF : ℝ → ℝ → ℝ) : Prop where
  log : ∀ x, 1 / 2 ^ 20 ≤ x → x ≤ 2 ^ 20 → |logF x - Real.log x| ≤ |Real.log x| * (2 / 2 ^ 53) + 1 / 2 ^ 1075
  pow : ∀ y, |y| ≤ 20 → |powF 2 y - (2 : ℝ) ^ y| ≤ (2 : ℝ) ^ y * (2 / 2 ^ 24)

variable {g fl logF : ℝ → ℝ} {powF : ℝ → ℝ → ℝ}

theorem flD (hfl : Rounds fl) (x X : ℝ) (hX : |x| ≤ X) (h : X ≤ 2 ^ 40) : |fl x - x| ≤ (X + 1) / 2 ^ 53 := by
  have h1 := hfl x (hX.trans (h.trans (pow_le_pow_right₀ (by norm_num) (by norm_num))))
  have h2 : (1 : ℝ) / 2 ^ 1075 ≤ 1 / 2 ^ 53 := one_div_le_one_div_of_le (by positivity) (pow_le_pow_right₀ (by norm_num) (by norm_num))
  have h3 := div_le_div_of_nonneg_right hX (show (0 : ℝ) ≤ 2 ^ 53 by norm_num)
  rw [add_div]
  linarith

theorem flF (hg : RoundsF g) (x X : ℝ) (hX : |x| ≤ X) (h : X ≤ 2 ^ 40) : |g x - x| ≤ X / 2 ^ 24 + 1 / 2 ^ 150 := by
  have h1 := hg x (hX.trans (h.trans (pow_le_pow_right₀ (by norm_num) (by norm_num))))
  have h3 := div_le_div_of_nonneg_right hX (show (0 : ℝ) ≤ 2 ^ 24 by norm_num)
  linarith

/-- The exponent `powf` gets. -/
theorem exponent_near (hg : RoundsF g) (hfl : Rounds fl) (n : ℤ) (h0 : 0 ≤ n) (h1 : n ≤ 127) (c : ℝ) (hc : |c| ≤ 50) :
    |g (fl (fl (g ((n : ℝ) + g (c / 100)) - 69) / 12)) - ((n : ℝ) + c / 100 - 69) / 12| ≤ 18 / 2 ^ 24 := by
  have n0 : (0 : ℝ) ≤ n := by exact_mod_cast h0
  have n1 : (n : ℝ) ≤ 127 := by exact_mod_cast h1
  obtain ⟨c1, c2⟩ := abs_le.1 hc
  have a1 := flF hg (c / 100) (1 / 2) (abs_le.2 ⟨by linarith, by linarith⟩) (by norm_num)
  set u := g (c / 100)
  obtain ⟨a2, a3⟩ := abs_le.1 a1
  norm_num at a2 a3
  have b1 := flF hg ((n : ℝ) + u) 128 (abs_le.2 ⟨by linarith, by linarith⟩) (by norm_num)
  set p := g ((n : ℝ) + u)
  obtain ⟨b2, b3⟩ := abs_le.1 b1
  norm_num at b2 b3
  have d1 := flD hfl (p - 69) 128 (abs_le.2 ⟨by linarith, by linarith⟩) (by norm_num)
  set v := fl (p - 69)
  obtain ⟨d2, d3⟩ := abs_le.1 d1
  norm_num at d2 d3
  have e1 := flD hfl (v / 12) 11 (abs_le.2 ⟨by linarith, by linarith⟩) (by norm_num)
  set w := fl (v / 12)
  obtain ⟨e2, e3⟩ := abs_le.1 e1
  norm_num at e2 e3
  have f1 := flF hg w 6 (abs_le.2 ⟨by linarith, by linarith⟩) (by norm_num)
  obtain ⟨f2, f3⟩ := abs_le.1 f1
  norm_num at f2 f3
  rw [abs_le]
  norm_num
  constructor <;> linarith

/-- The frequency is the concert pitch times a power of two near the wanted one. -/
theorem frequency_near (hg : RoundsF g) (hfl : Rounds fl) (hlib : Libm logF powF) (n : ℤ) (h0 : 0 ≤ n) (h1 : n ≤ 127) (c A : ℝ) (hc : |c| ≤ 50) (hA0 : 1 ≤ A) (hA1 : A ≤ 2 ^ 20) :
    ∃ e δ : ℝ, |e - ((n : ℝ) + c / 100 - 69) / 12| ≤ 18 / 2 ^ 24 ∧ |δ| ≤ 4 / 2 ^ 24 ∧ getFrequencyForPitch g fl powF n c A = A * (2 : ℝ) ^ e * (1 + δ) := by
  have n0 : (0 : ℝ) ≤ n := by exact_mod_cast h0
  have n1 : (n : ℝ) ≤ 127 := by exact_mod_cast h1
  obtain ⟨c1, c2⟩ := abs_le.1 hc
  have he := exponent_near hg hfl n h0 h1 c hc
  unfold getFrequencyForPitch
  set e := g (fl (fl (g ((n : ℝ) + g (c / 100)) - 69) / 12))
  obtain ⟨e1, e2⟩ := abs_le.1 he
  have e1' : -6 ≤ e := by norm_num at e1; linarith
  have e2' : e ≤ 6 := by norm_num at e2; linarith
  have hp := hlib.pow e (abs_le.2 ⟨by linarith, by linarith⟩)
  have hpos : 0 < (2 : ℝ) ^ e := Real.rpow_pos_of_pos (by norm_num) _
  have hlow : 1 / 64 ≤ (2 : ℝ) ^ e := by
    calc (1 : ℝ) / 64 = (2 : ℝ) ^ (-6 : ℝ) := by
          rw [Real.rpow_neg (by norm_num), show (6 : ℝ) = ((6 : ℕ) : ℝ) by norm_num, Real.rpow_natCast]
          norm_num
      _ ≤ _ := Real.rpow_le_rpow_of_exponent_le (by norm_num) e1'
  have hhigh : (2 : ℝ) ^ e ≤ 64 := by
    calc _ ≤ (2 : ℝ) ^ (6 : ℝ) := Real.rpow_le_rpow_of_exponent_le (by norm_num) e2'
      _ = 64 := by
          rw [show (6 : ℝ) = ((6 : ℕ) : ℝ) by norm_num, Real.rpow_natCast]
          norm_num
  set w := powF 2 e
  set z := (2 : ℝ) ^ e
  obtain ⟨p1, p2⟩ := abs_le.1 hp
  have hAz : 0 < A * z := by positivity
  have hw : |A * w - A * z| ≤ A * z * (2 / 2 ^ 24) := by
    rw [← mul_sub, abs_mul, abs_of_pos (by linarith : 0 < A), mul_assoc]
    exact mul_le_mul_of_nonneg_left hp (by linarith)
  have hAz1 : A * z ≤ 2 ^ 20 * 64 := mul_le_mul hA1 hhigh hpos.le (by norm_num)
  have hAz0 : 1 / 64 ≤ A * z := by nlinarith
  have hAw : |A * w| ≤ A * z * (1 + 2 / 2 ^ 24) := by
    obtain ⟨q1, q2⟩ := abs_le.1 hw
    rw [abs_le]
    constructor <;> nlinarith
  have hf := hg (A * w) (hAw.trans (le_trans (mul_le_mul_of_nonneg_right hAz1 (by norm_num)) (by norm_num)))
  have htot : |g (A * w) - A * z| ≤ A * z * (4 / 2 ^ 24) := by
    have t1 := abs_sub_le (g (A * w)) (A * w) (A * z)
    have t2 := div_le_div_of_nonneg_right hAw (show (0 : ℝ) ≤ 2 ^ 24 by norm_num)
    have t3 : (1 : ℝ) / 2 ^ 150 ≤ A * z * (1 / 2 ^ 30) := by
      have := mul_le_mul_of_nonneg_right hAz0 (show (0 : ℝ) ≤ 1 / 2 ^ 30 by norm_num)
      refine le_trans ?_ this
      norm_num
    norm_num at *
    linarith
  refine ⟨e, g (A * w) / (A * z) - 1, he, ?_, ?_⟩
  · have : g (A * w) / (A * z) - 1 = (g (A * w) - A * z) / (A * z) := by field_simp
    rw [this, abs_div, abs_of_pos hAz, div_le_iff₀ hAz]
    linarith
  · field_simp
    ring

theorem log_one_add_le (δ : ℝ) (h : |δ| ≤ 1 / 2) : |Real.log (1 + δ)| ≤ 2 * |δ| := by
  obtain ⟨h1, h2⟩ := abs_le.1 h
  have hp : 0 < 1 + δ := by linarith
  have u := Real.log_le_sub_one_of_pos hp
  have l := Real.one_sub_inv_le_log_of_pos hp
  have e : 1 - (1 + δ)⁻¹ = δ / (1 + δ) := by
    field_simp
    ring
  rw [e] at l
  rw [abs_le]
  constructor
  · refine le_trans ?_ l
    rw [le_div_iff₀ hp]
    have := neg_abs_le δ
    nlinarith [abs_nonneg δ]
  · have := le_abs_self δ
    linarith [abs_nonneg δ]

theorem pow_range (e : ℝ) (he : |e| ≤ 6) : 1 / 64 ≤ (2 : ℝ) ^ e ∧ (2 : ℝ) ^ e ≤ 64 := by
  obtain ⟨e1, e2⟩ := abs_le.1 he
  constructor
  · calc (1 : ℝ) / 64 = (2 : ℝ) ^ (-6 : ℝ) := by
          rw [Real.rpow_neg (by norm_num), show (6 : ℝ) = ((6 : ℕ) : ℝ) by norm_num, Real.rpow_natCast]
          norm_num
      _ ≤ _ := Real.rpow_le_rpow_of_exponent_le (by norm_num) e1
  · calc _ ≤ (2 : ℝ) ^ (6 : ℝ) := Real.rpow_le_rpow_of_exponent_le (by norm_num) e2
      _ = 64 := by
          rw [show (6 : ℝ) = ((6 : ℕ) : ℝ) by norm_num, Real.rpow_natCast]
          norm_num

theorem ratio_near (hfl : Rounds fl) (A z δ : ℝ) (hA0 : 1 ≤ A) (hA1 : A ≤ 2 ^ 20) (hlow : 1 / 64 ≤ z) (hhigh : z ≤ 64) (hδ : |δ| ≤ 4 / 2 ^ 24) :
    ∃ η : ℝ, |η| ≤ 5 / 2 ^ 24 ∧ fl (A * z * (1 + δ) / fl (A / 2)) = 2 * z * (1 + η) := by
  have hpos : 0 < z := by linarith
  have ha2 : |fl (A / 2) - A / 2| ≤ A / 2 * (4 / 2 ^ 53) := by
    have := hfl (A / 2) (by rw [abs_of_pos (by linarith)]; exact le_trans (by linarith : A / 2 ≤ 2 ^ 20) (pow_le_pow_right₀ (by norm_num) (by norm_num)))
    rw [abs_of_pos (by linarith : 0 < A / 2)] at this
    have h2 : (1 : ℝ) / 2 ^ 1075 ≤ 1 / 2 ^ 53 := one_div_le_one_div_of_le (by positivity) (pow_le_pow_right₀ (by norm_num) (by norm_num))
    generalize (1 : ℝ) / 2 ^ 1075 = t at *
    norm_num at *
    linarith
  set a := fl (A / 2)
  obtain ⟨a1, a2⟩ := abs_le.1 ha2
  have hap : 0 < a := by
    norm_num at a1
    linarith
  set f := A * z * (1 + δ) with hf
  have hq : |f / a - 2 * z| ≤ 2 * z * (9 / 2 ^ 25) := by
    rw [div_sub' hap.ne', abs_div, abs_of_pos hap, div_le_iff₀ hap]
    have hx : f - a * (2 * z) = 2 * z * (A / 2 * δ + (A / 2 - a)) := by
      rw [hf]; ring
    rw [hx, abs_mul, abs_of_pos (by linarith : 0 < 2 * z), mul_assoc (2 * z) (9 / 2 ^ 25) a]
    refine mul_le_mul_of_nonneg_left ?_ (by linarith)
    have t1 : |A / 2 * δ| ≤ A / 2 * (4 / 2 ^ 24) := by
      rw [abs_mul, abs_of_pos (by linarith : 0 < A / 2)]
      exact mul_le_mul_of_nonneg_left hδ (by linarith)
    have t2 := abs_add_le (A / 2 * δ) (A / 2 - a)
    rw [abs_sub_comm (A / 2) a] at t2
    refine t2.trans ((add_le_add t1 ha2).trans ?_)
    clear t1 t2 hx
    norm_num at a1 ⊢
    linarith
  obtain ⟨q1, q2⟩ := abs_le.1 hq
  generalize f / a = y at *
  have hqb : |y| ≤ 2 ^ 10 := by
    rw [abs_le]
    norm_num at q1 q2 ⊢
    constructor <;> linarith
  have hr := flD hfl y (2 ^ 10) hqb (by norm_num)
  set q := fl y
  obtain ⟨r1, r2⟩ := abs_le.1 hr
  have hqz : |q - 2 * z| ≤ 2 * z * (5 / 2 ^ 24) := by
    rw [abs_le]
    norm_num at r1 r2 q1 q2 ⊢
    constructor <;> linarith
  refine ⟨q / (2 * z) - 1, ?_, by field_simp; ring⟩
  have : q / (2 * z) - 1 = (q - 2 * z) / (2 * z) := by field_simp
  rw [this, abs_div, abs_of_pos (by linarith : 0 < 2 * z), div_le_iff₀ (by linarith)]
  linarith

/-- The computed logarithm to base two. -/
theorem logs_near (hlib : Libm logF powF) (e η : ℝ) (he : |e| ≤ 6) (hη1 : |η| ≤ 5 / 2 ^ 24) :
    |logF (2 * (2 : ℝ) ^ e * (1 + η)) / logF 2 - (e + 1)| ≤ 15 / 2 ^ 24 := by
  obtain ⟨e1, e2⟩ := abs_le.1 he
  obtain ⟨z1, z2⟩ := pow_range e he
  have hpos : 0 < (2 : ℝ) ^ e := by linarith
  have hlog2 : 0 < Real.log 2 := Real.log_pos (by norm_num)
  have l2a := Real.log_two_gt_d9
  have l2b := Real.log_two_lt_d9
  have hlogz : Real.log ((2 : ℝ) ^ e) = e * Real.log 2 := Real.log_rpow (by norm_num) e
  have hη3 := log_one_add_le η (hη1.trans (by norm_num))
  obtain ⟨w1, w2⟩ := abs_le.1 hη3
  obtain ⟨v1, v2⟩ := abs_le.1 hη1
  have hηp : 1 / 2 < 1 + η := by
    norm_num at v1
    linarith
  have hηq : 1 + η < 2 := by
    norm_num at v2
    linarith
  have hlq : Real.log (2 * (2 : ℝ) ^ e * (1 + η)) = (e + 1) * Real.log 2 + Real.log (1 + η) := by
    rw [Real.log_mul (by positivity) (by linarith), Real.log_mul (by norm_num) hpos.ne', hlogz]
    ring
  have hq1 : 1 / 2 ^ 20 ≤ 2 * (2 : ℝ) ^ e * (1 + η) := by
    have : (1 : ℝ) / 64 ≤ 2 * (2 : ℝ) ^ e * (1 + η) := by nlinarith
    refine le_trans ?_ this
    norm_num
  have hq2 : 2 * (2 : ℝ) ^ e * (1 + η) ≤ 2 ^ 20 := by
    have : 2 * (2 : ℝ) ^ e * (1 + η) ≤ 256 := by nlinarith
    refine le_trans this ?_
    norm_num
  have hl1 := hlib.log _ hq1 hq2
  have hl2 := hlib.log 2 (by norm_num) (by norm_num)
  generalize 2 * (2 : ℝ) ^ e * (1 + η) = q at *
  have hwη : |Real.log (1 + η)| ≤ 10 / 2 ^ 24 := by linarith
  obtain ⟨u1, u2⟩ := abs_le.1 hwη
  have hlqb : |Real.log q| ≤ 6 := by
    rw [hlq, abs_le]
    have p1 : (e + 1) * Real.log 2 ≤ 7 * Real.log 2 := mul_le_mul_of_nonneg_right (by linarith) hlog2.le
    have p2 : -5 * Real.log 2 ≤ (e + 1) * Real.log 2 := mul_le_mul_of_nonneg_right (by linarith) hlog2.le
    norm_num at u1 u2 l2a l2b
    constructor <;> linarith
  have htiny : (1 : ℝ) / 2 ^ 1075 ≤ 1 / 2 ^ 53 := one_div_le_one_div_of_le (by positivity) (pow_le_pow_right₀ (by norm_num) (by norm_num))
  rw [abs_of_pos hlog2] at hl2
  generalize (1 : ℝ) / 2 ^ 1075 = t at *
  generalize logF q = m at *
  generalize logF 2 = k at *
  have hl1' : |m - Real.log q| ≤ 13 / 2 ^ 53 := by
    have := mul_le_mul_of_nonneg_right hlqb (show (0 : ℝ) ≤ 2 / 2 ^ 53 by norm_num)
    norm_num at this htiny hl1 ⊢
    linarith
  have hl2' : |k - Real.log 2| ≤ 3 / 2 ^ 53 := by
    norm_num at htiny hl2 l2b ⊢
    linarith
  obtain ⟨y1, y2⟩ := abs_le.1 hl2'
  have hk : 69 / 100 ≤ k := by
    norm_num at y1 l2a
    linarith
  rw [div_sub' (by linarith : k ≠ 0), abs_div, abs_of_pos (by linarith : 0 < k), div_le_iff₀ (by linarith)]
  have hx : m - k * (e + 1) = (m - Real.log q) + Real.log (1 + η) + (e + 1) * (Real.log 2 - k) := by rw [hlq]; ring
  have hz : |(e + 1) * (Real.log 2 - k)| ≤ 7 * (3 / 2 ^ 53) := by
    rw [abs_mul, abs_sub_comm (Real.log 2)]
    exact mul_le_mul (abs_le.2 ⟨by linarith, by linarith⟩) hl2' (abs_nonneg _) (by norm_num)
  rw [hx]
  have b1 := abs_add_le ((m - Real.log q) + Real.log (1 + η)) ((e + 1) * (Real.log 2 - k))
  have b2 := abs_add_le (m - Real.log q) (Real.log (1 + η))
  refine b1.trans ((add_le_add (b2.trans (add_le_add hl1' hwη)) hz).trans ?_)
  norm_num
  linarith

/-- The fractional pitch computed for a frequency of `A * 2 ^ e * (1 + δ)`. -/
theorem pitch_near (hg : RoundsF g) (hfl : Rounds fl) (hlib : Libm logF powF) (A e δ : ℝ) (hA0 : 1 ≤ A) (hA1 : A ≤ 2 ^ 20) (he : |e| ≤ 6) (hδ : |δ| ≤ 4 / 2 ^ 24) :
    |g (fl (fl (12 * fl (logF (fl (A * (2 : ℝ) ^ e * (1 + δ) / fl (A / 2))) / logF 2)) + 57)) - (12 * e + 69)| ≤ 330 / 2 ^ 24 := by
  obtain ⟨e1, e2⟩ := abs_le.1 he
  obtain ⟨z1, z2⟩ := pow_range e he
  obtain ⟨η, hη, hr⟩ := ratio_near hfl A _ δ hA0 hA1 z1 z2 hδ
  rw [hr]
  have hd := logs_near hlib e η he hη
  generalize logF (2 * (2 : ℝ) ^ e * (1 + η)) / logF 2 = y at *
  obtain ⟨d3, d4⟩ := abs_le.1 hd
  norm_num at d3 d4
  have h1 := flD hfl y 8 (abs_le.2 ⟨by linarith, by linarith⟩) (by norm_num)
  generalize fl y = u at *
  obtain ⟨i1, i2⟩ := abs_le.1 h1
  norm_num at i1 i2
  have h2 := flD hfl (12 * u) 96 (abs_le.2 ⟨by linarith, by linarith⟩) (by norm_num)
  generalize fl (12 * u) = v at *
  obtain ⟨j1, j2⟩ := abs_le.1 h2
  norm_num at j1 j2
  have h3 := flD hfl (v + 57) 160 (abs_le.2 ⟨by linarith, by linarith⟩) (by norm_num)
  generalize fl (v + 57) = w at *
  obtain ⟨k1, k2⟩ := abs_le.1 h3
  norm_num at k1 k2
  have h4 := flF hg w 142 (abs_le.2 ⟨by linarith, by linarith⟩) (by norm_num)
  obtain ⟨m1, m2⟩ := abs_le.1 h4
  norm_num at m1 m2
  rw [abs_le]
  norm_num
  constructor <;> linarith

end QM.Pitch.Rounded
