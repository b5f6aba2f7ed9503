import Verif.PhaseVocoder.Rounded
import Verif.Common.DoubleOps
import Verif.Common.Fill
import Mathlib.Analysis.Real.Pi.Bounds

/-! Helper lemmas for phases in double precision. -/

namespace QM.PhaseVocoder

open QM.Double

variable {fl : ℝ → ℝ}

theorem tiny_le : (1 : ℝ) / 2 ^ 1075 ≤ 1 / 2 ^ 53 / 2 ^ 200 := by
  rw [div_div, ← pow_add]
  exact one_div_le_one_div_of_le (by positivity) (pow_le_pow_right₀ (by norm_num) (by norm_num))

/-- Rounding with an absolute error far below anything of interest. -/
theorem fl_near (hfl : Rounds fl) (x B : ℝ) (hx : |x| ≤ B) (hB : B ≤ 2 ^ 250) : |fl x - x| ≤ (B + 1 / 2 ^ 200) / 2 ^ 53 := by
  have h1 : (2 : ℝ) ^ 250 ≤ 2 ^ 1023 := pow_le_pow_right₀ (by norm_num) (by norm_num)
  have h2 := hfl x (hx.trans (hB.trans h1))
  have h3 := tiny_le
  have h4 : |x| / 2 ^ 53 ≤ B / 2 ^ 53 := div_le_div_of_nonneg_right hx (by positivity)
  have h5 : (B + 1 / 2 ^ 200) / 2 ^ 53 = B / 2 ^ 53 + 1 / 2 ^ 53 / 2 ^ 200 := by ring
  rw [h5]
  exact h2.trans (add_le_add h4 h3)

/-- `mod`: an integer number of periods is taken off, and what is left is in the period or just outside. -/
theorem modF_near (hfl : Rounds fl) (x y : ℝ) (hx : |x| ≤ 2 ^ 120) (hy1 : 1 / 2 ^ 60 ≤ |y|) (hy2 : |y| ≤ 2 ^ 60) : ∃ k : ℤ,
    |modF fl x y - (x - k * y)| ≤ 4 / 2 ^ 53 * (|x| + |y|) ∧ (0 < y → -(2 / 2 ^ 53 * (|x| + |y|)) ≤ x - k * y ∧ x - k * y ≤ y + 2 / 2 ^ 53 * (|x| + |y|)) ∧
      (y < 0 → y - 2 / 2 ^ 53 * (|x| + |y|) ≤ x - k * y ∧ x - k * y ≤ 2 / 2 ^ 53 * (|x| + |y|)) := by
  have hy0 : 0 < |y| := lt_of_lt_of_le (by positivity) hy1
  have hyne : y ≠ 0 := abs_pos.mp hy0
  set q := x / y with hq
  have hxq : x = q * y := by rw [hq, div_mul_cancel₀ _ hyne]
  have hq1 : |q| * |y| = |x| := by rw [← abs_mul, ← hxq]
  have hx0 := abs_nonneg x
  have hqle : |q| ≤ 2 ^ 180 := by
    rw [hq, abs_div, div_le_iff₀ hy0]
    linarith
  have e1 := fl_near hfl q |q| le_rfl (hqle.trans (by norm_num))
  set f := fl q with hf
  set a : ℤ := ⌊f⌋ with ha
  have a1 : (a : ℝ) ≤ f := Int.floor_le f
  have a2 : f < a + 1 := Int.lt_floor_add_one f
  -- what is left
  have hD : x - a * y = y * (q - a) := by rw [hxq]; ring
  set w := (|q| + 1 / 2 ^ 200) / 2 ^ 53 with hw
  have hw0 : 0 ≤ w := by positivity
  have hwy : w * |y| ≤ 2 / 2 ^ 53 * (|x| + |y|) := by
    have : w * |y| = (|x| + 1 / 2 ^ 200 * |y|) / 2 ^ 53 := by rw [hw, ← hq1]; ring
    rw [this]
    linarith
  have b1 := (abs_le.mp e1).1
  have b2 := (abs_le.mp e1).2
  have r1 : -w ≤ q - a := by linarith
  have r2 : q - a ≤ 1 + w := by linarith
  have hDabs : |x - a * y| ≤ |y| + 2 / 2 ^ 53 * (|x| + |y|) := by
    rw [hD, abs_mul]
    have : |q - a| ≤ 1 + w := abs_le.mpr ⟨by linarith, r2⟩
    have := mul_le_mul_of_nonneg_left this hy0.le
    linarith
  clear_value a f w
  refine ⟨a, ?_, ?_, ?_⟩
  · have hya : |y * a| ≤ |x| + |x - a * y| := by
      have := abs_sub_abs_le_abs_sub (y * a) x
      rw [abs_sub_comm, mul_comm y (a : ℝ)] at this
      rw [mul_comm y (a : ℝ)]
      linarith
    have e2 := fl_near hfl (y * a) _ (hya.trans (add_le_add_right hDabs _)) (by linarith)
    have e3 := fl_near hfl (x - fl (y * a)) (|x - a * y| + |fl (y * a) - y * a|) (by
      have := abs_sub (x - a * y) (fl (y * a) - y * a)
      rwa [show x - a * y - (fl (y * a) - y * a) = x - fl (y * a) from by ring] at this) (by linarith)
    have h3 : |fl (x - fl (y * a)) - (x - a * y)| ≤ |fl (x - fl (y * a)) - (x - fl (y * a))| + |fl (y * a) - y * a| := by
      have := abs_sub (fl (x - fl (y * a)) - (x - fl (y * a))) (fl (y * a) - y * a)
      rwa [show fl (x - fl (y * a)) - (x - fl (y * a)) - (fl (y * a) - y * a) = fl (x - fl (y * a)) - (x - a * y) from by ring] at this
    have : modF fl x y = fl (x - fl (y * a)) := by rw [modF, ha, hf]
    rw [this]
    linarith
  · intro hp
    rw [hD]
    rw [abs_of_pos hp] at *
    constructor <;> nlinarith
  · intro hn
    rw [hD]
    rw [abs_of_neg hn] at *
    constructor <;> nlinarith


theorem pi_near (hfl : Rounds fl) : |fl Real.pi - Real.pi| ≤ 3.2 / 2 ^ 53 := by
  have h := fl_near hfl Real.pi 3.15 (by rw [abs_of_pos Real.pi_pos]; exact Real.pi_lt_d2.le) (by norm_num)
  linarith

/-- `princarg`: whole turns are taken off, and what is left is at most half a turn, up to rounding. -/
theorem princargF_near (hfl : Rounds fl) (ang : ℝ) (ha : |ang| ≤ 2 ^ 100) : ∃ k : ℤ,
    |princargF fl ang - (ang - 2 * Real.pi * k)| ≤ (8 * |ang| + 100) / 2 ^ 53 ∧ |princargF fl ang| ≤ Real.pi + (8 * |ang| + 100) / 2 ^ 53 := by
  have p1 := Real.pi_gt_d2
  have p2 := Real.pi_lt_d2
  have hP := pi_near hfl
  set P := fl Real.pi with hPd
  have a0 := abs_nonneg ang
  obtain ⟨P1, P2⟩ := abs_le.mp hP
  have hY0 : |-2 * P| ≤ 6.4 := by
    rw [abs_le]
    constructor <;> linarith
  have hY := fl_near hfl (-2 * P) 6.4 hY0 (by norm_num)
  set Y := fl (-2 * P) with hYd
  obtain ⟨Y1, Y2⟩ := abs_le.mp hY
  have hX0 : |ang + P| ≤ |ang| + 3.2 := (abs_add_le _ _).trans (by
    have : |P| ≤ 3.2 := by
      rw [abs_le]
      constructor <;> linarith
    linarith)
  have hX := fl_near hfl (ang + P) _ hX0 (by linarith)
  set X := fl (ang + P) with hXd
  obtain ⟨X1, X2⟩ := abs_le.mp hX
  have hYneg : Y < 0 := by linarith
  have hYa : |Y| = -Y := abs_of_neg hYneg
  have hXa : |X| ≤ 1.01 * |ang| + 3.3 := by
    have := abs_sub_abs_le_abs_sub X (ang + P)
    linarith
  have hX00 := abs_nonneg X
  obtain ⟨k, k1, -, k2⟩ := modF_near hfl X Y (by linarith) (by rw [hYa]; linarith) (by rw [hYa]; linarith)
  obtain ⟨k3, k4⟩ := k2 hYneg
  set m := modF fl X Y with hm
  obtain ⟨m1, m2⟩ := abs_le.mp k1
  rw [hYa] at k3 k4 m1 m2
  have hk : |(k : ℝ)| ≤ (1.1 * |ang| + 10) / 6 := by
    have h1 : |(k : ℝ)| * |Y| ≤ 1.1 * |ang| + 10 := by
      rw [← abs_mul]
      have : |(k : ℝ) * Y| ≤ |X| + |X - k * Y| := by
        have := abs_sub_abs_le_abs_sub (k * Y) X
        rw [abs_sub_comm] at this
        linarith
      have : |X - k * Y| ≤ 6.5 + 0.01 * |ang| := by
        rw [abs_le]
        constructor <;> linarith
      linarith
    have h2 : |(k : ℝ)| * 6 ≤ |(k : ℝ)| * |Y| := mul_le_mul_of_nonneg_left (by rw [hYa]; linarith) (abs_nonneg _)
    rw [le_div_iff₀ (by norm_num)]
    linarith
  have hkY : |(k : ℝ) * (Y + 2 * Real.pi)| ≤ (2.4 * |ang| + 22) / 2 ^ 53 := by
    rw [abs_mul]
    have h1 : |Y + 2 * Real.pi| ≤ 12.9 / 2 ^ 53 := by
      rw [abs_le]
      constructor <;> linarith
    have := mul_le_mul hk h1 (abs_nonneg _) (by positivity)
    have h3 : (1.1 * |ang| + 10) / 6 * (12.9 / 2 ^ 53) = (1.1 * 12.9 / 6 * |ang| + 10 * 12.9 / 6) / 2 ^ 53 := by ring
    rw [h3] at this
    refine this.trans (div_le_div_of_nonneg_right ?_ (by positivity))
    linarith
  obtain ⟨K1, K2⟩ := abs_le.mp hkY
  have hmP : |m + P| ≤ 3.3 + 0.01 * |ang| := by
    rw [abs_le]
    constructor <;> linarith
  have hr := fl_near hfl (m + P) _ hmP (by linarith)
  have hpr : princargF fl ang = fl (m + P) := rfl
  rw [hpr]
  set r := fl (m + P)
  obtain ⟨r1, r2⟩ := abs_le.mp hr
  have hcast : 2 * Real.pi * ((-(k + 1) : ℤ) : ℝ) = -(2 * Real.pi * k) - 2 * Real.pi := by push_cast; ring
  have hexp : (k : ℝ) * (Y + 2 * Real.pi) = k * Y + 2 * Real.pi * k := by ring
  rw [hexp] at K1 K2
  refine ⟨-(k + 1), ?_, ?_⟩
  · rw [hcast, abs_le]
    constructor <;> linarith
  · rw [abs_le]
    constructor <;> linarith

/-- The expected advance per frame, up to rounding. -/
theorem omegaF_near (hfl : Rounds fl) (n : Nat) (hop : Int) (i : Nat) (hn : 0 < n) (hi : i ≤ n) (hn' : n ≤ 2 ^ 31) (hh : |hop| ≤ 2 ^ 31) :
    |omegaF fl n hop i - omega n hop i| ≤ 10 / 2 ^ 53 * (|omega n hop i| + 1) := by
  have p1 := Real.pi_gt_d2
  have p2 := Real.pi_lt_d2
  have hP := pi_near hfl
  set P := fl Real.pi with hPd
  obtain ⟨P1, P2⟩ := abs_le.mp hP
  have hT := fl_near hfl (2 * P) 6.4 (by rw [abs_le]; constructor <;> linarith) (by norm_num)
  set T := fl (2 * P) with hTd
  obtain ⟨T1, T2⟩ := abs_le.mp hT
  have hTp : |T - 2 * Real.pi| ≤ 13 / 2 ^ 53 := by rw [abs_le]; constructor <;> linarith
  have hn0 : (0 : ℝ) < n := by exact_mod_cast hn
  have hnr : (n : ℝ) ≤ 2 ^ 31 := by exact_mod_cast hn'
  have hir : (i : ℝ) ≤ n := by exact_mod_cast hi
  have hi0 : (0 : ℝ) ≤ i := by positivity
  have hhr : |(hop : ℝ)| ≤ 2 ^ 31 := by exact_mod_cast hh
  have hh0 := abs_nonneg (hop : ℝ)
  -- the first product
  have hTa : |T| ≤ 6.4 := by rw [abs_le]; constructor <;> linarith
  have hA := fl_near hfl (T * hop) (6.4 * |(hop : ℝ)|) (by rw [abs_mul]; exact mul_le_mul_of_nonneg_right hTa hh0) (by linarith)
  set A := fl (T * hop) with hAd
  have hA2 : |A - 2 * Real.pi * hop| ≤ (19.5 * |(hop : ℝ)| + 1 / 2 ^ 200) / 2 ^ 53 := by
    have h1 : |T * hop - 2 * Real.pi * hop| ≤ 13 / 2 ^ 53 * |(hop : ℝ)| := by
      rw [← sub_mul, abs_mul]
      exact mul_le_mul_of_nonneg_right hTp hh0
    have := abs_sub_le A (T * hop) (2 * Real.pi * hop)
    linarith
  have hpa : |2 * Real.pi * (hop : ℝ)| ≤ 6.3 * |(hop : ℝ)| := by
    rw [abs_mul]
    refine mul_le_mul_of_nonneg_right ?_ hh0
    rw [abs_le]; constructor <;> linarith
  have hAa : |A| ≤ 6.4 * |(hop : ℝ)| + 1 / 2 ^ 200 := by
    have := abs_sub_abs_le_abs_sub A (2 * Real.pi * hop)
    linarith
  have hB := fl_near hfl (A * i) ((6.4 * |(hop : ℝ)| + 1 / 2 ^ 200) * i) (by rw [abs_mul, Nat.abs_cast]; exact mul_le_mul_of_nonneg_right hAa hi0) (by
    have : (6.4 * |(hop : ℝ)| + 1 / 2 ^ 200) * i ≤ (6.4 * 2 ^ 31 + 1) * 2 ^ 31 :=
      mul_le_mul (by linarith) (hir.trans hnr) hi0 (by norm_num)
    linarith)
  set B := fl (A * i) with hBd
  have hB2 : |B - 2 * Real.pi * hop * i| ≤ ((26 * |(hop : ℝ)| + 3 / 2 ^ 200) * i + 1 / 2 ^ 200) / 2 ^ 53 := by
    have h1 : |A * i - 2 * Real.pi * hop * i| ≤ (19.5 * |(hop : ℝ)| + 1 / 2 ^ 200) / 2 ^ 53 * i := by
      rw [← sub_mul, abs_mul, Nat.abs_cast]
      exact mul_le_mul_of_nonneg_right hA2 hi0
    have := abs_sub_le B (A * i) (2 * Real.pi * hop * i)
    have hhi : 0 ≤ |(hop : ℝ)| * i := mul_nonneg hh0 hi0
    generalize hz : |(hop : ℝ)| * i = z at *
    have e1 : (19.5 * |(hop : ℝ)| + 1 / 2 ^ 200) / 2 ^ 53 * i = (19.5 * z + 1 / 2 ^ 200 * i) / 2 ^ 53 := by rw [← hz]; ring
    have e2 : ((6.4 * |(hop : ℝ)| + 1 / 2 ^ 200) * i + 1 / 2 ^ 200) / 2 ^ 53 = (6.4 * z + 1 / 2 ^ 200 * i + 1 / 2 ^ 200) / 2 ^ 53 := by rw [← hz]; ring
    have e3 : ((26 * |(hop : ℝ)| + 3 / 2 ^ 200) * i + 1 / 2 ^ 200) / 2 ^ 53 = (26 * z + 3 / 2 ^ 200 * i + 1 / 2 ^ 200) / 2 ^ 53 := by rw [← hz]; ring
    rw [e1] at h1
    rw [e2] at hB
    rw [e3]
    linarith
  have hom : omega n hop i = 2 * Real.pi * hop * i / n := rfl
  have homb : |omega n hop i| = 2 * Real.pi * (|(hop : ℝ)| * i / n) := by
    rw [hom, abs_div, abs_mul, abs_mul, Nat.abs_cast, Nat.abs_cast, abs_of_pos (by linarith : (0 : ℝ) < 2 * Real.pi)]
    ring
  have homa : 6.28 * (|(hop : ℝ)| * i / n) ≤ |omega n hop i| := by
    rw [homb]
    exact mul_le_mul_of_nonneg_right (by linarith) (by positivity)
  have hin : (i : ℝ) / n ≤ 1 := by rw [div_le_one hn0]; exact hir
  have hn1 : (1 : ℝ) / n ≤ 1 := by rw [div_le_one hn0]; exact_mod_cast hn
  have hin0 : 0 ≤ (i : ℝ) / n := by positivity
  have hn10 : 0 ≤ (1 : ℝ) / n := by positivity
  have hBn : |B / n - omega n hop i| ≤ (26 * (|(hop : ℝ)| * i / n) + 4 / 2 ^ 200) / 2 ^ 53 := by
    rw [hom, ← sub_div, abs_div, Nat.abs_cast]
    refine (div_le_div_of_nonneg_right hB2 hn0.le).trans ?_
    have : ((26 * |(hop : ℝ)| + 3 / 2 ^ 200) * i + 1 / 2 ^ 200) / 2 ^ 53 / n =
        (26 * (|(hop : ℝ)| * i / n) + 3 / 2 ^ 200 * (i / n) + 1 / 2 ^ 200 * (1 / n)) / 2 ^ 53 := by ring
    rw [this]
    linarith
  have hwle : |omega n hop i| ≤ 2 ^ 40 := by
    rw [homb]
    have h1 : |(hop : ℝ)| * i / n ≤ |(hop : ℝ)| := by
      rw [mul_div_assoc]
      exact mul_le_of_le_one_right hh0 hin
    have h2 : 2 * Real.pi * (|(hop : ℝ)| * i / n) ≤ 6.4 * |(hop : ℝ)| := mul_le_mul (by linarith) h1 (by positivity) (by norm_num)
    linarith
  generalize hz : |(hop : ℝ)| * i / n = z at *
  have hz0 : 0 ≤ z := by rw [← hz]; positivity
  generalize hw : omega n hop i = w at *
  have hzle : w ≤ |w| := le_abs_self w
  have hBa : |B / n| ≤ 1.01 * |w| + 0.01 := by
    have := abs_sub_abs_le_abs_sub (B / n) w
    linarith
  have hC := fl_near hfl (B / n) _ hBa (by linarith)
  have hfin : omegaF fl n hop i = fl (B / n) := rfl
  rw [hfin]
  have := abs_sub_le (fl (B / n)) (B / n) w
  linarith [abs_nonneg w]

/-- One bin of one frame. -/
noncomputable def stepF (fl : ℝ → ℝ) (w ph un t : ℝ) : ℝ := fl (fl (un + w) + princargF fl (fl (t - fl (ph + w))))

/-- One frame of one bin: `W` bounds the phase kept, `H` the advance. -/
theorem stepF_near (hfl : Rounds fl) (w ph un t H W : ℝ) (hH : 4 ≤ H) (hH2 : H ≤ 2 ^ 60) (hW2 : W ≤ 2 ^ 120) (hw : |w| ≤ H - 4) (hph : |ph| ≤ H) (ht : |t| ≤ 4) (hun : |un| ≤ W) : ∃ k : ℤ,
    |stepF fl w ph un t - t - (un - ph) - 2 * Real.pi * k| ≤ (2.1 * W + 48 * H) / 2 ^ 53 ∧
      |stepF fl w ph un t - un - w| ≤ Real.pi + (2.1 * W + 48 * H) / 2 ^ 53 := by
  have p1 := Real.pi_gt_d2
  have p2 := Real.pi_lt_d2
  have hW0 : 0 ≤ W := (abs_nonneg _).trans hun
  have h1 := fl_near hfl (ph + w) (2 * H - 4) ((abs_add_le _ _).trans (by linarith)) (by linarith)
  set x1 := fl (ph + w)
  obtain ⟨u1, u2⟩ := abs_le.mp h1
  obtain ⟨v1, v2⟩ := abs_le.mp ht
  obtain ⟨w1, w2⟩ := abs_le.mp hw
  obtain ⟨q1, q2⟩ := abs_le.mp hph
  obtain ⟨n1, n2⟩ := abs_le.mp hun
  have h2 := fl_near hfl (t - x1) (2.1 * H) (by rw [abs_le]; constructor <;> linarith) (by linarith)
  set x2 := fl (t - x1)
  obtain ⟨s1, s2⟩ := abs_le.mp h2
  have hx2 : |x2| ≤ 2.2 * H := by rw [abs_le]; constructor <;> linarith
  obtain ⟨k, k1, k2⟩ := princargF_near hfl x2 (by linarith)
  set e := princargF fl x2
  obtain ⟨e1, e2⟩ := abs_le.mp k1
  obtain ⟨e3, e4⟩ := abs_le.mp k2
  have h3 := fl_near hfl (un + w) (W + H - 4) ((abs_add_le _ _).trans (by linarith)) (by linarith)
  set y1 := fl (un + w)
  obtain ⟨y2, y3⟩ := abs_le.mp h3
  have h4 := fl_near hfl (y1 + e) (1.01 * W + 1.1 * H) (by rw [abs_le]; constructor <;> linarith) (by linarith)
  have hr : stepF fl w ph un t = fl (y1 + e) := rfl
  rw [hr]
  obtain ⟨r1, r2⟩ := abs_le.mp h4
  refine ⟨-k, ?_, ?_⟩
  · have : 2 * Real.pi * ((-k : ℤ) : ℝ) = -(2 * Real.pi * k) := by push_cast; ring
    rw [this, abs_le]
    constructor <;> linarith
  · rw [abs_le]
    constructor <;> linarith

/-- Evaluating the nearest double. -/
theorem rn_eq (x : ℝ) (e m : ℤ) (he : -1022 ≤ e) (h1 : (2 : ℝ) ^ e ≤ |x|) (h2 : |x| < 2 ^ (e + 1)) (h3 : -(1 / 2) ≤ x / 2 ^ (e - 52) - m)
    (h4 : x / 2 ^ (e - 52) - m < 1 / 2) : rn x = m * 2 ^ (e - 52) := by
  have hpos : 0 < |x| := lt_of_lt_of_le (zpow_pos (by norm_num) _) h1
  have hl : Int.log 2 |x| = e := by
    have a := (Int.zpow_le_iff_le_log (R := ℝ) (b := 2) (by norm_num) hpos (x := e)).mp (by exact_mod_cast h1)
    have b := (Int.lt_zpow_iff_log_lt (R := ℝ) (b := 2) (by norm_num) hpos (x := e + 1)).mp (by exact_mod_cast h2)
    omega
  unfold rn ulp
  rw [hl, max_eq_left (by omega)]
  congr 1
  norm_cast
  rw [round_eq, Int.floor_eq_iff]
  push_cast
  constructor <;> linarith

/-- What one call does to the bins in use. -/
theorem unwrapF_ok {n : Nat} {hop : Int} {d : Phases} {ph un th : Nat → ℝ} (hp : d.phase.length = n / 2 + 1) (hu : d.unwrapped.length = n / 2 + 1)
    (hph : ∀ i, i ≤ n / 2 → d.phase[i]? = some (ph i)) (hun : ∀ i, i ≤ n / 2 → d.unwrapped[i]? = some (un i)) (theta out : List ℝ)
    (hth : ∀ i, i ≤ n / 2 → theta[i]? = some (th i)) (ho : n / 2 + 1 ≤ out.length) :
    ∃ d' out', unwrapPhasesF fl n hop d theta out = some (d', out') ∧ d'.phase.length = n / 2 + 1 ∧ d'.unwrapped.length = n / 2 + 1 ∧
      out'.length = out.length ∧ (∀ i, i ≤ n / 2 → d'.phase[i]? = some (th i)) ∧
      (∀ i, i ≤ n / 2 → d'.unwrapped[i]? = some (stepF fl (omegaF fl n hop i) (ph i) (un i) (th i))) ∧
      (∀ i, i ≤ n / 2 → out'[i]? = some (stepF fl (omegaF fl n hop i) (ph i) (un i) (th i))) ∧ (∀ i, n / 2 < i → out'[i]? = out[i]?) := by
  obtain ⟨g, hg⟩ : ∃ g : Nat → ℝ, g = fun i => stepF fl (omegaF fl n hop i) (ph i) (un i) (th i) := ⟨_, rfl⟩
  obtain ⟨⟨p, u, o⟩, a1, a2, a3, a4, a5, a6, a7, a8, a9, a10⟩ := loop_inv (n := n / 2 + 1) (s := (d.phase, d.unwrapped, out))
    (f := unwrapBodyF fl n hop theta)
    (P := fun i s => s.1.length = n / 2 + 1 ∧ s.2.1.length = n / 2 + 1 ∧ s.2.2.length = out.length ∧
      (∀ j : Nat, i ≤ j → s.1[j]? = d.phase[j]?) ∧ (∀ j : Nat, i ≤ j → s.2.1[j]? = d.unwrapped[j]?) ∧
      (∀ j : Nat, i ≤ j → s.2.2[j]? = out[j]?) ∧
      (∀ j : Nat, j < i → s.1[j]? = some (th j)) ∧ (∀ j : Nat, j < i → s.2.1[j]? = some (g j)) ∧
      (∀ j : Nat, j < i → s.2.2[j]? = some (g j)))
    ⟨hp, hu, rfl, fun j _ => rfl, fun j _ => rfl, fun j _ => rfl, fun j hj => absurd hj (Nat.not_lt_zero j),
      fun j hj => absurd hj (Nat.not_lt_zero j), fun j hj => absurd hj (Nat.not_lt_zero j)⟩
    (by
      rintro i ⟨p, u, o⟩ hi ⟨l1, l2, l3, r1, r2, r3, v1, v2, v3⟩
      dsimp only at l1 l2 l3 r1 r2 r3 v1 v2 v3
      have hgi : fl (fl (un i + omegaF fl n hop i) + princargF fl (fl (th i - fl (ph i + omegaF fl n hop i)))) = g i := by
        rw [hg]; rfl
      refine ⟨(p.set i (th i), u.set i (g i), o.set i (g i)), ?_, by simp [l1], by simp [l2], by simp [l3], ?_, ?_, ?_, ?_, ?_, ?_⟩
      · unfold unwrapBodyF
        simp only [r1 i (le_refl i), r2 i (le_refl i), hph i (by omega), hun i (by omega), hth i (by omega), Option.bind_eq_bind,
          Option.bind_some, hgi]
        rw [wr_some _ (by omega)]
        simp only [Option.bind_some]
        rw [wr_some _ (by omega)]
        simp only [Option.bind_some]
        rw [List.getElem?_set_self (by omega)]
        simp only [Option.bind_some]
        rw [wr_some _ (by omega)]
        rfl
      all_goals intro k hk
      all_goals dsimp only
      · rw [List.getElem?_set_ne (by omega)]; exact r1 k (by omega)
      · rw [List.getElem?_set_ne (by omega)]; exact r2 k (by omega)
      · rw [List.getElem?_set_ne (by omega)]; exact r3 k (by omega)
      all_goals rcases Nat.lt_succ_iff_lt_or_eq.mp hk with h | h
      · rw [List.getElem?_set_ne (by omega)]; exact v1 k h
      · subst h; rw [List.getElem?_set_self (by omega)]
      · rw [List.getElem?_set_ne (by omega)]; exact v2 k h
      · subst h; rw [List.getElem?_set_self (by omega)]
      · rw [List.getElem?_set_ne (by omega)]; exact v3 k h
      · subst h; rw [List.getElem?_set_self (by omega)])
  subst hg
  refine ⟨⟨p, u⟩, o, ?_, a2, a3, a4, fun i hi => a8 i (by omega), fun i hi => a9 i (by omega), fun i hi => a10 i (by omega), fun i hi => a7 i (by omega)⟩
  unfold unwrapPhasesF
  rw [a1]
  rfl

theorem resetF_ok {n : Nat} {hop : Int} {d : Phases} (hp : d.phase.length = n / 2 + 1) (hu : d.unwrapped.length = n / 2 + 1) :
    ∃ d', resetF fl n hop d = some d' ∧ d'.phase.length = n / 2 + 1 ∧ d'.unwrapped.length = n / 2 + 1 ∧
      (∀ i, i ≤ n / 2 → d'.phase[i]? = some (-omegaF fl n hop i)) ∧ (∀ i, i ≤ n / 2 → d'.unwrapped[i]? = some (-omegaF fl n hop i)) := by
  obtain ⟨b, c, h1, h2, h3, h4, _⟩ := fill2_ok (n / 2 + 1) (fun i (p : List ℝ × List ℝ) => do
    let ph ← wr p.1 i (-omegaF fl n hop i)
    let un ← wr p.2 i (-omegaF fl n hop i)
    pure (ph, un)) (fun i => -omegaF fl n hop i) (fun i => -omegaF fl n hop i) d.phase d.unwrapped (by omega) (by omega) (by
      intro i b1 c1 hi hb hc
      simp only [Option.bind_eq_bind]
      rw [wr_some _ (by omega)]
      simp only [Option.bind_some]
      rw [wr_some _ (by omega)]
      rfl)
  refine ⟨⟨b, c⟩, ?_, h2.trans hp, h3.trans hu, fun i hi => (h4 i (by omega)).1, fun i hi => (h4 i (by omega)).2⟩
  unfold resetF
  rw [h1]
  rfl

end QM.PhaseVocoder
