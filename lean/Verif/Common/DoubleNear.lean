import Verif.Common.DoubleOps
import Mathlib.Data.Complex.Basic
import Mathlib.Analysis.Complex.Norm

/-!
# Rounded arithmetic near exact arithmetic

`Near M E a b`: the computed `a` is within `E` units of the exact `b`, a unit being `M / 2^53` for a scale `M` that bounds
every exact intermediate result.
-/

namespace QM.Double

/-- `a` is within `E` units of `b`. -/
def Near (M E a b : ℝ) : Prop := |a - b| ≤ E * (M / 2 ^ 53)

/-- Both parts are within `E` units. -/
def NearC (M E : ℝ) (a b : ℂ) : Prop := Near M E a.re b.re ∧ Near M E a.im b.im

theorem near_refl (M a : ℝ) : Near M 0 a a := by simp [Near]

theorem nearC_refl (M : ℝ) (a : ℂ) : NearC M 0 a a := ⟨near_refl _ _, near_refl _ _⟩

theorem near_neg {M E a b : ℝ} (h : Near M E a b) : Near M E (-a) (-b) := by
  unfold Near at *
  rw [neg_sub_neg, abs_sub_comm]; exact h

theorem near_mono {M E E' a b : ℝ} (hM : Scale M) (h : Near M E a b) (hE : E ≤ E') : Near M E' a b :=
  le_trans h (mul_le_mul_of_nonneg_right hE (unit_pos hM))

theorem nearC_mono {M E E' : ℝ} {a b : ℂ} (hM : Scale M) (h : NearC M E a b) (hE : E ≤ E') : NearC M E' a b :=
  ⟨near_mono hM h.1 hE, near_mono hM h.2 hE⟩

theorem units_le {M E : ℝ} (hM : Scale M) (hE : E ≤ 2 ^ 45) : E * (M / 2 ^ 53) ≤ M / 2 ^ 8 := by
  have := mul_le_mul_of_nonneg_right hE (unit_pos hM)
  refine this.trans (le_of_eq ?_)
  have := hM.pos
  field_simp

section

variable {fl : ℝ → ℝ} (hfl : Rounds fl) {M : ℝ} (hM : Scale M)

include hfl hM in
/-- One rounding more. -/
theorem near_fl {E a b : ℝ} (h : Near M E a b) (hb : |b| ≤ 2 * M) (hE : E ≤ 2 ^ 45) : Near M (E + 4) (fl a) b := by
  unfold Near at *
  have h1 : |a| ≤ 3 * M := by
    have := abs_le_of_sub _ _ _ _ h hb
    have h2 := units_le hM hE
    have h3 := hM.pos
    have : M / 2 ^ 8 ≤ M := div_le_self h3.le (by norm_num)
    linarith
  have h2 := rnd hfl hM a 3 (by norm_num) h1
  have h3 := abs_sub_le (fl a) a b
  linarith

include hfl hM in
theorem near_add {E E' a b c d : ℝ} (h1 : Near M E a b) (h2 : Near M E' c d) (hb : |b + d| ≤ 2 * M) (hE : E + E' ≤ 2 ^ 45) :
    Near M (E + E' + 4) (fl (a + c)) (b + d) := by
  refine near_fl hfl hM ?_ hb hE
  unfold Near at *
  rw [add_sub_add_comm, add_mul]
  exact (abs_add_le _ _).trans (add_le_add h1 h2)

include hfl hM in
theorem near_sub {E E' a b c d : ℝ} (h1 : Near M E a b) (h2 : Near M E' c d) (hb : |b - d| ≤ 2 * M) (hE : E + E' ≤ 2 ^ 45) :
    Near M (E + E' + 4) (fl (a - c)) (b - d) := by
  have := near_add hfl hM h1 (near_neg h2) (by rwa [← sub_eq_add_neg]) hE
  rwa [← sub_eq_add_neg, ← sub_eq_add_neg] at this

include hfl hM in
/-- A product with a number of size at most 1 that is itself known within 32 units. -/
theorem near_mul {E a b s t : ℝ} (h : Near M E a b) (hs : |s - t| ≤ 32 / 2 ^ 53) (ht : |t| ≤ 1) (hb : |b| ≤ M)
    (hE0 : 0 ≤ E) (hE : E ≤ 2 ^ 44) : Near M (E + 37) (fl (a * s)) (b * t) := by
  have hw := unit_pos hM
  have key : Near M (E + 33) (a * s) (b * t) := by
    unfold Near at *
    have e : a * s - b * t = (a - b) * s + b * (s - t) := by ring
    have hs1 : |s| ≤ 1 + 32 / 2 ^ 53 := by have := abs_le_of_sub _ _ _ _ hs ht; linarith
    rw [e]
    calc |(a - b) * s + b * (s - t)| ≤ |(a - b) * s| + |b * (s - t)| := abs_add_le _ _
      _ = |a - b| * |s| + |b| * |s - t| := by rw [abs_mul, abs_mul]
      _ ≤ E * (M / 2 ^ 53) * (1 + 32 / 2 ^ 53) + M * (32 / 2 ^ 53) :=
        add_le_add (mul_le_mul h hs1 (abs_nonneg _) (mul_nonneg hE0 hw))
          (mul_le_mul hb hs (abs_nonneg _) hM.pos.le)
      _ = (E + E * (32 / 2 ^ 53) + 32) * (M / 2 ^ 53) := by ring
      _ ≤ (E + 33) * (M / 2 ^ 53) := by
        refine mul_le_mul_of_nonneg_right ?_ hw
        norm_num at hE ⊢
        linarith
  have hb' : |b * t| ≤ 2 * M := by
    rw [abs_mul]
    have := (mul_le_of_le_one_right (abs_nonneg _) ht).trans hb
    have := hM.pos
    linarith
  have := near_fl hfl hM key hb' (by norm_num at hE ⊢; linarith)
  rwa [show E + 33 + 4 = E + 37 by ring] at this

end

theorem abs_mul_le {x t : ℝ} (ht : |t| ≤ 1) : |x * t| ≤ |x| := by
  rw [abs_mul]; exact mul_le_of_le_one_right (abs_nonneg _) ht

/-- From the parts to the whole. -/
theorem norm_of_near {M E : ℝ} {a b : ℂ} (h : NearC M E a b) :
    ‖a - b‖ ≤ 3 / 2 * E * (M / 2 ^ 53) := by
  have h1 := Complex.norm_le_sqrt_two_mul_max (a - b)
  have h2 : max |(a - b).re| |(a - b).im| ≤ E * (M / 2 ^ 53) := by
    rw [Complex.sub_re, Complex.sub_im]; exact max_le h.1 h.2
  have h3 : √2 ≤ 3 / 2 := by
    rw [Real.sqrt_le_left (by norm_num)]; norm_num
  have h4 : 0 ≤ max |(a - b).re| |(a - b).im| := le_max_of_le_left (abs_nonneg _)
  calc ‖a - b‖ ≤ √2 * max |(a - b).re| |(a - b).im| := h1
    _ ≤ 3 / 2 * (E * (M / 2 ^ 53)) := mul_le_mul h3 h2 h4 (by norm_num)
    _ = _ := by ring

theorem re_le (z : ℂ) {n : ℝ} (h : ‖z‖ ≤ n) : |z.re| ≤ n := (Complex.abs_re_le_norm z).trans h
theorem im_le (z : ℂ) {n : ℝ} (h : ‖z‖ ≤ n) : |z.im| ≤ n := (Complex.abs_im_le_norm z).trans h

end QM.Double
