import Verif.FFT.RoundedLemmas
import Verif.FFT.Real

/-!
# Lemmas for C84: the tables and the mixing steps of `kiss_fftr`
-/

namespace QM.FFT

open Complex QM.DFT QM.Kiss QM.Double

theorem scale_mul {S : ℝ} (c : ℝ) (hc1 : 1 ≤ c) (hc2 : c ≤ 8) (h1 : 1 / 2 ^ 1022 ≤ S) (h2 : S ≤ 2 ^ 1000) : Scale (c * S) := by
  have hp : (0 : ℝ) < 1 / 2 ^ 1022 := by positivity
  have hS : S ≤ c * S := by
    calc S = 1 * S := (one_mul S).symm
      _ ≤ c * S := mul_le_mul_of_nonneg_right hc1 (hp.le.trans h1)
  refine ⟨by linarith, ?_, ?_⟩
  · rw [eta_eq, div_eq_mul_one_div (c * S)]
    exact mul_le_mul_of_nonneg_right (h1.trans hS) (by norm_num)
  · have h3 : c * S ≤ 8 * 2 ^ 1000 := mul_le_mul hc2 h2 (hp.le.trans h1) (by norm_num)
    rw [show (2 : ℝ) ^ 1023 = 2 ^ 23 * 2 ^ 1000 by rw [← pow_add]]
    generalize (2 : ℝ) ^ 1000 = e at *
    norm_num
    linarith

section

variable {fl : ℝ → ℝ} (hfl : Rounds fl)

include hfl in
theorem superPhaseF_near (nc i : Nat) (inv : Bool) (hi : i < nc / 2) :
    |superPhaseF fl nc inv i - superPhase nc inv i| ≤ 28 / 2 ^ 53 ∧ |superPhaseF fl nc inv i| ≤ 7 := by
  have hpi1 := Real.pi_gt_three
  have hpi3 : Real.pi < 3.1416 := Real.pi_lt_d4
  have a0 := rnd_mid hfl Real.pi 3.1416 (by norm_num) (by rw [abs_le]; constructor <;> linarith)
  have hn0 : (0 : ℝ) < nc := Nat.cast_pos.mpr (by omega)
  have hq : ((i : ℝ) + 1) / nc ≤ 1 / 2 := by
    rw [div_le_iff₀ hn0]
    have : (((i + 1) * 2 : ℕ) : ℝ) ≤ nc := Nat.cast_le.mpr (by omega)
    push_cast at this
    linarith
  have hq0 : 0 ≤ ((i : ℝ) + 1) / nc := by positivity
  have e2 : ∀ inv, superPhaseF fl nc inv i = if inv then fl (fl (-fl Real.pi * fl (fl (((i : ℝ) + 1) / nc) + 1 / 2)) * -1)
      else fl (-fl Real.pi * fl (fl (((i : ℝ) + 1) / nc) + 1 / 2)) := fun inv => rfl
  have e3 : ∀ inv, superPhase nc inv i = if inv then (-Real.pi * (((i : ℝ) + 1) / nc + 1 / 2)) * -1
      else -Real.pi * (((i : ℝ) + 1) / nc + 1 / 2) := fun inv => rfl
  rw [e2, e3]
  generalize ((i : ℝ) + 1) / nc = q at *
  have b1 := rnd_mid hfl q (1 / 2) (by norm_num) (by rw [abs_of_nonneg hq0]; exact hq)
  generalize fl q = q1 at *
  have b2 : |q1 + 1 / 2 - (q + 1 / 2)| ≤ 0.51 / 2 ^ 53 := by
    rw [add_sub_add_right_eq_sub]; exact b1.trans (by norm_num)
  have b3 : |q + 1 / 2| ≤ 1 := by rw [abs_of_nonneg (by linarith)]; linarith
  have b4 : |q1 + 1 / 2| ≤ 1.01 := by
    have := abs_le_of_sub _ _ _ _ b2 b3
    norm_num at this ⊢; linarith
  have b5 := rnd_mid hfl (q1 + 1 / 2) 1.01 (by norm_num) b4
  generalize fl (q1 + 1 / 2) = s1 at *
  have b6 : |s1 - (q + 1 / 2)| ≤ 1.53 / 2 ^ 53 := by
    have := abs_sub_le s1 (q1 + 1 / 2) (q + 1 / 2)
    calc _ ≤ _ := this
      _ ≤ (1.01 + 1 / 2 ^ 10) / 2 ^ 53 + 0.51 / 2 ^ 53 := add_le_add b5 b2
      _ ≤ _ := by norm_num
  generalize q + 1 / 2 = s at *
  have c1 : |-fl Real.pi - -Real.pi| ≤ 3.15 / 2 ^ 53 := by
    rw [neg_sub_neg, abs_sub_comm]; exact a0.trans (by norm_num)
  have c2 : |-Real.pi| ≤ 3.1416 := by rw [abs_neg, abs_le]; constructor <;> linarith
  have c3 : |-fl Real.pi| ≤ 3.1417 := by
    have := abs_le_of_sub _ _ _ _ c1 c2
    norm_num at this ⊢; linarith
  generalize -fl Real.pi = p1 at *
  generalize -Real.pi = p at *
  have c4 : |p1 * s1 - p * s| ≤ 8 / 2 ^ 53 := by
    have : p1 * s1 - p * s = p1 * (s1 - s) + (p1 - p) * s := by ring
    rw [this]
    calc _ ≤ |p1 * (s1 - s)| + |(p1 - p) * s| := abs_add_le _ _
      _ = |p1| * |s1 - s| + |p1 - p| * |s| := by rw [abs_mul, abs_mul]
      _ ≤ 3.1417 * (1.53 / 2 ^ 53) + 3.15 / 2 ^ 53 * 1 :=
        add_le_add (mul_le_mul c3 b6 (abs_nonneg _) (by norm_num)) (mul_le_mul c1 b3 (abs_nonneg _) (by norm_num))
      _ ≤ _ := by norm_num
  have c5 : |p * s| ≤ 3.1416 := by
    rw [abs_mul]
    calc |p| * |s| ≤ 3.1416 * 1 := mul_le_mul c2 b3 (abs_nonneg _) (by norm_num)
      _ = _ := by norm_num
  have c6 : |p1 * s1| ≤ 3.1417 := by
    have := abs_le_of_sub _ _ _ _ c4 c5
    norm_num at this ⊢; linarith
  have c7 := rnd_mid hfl (p1 * s1) 3.1417 (by norm_num) c6
  generalize fl (p1 * s1) = r1 at *
  have c8 : |r1 - p * s| ≤ 12 / 2 ^ 53 := by
    have := abs_sub_le r1 (p1 * s1) (p * s)
    calc _ ≤ _ := this
      _ ≤ (3.1417 + 1 / 2 ^ 10) / 2 ^ 53 + 8 / 2 ^ 53 := add_le_add c7 c4
      _ ≤ _ := by norm_num
  have c9 : |r1| ≤ 3.1418 := by
    have := abs_le_of_sub _ _ _ _ c8 c5
    norm_num at this ⊢; linarith
  cases inv
  · simp only [Bool.false_eq_true, if_false]
    exact ⟨c8.trans (by norm_num), c9.trans (by norm_num)⟩
  · simp only [if_true]
    have d1 : |r1 * -1| ≤ 3.1418 := by rw [mul_neg_one, abs_neg]; exact c9
    have d2 := rnd_mid hfl (r1 * -1) 3.1418 (by norm_num) d1
    have d3 : |r1 * -1 - p * s * -1| ≤ 12 / 2 ^ 53 := by rw [← sub_mul, mul_neg_one, abs_neg]; exact c8
    have d4 : |fl (r1 * -1) - p * s * -1| ≤ 28 / 2 ^ 53 := by
      have := abs_sub_le (fl (r1 * -1)) (r1 * -1) (p * s * -1)
      calc _ ≤ _ := this
        _ ≤ (3.1418 + 1 / 2 ^ 10) / 2 ^ 53 + 12 / 2 ^ 53 := add_le_add d2 d3
        _ ≤ _ := by norm_num
    refine ⟨d4, ?_⟩
    have := abs_le_of_sub _ _ _ _ d4 (show |p * s * -1| ≤ 3.1416 by rw [mul_neg_one, abs_neg]; exact c5)
    norm_num at this ⊢
    linarith

/-- The exact super twiddle. -/
noncomputable def superW (nc : Nat) (inv : Bool) (k : Nat) : ℂ := (if inv then I else -I) * root inv (2 * nc) ^ k

theorem norm_superW (nc : Nat) (inv : Bool) (k : Nat) : ‖superW nc inv k‖ = 1 := by
  unfold superW
  rw [norm_mul, norm_root_pow, mul_one]
  cases inv <;> simp

variable {cosF sinF : ℝ → ℝ} (hlib : Libm cosF sinF)

include hfl hlib in
theorem superTwF_near (nc i : Nat) (inv : Bool) (hi : i < nc / 2) :
    TwNear ⟨cosF (superPhaseF fl nc inv i), sinF (superPhaseF fl nc inv i)⟩ (superW nc inv (i + 1)) := by
  obtain ⟨h1, h2⟩ := superPhaseF_near hfl nc i inv hi
  rw [superW, ← superTw_eq nc (by omega), kfCexp]
  generalize superPhaseF fl nc inv i = y at *
  generalize superPhase nc inv i = x at *
  have hc : |Real.cos y - Real.cos x| ≤ 28 / 2 ^ 53 := (Real.abs_cos_sub_cos_le _ _).trans h1
  have hs : |Real.sin y - Real.sin x| ≤ 28 / 2 ^ 53 := (Real.abs_sin_sub_sin_le _ _).trans h1
  constructor
  · have := abs_sub_le (cosF y) (Real.cos y) (Real.cos x)
    calc _ ≤ _ := this
      _ ≤ 2 / 2 ^ 53 + 28 / 2 ^ 53 := add_le_add (hlib.cos _ h2) hc
      _ ≤ _ := by norm_num
  · have := abs_sub_le (sinF y) (Real.sin y) (Real.sin x)
    calc _ ≤ _ := this
      _ ≤ 2 / 2 ^ 53 + 28 / 2 ^ 53 := add_le_add (hlib.sin _ h2) hs
      _ ≤ _ := by norm_num

variable {M : ℝ} (hM : Scale M)

include hfl hM in
/-- The mixing step: sum and twiddled difference. -/
theorem mix_near {a b t w : ℂ} {P : ℝ} (ht : TwNear t w) (hw : ‖w‖ = 1) (hab : ‖a‖ + ‖b‖ ≤ P) (hP : 2 * P ≤ M) :
    NearC M 4 (cadd fl a b) (a + b) ∧ NearC M 84 (cmul fl (csub fl a b) t) ((a - b) * w) ∧
    ‖a + b‖ ≤ P ∧ ‖(a - b) * w‖ ≤ P := by
  have hM0 := hM.pos
  have hP2 : ‖a‖ + ‖b‖ ≤ 2 * M := by linarith
  have h1 := cadd_near hfl hM (nearC_refl M a) (nearC_refl M b) hP2 (by norm_num)
  have h2 := csub_near hfl hM (nearC_refl M a) (nearC_refl M b) hP2 (by norm_num)
  norm_num at h1 h2
  have h3 := norm_of_near h2
  have h4 : ‖a - b‖ ≤ P := (norm_sub_le a b).trans hab
  have h5 : ‖csub fl a b‖ ≤ M := by
    have h6 := norm_add_le (csub fl a b - (a - b)) (a - b)
    rw [sub_add_cancel] at h6
    have h7 : 3 / 2 * 4 * (M / 2 ^ 53) ≤ M / 2 := by
      rw [mul_div_assoc', div_le_iff₀ (by norm_num)]; norm_num; linarith
    linarith
  obtain ⟨h8, h9⟩ := cmul_near hfl hM ht hw h5
  have h10 : ‖csub fl a b * w - (a - b) * w‖ ≤ 6 * (M / 2 ^ 53) := by
    rw [← sub_mul, norm_mul, hw, mul_one]
    exact h3.trans (le_of_eq (by ring))
  refine ⟨h1, ⟨?_, ?_⟩, (norm_add_le a b).trans hab, by rw [norm_mul, hw, mul_one]; exact h4⟩
  · have h11 := re_le _ h10
    rw [sub_re] at h11
    have h12 := abs_sub_le (cmul fl (csub fl a b) t).re (csub fl a b * w).re ((a - b) * w).re
    have h13 := h8.1
    unfold Near at h13 ⊢
    linarith
  · have h11 := im_le _ h10
    rw [sub_im] at h11
    have h12 := abs_sub_le (cmul fl (csub fl a b) t).im (csub fl a b * w).im ((a - b) * w).im
    have h13 := h8.2
    unfold Near at h13 ⊢
    linarith

include hfl hM in
theorem mix_sum {a b t w : ℂ} {P : ℝ} (ht : TwNear t w) (hw : ‖w‖ = 1) (hab : ‖a‖ + ‖b‖ ≤ P) (hP : 2 * P ≤ M) :
    NearC M 92 (cadd fl (cadd fl a b) (cmul fl (csub fl a b) t)) (a + b + (a - b) * w) ∧
    NearC M 92 (csub fl (cadd fl a b) (cmul fl (csub fl a b) t)) (a + b - (a - b) * w) ∧
    ‖a + b + (a - b) * w‖ ≤ M ∧ ‖a + b - (a - b) * w‖ ≤ M := by
  obtain ⟨h1, h2, h3, h4⟩ := mix_near hfl hM ht hw hab hP
  have hM0 := hM.pos
  have h5 := cadd_near hfl hM h1 h2 (by linarith) (by norm_num)
  have h6 := csub_near hfl hM h1 h2 (by linarith) (by norm_num)
  norm_num at h5 h6
  refine ⟨h5, h6, (norm_add_le _ _).trans (by linarith), (norm_sub_le _ _).trans (by linarith)⟩

include hfl hM in
theorem near_halve {E a b : ℝ} (h : Near M E a b) (hb : |b| ≤ M) (hE0 : 0 ≤ E) (hE : E ≤ 2 ^ 45) :
    Near M (E + 4) (fl (a * (1 / 2))) (b * (1 / 2)) := by
  have hM0 := hM.pos
  have hw := unit_pos hM
  refine near_fl hfl hM ?_ ?_ hE
  · unfold Near at *
    rw [← sub_mul, abs_mul, abs_of_pos (by norm_num : (0 : ℝ) < 1 / 2)]
    have := mul_nonneg hE0 hw
    linarith
  · rw [abs_mul, abs_of_pos (by norm_num : (0 : ℝ) < 1 / 2)]
    linarith

include hfl hM in
/-- The un-mixing step of `kiss_fftr` up to rounding. -/
theorem unmix_near {a b t w : ℂ} {P : ℝ} (ht : TwNear t w) (hw : ‖w‖ = 1) (hab : ‖a‖ + ‖b‖ ≤ P) (hP : 2 * P ≤ M)
    {f1 tw : ℂ} (hf1 : f1 = cadd fl a b) (htw : tw = cmul fl (csub fl a b) t) :
    ‖(⟨fl (fl (f1.re + tw.re) * (1 / 2)), fl (fl (f1.im + tw.im) * (1 / 2))⟩ : ℂ) - (a + b + (a - b) * w) * (1 / 2)‖ ≤
      144 * (M / 2 ^ 53) ∧
    ‖(⟨fl (fl (f1.re - tw.re) * (1 / 2)), fl (fl (tw.im - f1.im) * (1 / 2))⟩ : ℂ) -
      (starRingEnd ℂ) ((a + b - (a - b) * w) * (1 / 2))‖ ≤ 144 * (M / 2 ^ 53) := by
  obtain ⟨h1, h2, h3, h4⟩ := mix_near hfl hM ht hw hab hP
  obtain ⟨g1, g2, g3, g4⟩ := mix_sum hfl hM ht hw hab hP
  subst hf1 htw
  have hM0 := hM.pos
  have hhalf : (1 / 2 : ℂ) = ((1 / 2 : ℝ) : ℂ) := by push_cast; rfl
  have k1 := near_halve hfl hM g1.1 (re_le _ g3) (by norm_num) (by norm_num)
  have k2 := near_halve hfl hM g1.2 (im_le _ g3) (by norm_num) (by norm_num)
  have k3 := near_halve hfl hM g2.1 (re_le _ g4) (by norm_num) (by norm_num)
  have k4' : Near M 92 (fl ((cmul fl (csub fl a b) t).im - (cadd fl a b).im)) (-(a + b - (a - b) * w).im) := by
    have hneg : ((a - b) * w).im - (a + b).im = -(a + b - (a - b) * w).im := by rw [sub_im]; ring
    have := near_sub hfl hM h2.2 h1.2 (by
      rw [hneg, abs_neg]
      have := im_le _ g4
      linarith) (by norm_num)
    rw [hneg] at this
    exact near_mono hM this (by norm_num)
  have k4 := near_halve hfl hM k4' (by rw [abs_neg]; exact im_le _ g4) (by norm_num) (by norm_num)
  refine ⟨?_, ?_⟩
  · have : NearC M 96 (⟨fl (fl ((cadd fl a b).re + (cmul fl (csub fl a b) t).re) * (1 / 2)),
        fl (fl ((cadd fl a b).im + (cmul fl (csub fl a b) t).im) * (1 / 2))⟩ : ℂ) ((a + b + (a - b) * w) * (1 / 2)) := by
      rw [hhalf]
      refine ⟨?_, ?_⟩
      · rw [re_mul_ofReal]; exact near_mono hM k1 (by norm_num)
      · rw [im_mul_ofReal]; exact near_mono hM k2 (by norm_num)
    exact (norm_of_near this).trans (le_of_eq (by ring))
  · have : NearC M 96 (⟨fl (fl ((cadd fl a b).re - (cmul fl (csub fl a b) t).re) * (1 / 2)),
        fl (fl ((cmul fl (csub fl a b) t).im - (cadd fl a b).im) * (1 / 2))⟩ : ℂ)
        ((starRingEnd ℂ) ((a + b - (a - b) * w) * (1 / 2))) := by
      rw [hhalf]
      refine ⟨?_, ?_⟩
      · rw [Complex.conj_re, re_mul_ofReal]; exact near_mono hM k3 (by norm_num)
      · rw [Complex.conj_im, im_mul_ofReal, ← neg_mul]; exact near_mono hM k4 (by norm_num)
    exact (norm_of_near this).trans (le_of_eq (by ring))

end

end QM.FFT
