import Verif.Pitch.Model
import Mathlib.Analysis.SpecialFunctions.Log.Base
import Mathlib.Tactic.Linarith
import Mathlib.Tactic.FieldSimp

namespace QM.Pitch

/-- The exact fractional pitch of a frequency. -/
noncomputable def pitchOf (f a : ℝ) : ℝ := 69 + 12 * Real.logb 2 (f / a)

theorem p_eq (f a : ℝ) (hf : 0 < f) (ha : 0 < a) : 12 * (Real.log (f / (a / 2)) / Real.log 2) + 57 = pitchOf f a := by
  unfold pitchOf Real.logb
  have h2 : Real.log 2 ≠ 0 := ne_of_gt (Real.log_pos (by norm_num))
  rw [show f / (a / 2) = 2 * (f / a) by field_simp, Real.log_mul (by norm_num) (ne_of_gt (div_pos hf ha)), add_div, div_self h2]
  ring

theorem value (f a : ℝ) (hf : 0 < f) (ha : 0 < a) :
    ((getPitchForFrequency f a).1 : ℝ) + (getPitchForFrequency f a).2 / 100 = pitchOf f a := by
  unfold getPitchForFrequency
  simp only [p_eq f a hf ha]
  split
  · push_cast; ring
  · ring

/-- C51. Converting a positive frequency to pitch and cents and back gives the frequency. -/
theorem C51_round_trip (f a : ℝ) (hf : 0 < f) (ha : 0 < a) :
    getFrequencyForPitch (getPitchForFrequency f a).1 (getPitchForFrequency f a).2 a = f := by
  unfold getFrequencyForPitch
  simp only [value f a hf ha]
  unfold pitchOf
  rw [show (69 + 12 * Real.logb 2 (f / a) - 69) / 12 = Real.logb 2 (f / a) by ring,
    Real.rpow_logb (by norm_num) (by norm_num) (div_pos hf ha), mul_div_cancel₀ _ (ne_of_gt ha)]

/-- C51. The pitch is that of the frequency, and from MIDI pitch 0 on the cents offset is in [-50, 50). -/
theorem C51_cents_partial (f a : ℝ) (hf : 0 < f) (ha : 0 < a) (h0 : -1 / 100000 ≤ pitchOf f a) :
    -50 ≤ (getPitchForFrequency f a).2 ∧ (getPitchForFrequency f a).2 < 50 := by
  unfold getPitchForFrequency
  simp only [p_eq f a hf ha]
  have ht : trunc (pitchOf f a + 1 / 100000) = ⌊pitchOf f a + 1 / 100000⌋ := by
    unfold trunc; rw [if_pos (by linarith)]
  rw [ht]
  have h1 := Int.floor_le (pitchOf f a + 1 / 100000)
  have h2 := Int.lt_floor_add_one (pitchOf f a + 1 / 100000)
  split
  · next h => constructor <;> dsimp only <;> linarith
  · next h => exact ⟨by dsimp only; linarith, not_le.mp h⟩

/-- C51. A pitch with cents in the allowed range (and not within a thousandth of a cent below the upper end) is recovered. -/
theorem C51_recovers_partial (n : Nat) (c a : ℝ) (ha : 0 < a) (h1 : -50 ≤ c) (h2 : c < 50) (h0 : 0 ≤ (n : ℝ) + c / 100) (hn : c < -1 / 1000 → 1 ≤ n) :
    getPitchForFrequency (getFrequencyForPitch n c a) a = ((n : Int), c) := by
  have hf : 0 < getFrequencyForPitch n c a := by unfold getFrequencyForPitch; positivity
  have hp : pitchOf (getFrequencyForPitch n c a) a = n + c / 100 := by
    unfold pitchOf getFrequencyForPitch
    dsimp only
    rw [mul_div_cancel_left₀ _ (ne_of_gt ha), Real.logb_rpow (by norm_num) (by norm_num)]
    push_cast; ring
  unfold getPitchForFrequency
  simp only [p_eq _ a hf ha, hp]
  have ht : trunc ((n : ℝ) + c / 100 + 1 / 100000) = ⌊(n : ℝ) + c / 100 + 1 / 100000⌋ := by
    unfold trunc; rw [if_pos (by linarith)]
  push_cast at ht ⊢
  rw [ht]
  by_cases hc : c < -1 / 1000
  · have hfl : ⌊(n : ℝ) + c / 100 + 1 / 100000⌋ = (n : Int) - 1 := by
      rw [Int.floor_eq_iff]; push_cast; constructor <;> linarith
    rw [hfl, if_pos (by push_cast; linarith)]
    ext
    · simp
    · push_cast; ring
  · have hfl : ⌊(n : ℝ) + c / 100 + 1 / 100000⌋ = (n : Int) := by
      rw [Int.floor_eq_iff]; push_cast; constructor <;> linarith
    rw [hfl, if_neg (by push_cast; linarith)]
    ext
    · simp
    · push_cast; ring

example : getPitchForFrequency (getFrequencyForPitch 69 25 440) 440 = (69, 25) := by
  have := C51_recovers_partial 69 25 440 (by norm_num) (by norm_num) (by norm_num) (by norm_num) (by norm_num)
  exact_mod_cast this

/-- Below MIDI pitch 0 the truncation is towards zero and the offset leaves the range: 70 cents below pitch 0 is reported as pitch 0
with an offset of -70. -/
theorem C51_low_violation (a : ℝ) (ha : 0 < a) :
    getPitchForFrequency (getFrequencyForPitch 0 (-70) a) a = (0, -70) := by
  have hf : 0 < getFrequencyForPitch 0 (-70) a := by unfold getFrequencyForPitch; positivity
  have hp : pitchOf (getFrequencyForPitch 0 (-70) a) a = -7 / 10 := by
    unfold pitchOf getFrequencyForPitch
    dsimp only
    rw [mul_div_cancel_left₀ _ (ne_of_gt ha), Real.logb_rpow (by norm_num) (by norm_num)]
    norm_num
  unfold getPitchForFrequency
  simp only [p_eq _ a hf ha, hp]
  unfold trunc
  rw [if_neg (by norm_num)]
  have hc : ⌈(-7 / 10 : ℝ) + 1 / 100000⌉ = 0 := by rw [Int.ceil_eq_iff]; constructor <;> norm_num
  rw [hc]
  norm_num

end QM.Pitch
