import Verif.Pitch.RoundedLemmas

/-!
# C94: pitches and frequencies in floating point
-/

namespace QM.Pitch.Rounded

open QM QM.Double

variable {g fl logF : ℝ → ℝ} {powF : ℝ → ℝ → ℝ}

/-- Correctly rounded functions are such a library. -/
theorem libm_rn : Libm (fun x => rn (Real.log x)) (fun x y => rnF (x ^ y)) := by
  constructor
  · intro x h1 h2
    have hx : 0 < x := lt_of_lt_of_le (by norm_num) h1
    have hb : |Real.log x| ≤ 2 ^ 1023 := by
      have u := Real.log_le_sub_one_of_pos hx
      have l := Real.one_sub_inv_le_log_of_pos hx
      have hi : x⁻¹ ≤ 2 ^ 20 := by
        rw [inv_le_comm₀ hx (by norm_num)]
        simpa using h1
      have hp : (2 : ℝ) ^ 20 ≤ 2 ^ 1023 := pow_le_pow_right₀ (by norm_num) (by norm_num)
      refine le_trans (abs_le.2 ⟨?_, ?_⟩) hp
      · linarith
      · linarith
    have := rounds_rn (Real.log x) hb
    refine this.trans (add_le_add ?_ le_rfl)
    rw [div_eq_mul_one_div]
    exact mul_le_mul_of_nonneg_left (by norm_num) (abs_nonneg _)
  · intro y hy
    obtain ⟨y1, y2⟩ := abs_le.1 hy
    have hlow : 1 / 2 ^ 20 ≤ (2 : ℝ) ^ y := by
      calc (1 : ℝ) / 2 ^ 20 = (2 : ℝ) ^ (-20 : ℝ) := by
            rw [Real.rpow_neg (by norm_num), show (20 : ℝ) = ((20 : ℕ) : ℝ) by norm_num, Real.rpow_natCast]
            norm_num
        _ ≤ _ := Real.rpow_le_rpow_of_exponent_le (by norm_num) y1
    have hhigh : (2 : ℝ) ^ y ≤ 2 ^ 20 := by
      calc _ ≤ (2 : ℝ) ^ (20 : ℝ) := Real.rpow_le_rpow_of_exponent_le (by norm_num) y2
        _ = 2 ^ 20 := by rw [show (20 : ℝ) = ((20 : ℕ) : ℝ) by norm_num, Real.rpow_natCast]
    have hpos : 0 < (2 : ℝ) ^ y := lt_of_lt_of_le (by norm_num) hlow
    have := roundsF_rnF ((2 : ℝ) ^ y) (by rw [abs_of_pos hpos]; exact hhigh.trans (by norm_num))
    rw [abs_of_pos hpos] at this
    refine this.trans ?_
    have : (1 : ℝ) / 2 ^ 150 ≤ 2 ^ y * (1 / 2 ^ 24) := by
      refine le_trans ?_ (mul_le_mul_of_nonneg_right hlow (by norm_num))
      norm_num
    norm_num at *
    linarith

/-- **C94** The frequency of a MIDI pitch with up to half a semitone of detuning, computed in single precision, is within two parts in a million of the exact
frequency `concertA * 2 ^ ((pitch - 69) / 12)`. -/
theorem C94_frequency (hg : RoundsF g) (hfl : Rounds fl) (hlib : Libm logF powF) (n : ℤ) (h0 : 0 ≤ n) (h1 : n ≤ 127) (c A : ℝ) (hc : |c| ≤ 50) (hA0 : 1 ≤ A) (hA1 : A ≤ 2 ^ 20) :
    |getFrequencyForPitch g fl powF n c A - Pitch.getFrequencyForPitch n c A| ≤ Pitch.getFrequencyForPitch n c A * (2 / 1000000) := by
  obtain ⟨e, δ, he, hδ, hf⟩ := frequency_near hg hfl hlib n h0 h1 c A hc hA0 hA1
  rw [hf]
  unfold Pitch.getFrequencyForPitch
  set x := ((n : ℝ) + c / 100 - 69) / 12 with hx
  show |A * 2 ^ e * (1 + δ) - A * 2 ^ x| ≤ A * 2 ^ x * (2 / 1000000)
  have hz : 0 < (2 : ℝ) ^ x := Real.rpow_pos_of_pos (by norm_num) _
  have hsplit : (2 : ℝ) ^ e = 2 ^ x * 2 ^ (e - x) := by
    rw [← Real.rpow_add (by norm_num)]
    congr 1
    ring
  have hl : (2 : ℝ) ^ (e - x) = Real.exp (Real.log 2 * (e - x)) := by
    rw [Real.rpow_def_of_pos (by norm_num)]
  have hsmall : |Real.log 2 * (e - x)| ≤ 13 / 2 ^ 24 := by
    rw [abs_mul, abs_of_pos (Real.log_pos (by norm_num))]
    have := Real.log_two_lt_d9
    calc _ ≤ 0.6931471808 * (18 / 2 ^ 24) := mul_le_mul this.le he (abs_nonneg _) (by norm_num)
      _ ≤ _ := by norm_num
  have hexp : |Real.exp (Real.log 2 * (e - x)) - 1| ≤ 14 / 2 ^ 24 := by
    generalize Real.log 2 * (e - x) = y at hsmall
    have := Real.abs_exp_sub_one_sub_id_le (x := y) (hsmall.trans (by norm_num))
    have h2 : y ^ 2 ≤ (13 / 2 ^ 24) ^ 2 := by
      rw [← sq_abs]
      exact pow_le_pow_left₀ (abs_nonneg _) hsmall 2
    have h3 := abs_add_le (Real.exp y - 1 - y) y
    rw [show Real.exp y - 1 - y + y = Real.exp y - 1 by ring] at h3
    norm_num at *
    linarith
  rw [hsplit, hl]
  generalize Real.exp (Real.log 2 * (e - x)) = y at hexp
  have e1 : A * (2 ^ x * y) * (1 + δ) - A * 2 ^ x = A * 2 ^ x * ((y - 1) * (1 + δ) + δ) := by ring
  rw [e1, abs_mul, abs_of_pos (by positivity)]
  refine mul_le_mul_of_nonneg_left ?_ (by positivity)
  have h2 : |(y - 1) * (1 + δ)| ≤ 14 / 2 ^ 24 * 2 := by
    rw [abs_mul]
    refine mul_le_mul hexp ?_ (abs_nonneg _) (by norm_num)
    obtain ⟨d1, d2⟩ := abs_le.1 hδ
    norm_num at d1 d2
    rw [abs_le]
    constructor <;> linarith
  refine (abs_add_le _ _).trans ((add_le_add h2 hδ).trans ?_)
  norm_num

theorem trunc_cases (u : ℝ) (n : ℤ) (h0 : 0 ≤ n) (h1 : (n : ℝ) - 1 / 2 < u) (h2 : u < n + 1 / 2) : trunc u = n ∨ (trunc u = n - 1) := by
  unfold trunc
  split
  · next hc =>
    rcases lt_or_ge u n with h | h
    · right
      rw [Int.floor_eq_iff]
      push_cast
      constructor <;> linarith
    · left
      rw [Int.floor_eq_iff]
      constructor <;> linarith
  · next hc =>
    left
    have : n = 0 := by
      by_contra hn
      have : (1 : ℝ) ≤ n := by exact_mod_cast (by omega : 1 ≤ n)
      linarith
    subst this
    rw [Int.ceil_eq_iff]
    push_cast at *
    constructor <;> linarith

/-- **C94** Every MIDI pitch survives the way to a frequency and back in single precision, and so does its detuning: the pitch is exactly the same and the
cents are within a hundredth. -/
theorem C94_round_trip (hg : RoundsF g) (hfl : Rounds fl) (hlib : Libm logF powF) (n : ℤ) (h0 : 0 ≤ n) (h1 : n ≤ 127) (c A : ℝ) (hc : |c| ≤ 49.9) (hA0 : 1 ≤ A) (hA1 : A ≤ 2 ^ 20) :
    (getPitchForFrequency g fl logF (getFrequencyForPitch g fl powF n c A) A).1 = n ∧
      |(getPitchForFrequency g fl logF (getFrequencyForPitch g fl powF n c A) A).2 - c| ≤ 1 / 100 := by
  have n0 : (0 : ℝ) ≤ n := by exact_mod_cast h0
  have n1 : (n : ℝ) ≤ 127 := by exact_mod_cast h1
  obtain ⟨e, δ, he, hδ, hf⟩ := frequency_near hg hfl hlib n h0 h1 c A (hc.trans (by norm_num)) hA0 hA1
  obtain ⟨c1, c2⟩ := abs_le.1 hc
  norm_num at c1 c2
  obtain ⟨e1, e2⟩ := abs_le.1 he
  norm_num at e1 e2
  have hp := pitch_near hg hfl hlib A e δ hA0 hA1 (abs_le.2 ⟨by linarith, by linarith⟩) hδ
  rw [hf]
  unfold getPitchForFrequency
  dsimp only
  generalize g (fl (fl (12 * fl (logF (fl (A * (2 : ℝ) ^ e * (1 + δ) / fl (A / 2))) / logF 2)) + 57)) = p at *
  obtain ⟨p1, p2⟩ := abs_le.1 hp
  norm_num at p1 p2
  have hP1 : (n : ℝ) + c / 100 - 4 / 100000 ≤ p := by linarith
  have hP2 : p ≤ (n : ℝ) + c / 100 + 4 / 100000 := by linarith
  have k1 := flD hfl (1 / 100000) 1 (by norm_num [abs_of_pos]) (by norm_num)
  generalize fl (1 / 100000) = k at *
  obtain ⟨k2, k3⟩ := abs_le.1 k1
  norm_num at k2 k3
  have u1 := flD hfl (p + k) 129 (abs_le.2 ⟨by linarith, by linarith⟩) (by norm_num)
  generalize fl (p + k) = u at *
  obtain ⟨u2, u3⟩ := abs_le.1 u1
  norm_num at u2 u3
  have key : ∀ t : ℤ, -1 ≤ p - t → p - t ≤ 2 → |g (fl (g (p - t) * 100)) - (p - t) * 100| ≤ 1 / 1000 := by
    intro t t1 t2
    generalize p - (t : ℝ) = d at *
    have a1 := flF hg d 2 (abs_le.2 ⟨by linarith, by linarith⟩) (by norm_num)
    generalize g d = d' at *
    obtain ⟨a2, a3⟩ := abs_le.1 a1
    norm_num at a2 a3
    have b1 := flD hfl (d' * 100) 300 (abs_le.2 ⟨by linarith, by linarith⟩) (by norm_num)
    generalize fl (d' * 100) = d'' at *
    obtain ⟨b2, b3⟩ := abs_le.1 b1
    norm_num at b2 b3
    have c1 := flF hg d'' 301 (abs_le.2 ⟨by linarith, by linarith⟩) (by norm_num)
    obtain ⟨c2, c3⟩ := abs_le.1 c1
    norm_num at c2 c3
    rw [abs_le]
    norm_num
    constructor <;> linarith
  rcases trunc_cases u n h0 (by linarith) (by linarith) with ht | ht
  · rw [ht]
    have h3 := key n (by linarith) (by linarith)
    obtain ⟨x1, x2⟩ := abs_le.1 h3
    generalize g (fl (g (p - (n : ℝ)) * 100)) = w at *
    rw [if_neg (by rw [ge_iff_le, not_le]; linarith)]
    refine ⟨rfl, ?_⟩
    rw [abs_le]
    constructor <;> dsimp only <;> linarith
  · rw [ht]
    have hlow : (n : ℝ) - 1 / 2 < u := by linarith
    have h3 := key (n - 1) (by push_cast; linarith) (by push_cast; linarith)
    obtain ⟨x1, x2⟩ := abs_le.1 h3
    generalize g (fl (g (p - ((n - 1 : ℤ) : ℝ)) * 100)) = w at *
    push_cast at x1 x2
    rw [if_pos (by rw [ge_iff_le]; linarith)]
    refine ⟨by omega, ?_⟩
    dsimp only
    have y1 := flD hfl (100 - w) 200 (abs_le.2 ⟨by linarith, by linarith⟩) (by norm_num)
    generalize fl (100 - w) = v at *
    obtain ⟨y2, y3⟩ := abs_le.1 y1
    norm_num at y2 y3
    have z1 := flF hg (-v) 201 (abs_le.2 ⟨by linarith, by linarith⟩) (by norm_num)
    obtain ⟨z2, z3⟩ := abs_le.1 z1
    norm_num at z2 z3
    rw [abs_le]
    constructor <;> linarith

/-- The hypotheses are met: correct rounding, concert pitch, 440 Hz, a quarter of a semitone sharp. -/
example : (getPitchForFrequency rnF rn (fun x => rn (Real.log x)) (getFrequencyForPitch rnF rn (fun x y => rnF (x ^ y)) 60 25 440) 440).1 = 60 :=
  (C94_round_trip roundsF_rnF rounds_rn libm_rn 60 (by norm_num) (by norm_num) 25 440 (by norm_num [abs_of_pos]) (by norm_num) (by norm_num)).1

end QM.Pitch.Rounded
