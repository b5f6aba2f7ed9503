import Verif.ConstantQ.RoundedLemmas
import Verif.ConstantQ.KernelProps

/-!
# C95: sizes of the constant-Q transform and of the chromagram in floating point
-/

namespace QM.ConstantQ.Rounded

open QM QM.Double
open QM.Pitch.Rounded (flD)

variable {fl logF : ℝ → ℝ} {powF : ℝ → ℝ → ℝ}

theorem isDbl_one : IsDbl 1 := by simpa using isDbl_nat 1 (by norm_num)

theorem isDbl_zero : IsDbl 0 := by simpa using isDbl_nat 0 (by norm_num)

theorem isDbl_two_pow (c : Nat) : IsDbl (2 ^ c) := by
  have := isDbl_of_le 1 c (by norm_num) (by omega)
  simpa using this

/-- Correctly rounded functions are such a library. -/
theorem libm_rn : Libm (fun x => rn (Real.log x)) (fun x y => rn (x ^ y)) := by
  have hpow : ∀ y : ℝ, 0 ≤ y → 1 ≤ (2 : ℝ) ^ y := fun y hy => Real.one_le_rpow (by norm_num) hy
  refine ⟨?_, ?_, ?_, ?_⟩
  · intro x h1 h2
    have hb : |Real.log x| ≤ 2 ^ 1023 := by
      have u := Real.log_le_sub_one_of_pos (by linarith : 0 < x)
      have hp : (2 : ℝ) ^ 64 ≤ 2 ^ 1023 := pow_le_pow_right₀ (by norm_num) (by norm_num)
      rw [abs_of_nonneg (Real.log_nonneg h1)]
      exact (u.trans (by linarith : x - 1 ≤ 2 ^ 64)).trans hp
    refine (rounds_rn (Real.log x) hb).trans (add_le_add ?_ le_rfl)
    rw [div_eq_mul_one_div]
    exact mul_le_mul_of_nonneg_left (by norm_num) (abs_nonneg _)
  · intro y h0 h1
    have hp := hpow y h0
    have hhigh : (2 : ℝ) ^ y ≤ 2 ^ 64 := by
      calc _ ≤ (2 : ℝ) ^ (64 : ℝ) := Real.rpow_le_rpow_of_exponent_le (by norm_num) h1
        _ = 2 ^ 64 := by rw [show (64 : ℝ) = ((64 : ℕ) : ℝ) by norm_num, Real.rpow_natCast]
    have h := rounds_rn ((2 : ℝ) ^ y) (by
      rw [abs_of_pos (by linarith)]
      exact hhigh.trans (pow_le_pow_right₀ (by norm_num) (by norm_num)))
    rw [abs_of_pos (by linarith : 0 < (2 : ℝ) ^ y)] at h
    have hs : (1 : ℝ) / 2 ^ 1075 ≤ 1 / 2 ^ 53 := one_div_le_one_div_of_le (by positivity) (pow_le_pow_right₀ (by norm_num) (by norm_num))
    generalize (1 : ℝ) / 2 ^ 1075 = t at *
    refine h.trans ?_
    norm_num at *
    linarith
  · intro y h0
    exact nearest_rn.ge isDbl_one (hpow y h0)
  · intro n h0 h1
    obtain ⟨k, rfl⟩ := Int.eq_ofNat_of_zero_le h0
    simp only [Int.cast_natCast, Real.rpow_natCast, zpow_natCast]
    exact nearest_rn.exact (isDbl_two_pow k)

/-- **C95** The quality factor computed from the number of bins per octave is accurate. -/
theorem C95_quality (hfl : Nearest fl) (hlib : Libm logF powF) (bpo : Nat) (h0 : 0 < bpo) (h1 : bpo ≤ 2 ^ 20) :
    |q fl powF bpo - quality bpo| ≤ quality bpo * (25 * bpo / 2 ^ 53) := by
  have hb : (1 : ℝ) ≤ bpo := by exact_mod_cast h0
  have hb' : (bpo : ℝ) ≤ 2 ^ 20 := by exact_mod_cast h1
  have hs : (1 : ℝ) / 2 ^ 1075 ≤ 1 / 2 ^ 73 := one_div_le_one_div_of_le (by positivity) (pow_le_pow_right₀ (by norm_num) (by norm_num))
  have hbig : (2 : ℝ) ^ 40 ≤ 2 ^ 1023 := pow_le_pow_right₀ (by norm_num) (by norm_num)
  unfold q quality
  set b : ℝ := (bpo : ℝ)
  have i1 : 1 / b ≤ 1 := by rw [div_le_one (by linarith)]; exact hb
  have i0 : 1 / 2 ^ 20 ≤ 1 / b := one_div_le_one_div_of_le (by linarith) hb'
  have ip : 0 < 1 / b := by positivity
  have x1 := hfl.rounds (1 / b) (by rw [abs_of_pos ip]; exact le_trans i1 (le_trans (by norm_num) hbig))
  rw [abs_of_pos ip] at x1
  have x0 := hfl.ge isDbl_zero ip.le
  have xle := hfl.le isDbl_one i1
  set x := fl (1 / b)
  have hd : |x - 1 / b| ≤ 2 / 2 ^ 53 := by
    refine x1.trans ?_
    generalize (1 : ℝ) / 2 ^ 1075 = t at *
    norm_num at *
    linarith
  obtain ⟨l1, l2⟩ := log2_bounds
  -- the power
  have hp1 : 1 ≤ (2 : ℝ) ^ (1 / b) := Real.one_le_rpow (by norm_num) ip.le
  have hp2 : (2 : ℝ) ^ (1 / b) ≤ 2 := by
    calc _ ≤ (2 : ℝ) ^ (1 : ℝ) := Real.rpow_le_rpow_of_exponent_le (by norm_num) i1
      _ = 2 := by norm_num
  have hlow : 69 / 100 * (1 / b) ≤ (2 : ℝ) ^ (1 / b) - 1 := by
    have e := Real.add_one_le_exp (Real.log 2 * (1 / b))
    rw [← Real.rpow_def_of_pos (by norm_num)] at e
    have := mul_le_mul_of_nonneg_right l1.le ip.le
    linarith
  have hpx : |(2 : ℝ) ^ x - (2 : ℝ) ^ (1 / b)| ≤ 6 / 2 ^ 53 := by
    have e : (2 : ℝ) ^ x - (2 : ℝ) ^ (1 / b) = (2 : ℝ) ^ (1 / b) * (Real.exp (Real.log 2 * (x - 1 / b)) - 1) := by
      rw [← Real.rpow_def_of_pos (by norm_num), mul_sub, mul_one, ← Real.rpow_add (by norm_num)]
      congr 2
      ring
    have hsm : |Real.log 2 * (x - 1 / b)| ≤ 7 / 10 * (2 / 2 ^ 53) := by
      rw [abs_mul, abs_of_pos (by linarith : 0 < Real.log 2)]
      exact mul_le_mul l2.le hd (abs_nonneg _) (by norm_num)
    have he := Real.abs_exp_sub_one_le (x := Real.log 2 * (x - 1 / b)) (hsm.trans (by norm_num))
    rw [e, abs_mul, abs_of_pos (by linarith : 0 < (2 : ℝ) ^ (1 / b))]
    calc _ ≤ 2 * (2 * (7 / 10 * (2 / 2 ^ 53))) := mul_le_mul hp2 (he.trans (by linarith)) (abs_nonneg _) (by norm_num)
      _ ≤ _ := by norm_num
  have hP := hlib.pow x x0 (xle.trans (by norm_num))
  generalize powF 2 x = P at *
  generalize (2 : ℝ) ^ x = px at *
  generalize (2 : ℝ) ^ (1 / b) = p at *
  have hPp : |P - p| ≤ 11 / 2 ^ 53 := by
    obtain ⟨a1, a2⟩ := abs_le.1 hpx
    have hpx2 : px * (2 / 2 ^ 53) ≤ 5 / 2 ^ 53 := by
      norm_num at *
      linarith
    have t := abs_add_le (P - px) (px - p)
    rw [sub_add_sub_cancel] at t
    refine t.trans ((add_le_add (hP.trans hpx2) hpx).trans ?_)
    norm_num
  have hA1 := flD hfl.rounds (P - 1) 2 (by
    obtain ⟨a1, a2⟩ := abs_le.1 hPp
    norm_num at a1 a2
    exact abs_le.2 ⟨by linarith, by linarith⟩) (by norm_num)
  set A := fl (P - 1)
  set a := p - 1 with ha
  have hAa : |A - a| ≤ 14 / 2 ^ 53 := by
    have t := abs_add_le (A - (P - 1)) (P - p)
    rw [show A - (P - 1) + (P - p) = A - a by rw [ha]; ring] at t
    refine t.trans ((add_le_add hA1 hPp).trans ?_)
    norm_num
  have hap : 0 < a := lt_of_lt_of_le (by positivity) hlow
  have ha1 : a ≤ 1 := by rw [ha]; linarith
  have hab : 69 / 100 ≤ a * b := by
    have := mul_le_mul_of_nonneg_right hlow (by linarith : 0 ≤ b)
    rwa [mul_assoc, div_mul_cancel₀ _ (by linarith : b ≠ 0), mul_one] at this
  have hAr : |A - a| ≤ a * (21 * b / 2 ^ 53) := by
    refine hAa.trans ?_
    norm_num
    nlinarith
  have hsmall : 21 * b / 2 ^ 53 ≤ 1 / 2 ^ 20 := by
    norm_num at *
    linarith
  have hAlow : a * (1 - 1 / 2 ^ 20) ≤ A := by
    have := (abs_le.1 hAr).1
    have t := mul_le_mul_of_nonneg_left hsmall hap.le
    linarith
  have hAp : 0 < A := lt_of_lt_of_le (by positivity) hAlow
  have hinv : |1 / A - 1 / a| ≤ 1 / a * (22 * b / 2 ^ 53) := by
    have e : 1 / A - 1 / a = (1 / a) * ((a - A) / A) := by field_simp
    rw [e, abs_mul, abs_of_pos (by positivity : 0 < 1 / a)]
    refine mul_le_mul_of_nonneg_left ?_ (by positivity)
    rw [abs_div, abs_of_pos hAp, div_le_iff₀ hAp, abs_sub_comm]
    refine hAr.trans ?_
    have t := mul_le_mul_of_nonneg_left hAlow (by positivity : 0 ≤ 22 * b / 2 ^ 53)
    refine le_trans ?_ t
    have : 0 ≤ a * b := by positivity
    norm_num
    nlinarith
  have hQ1 : 1 ≤ 1 / a := by rw [le_div_iff₀ hap]; linarith
  have hrel : 22 * b / 2 ^ 53 ≤ 1 / 2 := by
    norm_num at *
    linarith
  have hQ2 : 1 / a ≤ 2 ^ 21 := by
    rw [div_le_iff₀ hap]
    norm_num at *
    nlinarith
  have hI := mul_le_mul_of_nonneg_left hrel (by linarith : 0 ≤ 1 / a)
  obtain ⟨v1, v2⟩ := abs_le.1 hinv
  have hIb : |1 / A| ≤ 1 / a * (3 / 2) := abs_le.2 ⟨by linarith, by linarith⟩
  have hF := hfl.rounds (1 / A) (hIb.trans (le_trans (by linarith) hbig))
  have t := abs_add_le (fl (1 / A) - 1 / A) (1 / A - 1 / a)
  rw [sub_add_sub_cancel] at t
  refine t.trans ((add_le_add hF hinv).trans ?_)
  have hF2 : |1 / A| / 2 ^ 53 + 1 / 2 ^ 1075 ≤ 1 / a * (3 * b / 2 ^ 53) := by
    have h3 := div_le_div_of_nonneg_right hIb (by norm_num : (0 : ℝ) ≤ 2 ^ 53)
    have h4 : (1 : ℝ) / 2 ^ 1075 ≤ 1 / a * (1 / 2 ^ 53) := by
      refine hs.trans (le_trans (by norm_num : (1 : ℝ) / 2 ^ 73 ≤ 1 * (1 / 2 ^ 53)) (mul_le_mul_of_nonneg_right hQ1 (by norm_num)))
    have h5 : 1 / a * (3 * 1 / 2 ^ 53) ≤ 1 / a * (3 * b / 2 ^ 53) :=
      mul_le_mul_of_nonneg_left (div_le_div_of_nonneg_right (by linarith) (by norm_num)) (by linarith)
    refine (add_le_add h3 h4).trans (le_trans ?_ h5)
    generalize 1 / a = z at *
    norm_num
    linarith
  refine (add_le_add hF2 le_rfl).trans (le_of_eq ?_)
  ring

/-- **C95** The windows of all bins fit the block that is transformed: they start at its beginning or later and do not reach beyond its end. -/
theorem C95_windows_fit (hfl : Nearest fl) (hlib : Libm logF powF) (fs fmin : ℝ) (bpo : Nat) (N : Int) (h1 : 0 ≤ fs) (h2 : 0 < fmin) (h3 : IsDbl fmin)
    (h : fftLength fl powF fs fmin bpo = some N) (j : Nat) :
    0 ≤ windowLength fl powF fs fmin bpo j ∧ 0 ≤ origin N (windowLength fl powF fs fmin bpo j) ∧
      origin N (windowLength fl powF fs fmin bpo j) + windowLength fl powF fs fmin bpo j ≤ N := by
  have p0 : ∀ x : ℝ, 0 ≤ x → 0 ≤ fl x := fun x hx => hfl.ge isDbl_zero hx
  have hq : 0 ≤ q fl powF bpo := by
    unfold q
    have := hlib.pow_ge (fl (1 / (bpo : ℝ))) (p0 _ (by positivity))
    exact p0 _ (div_nonneg zero_le_one (p0 _ (by linarith)))
  have hX : 0 ≤ fl (q fl powF bpo * fs) := p0 _ (mul_nonneg hq h1)
  unfold fftLength at h
  unfold windowLength
  generalize fl (q fl powF bpo * fs) = X at *
  have hpow := hlib.pow_ge (fl ((j : ℝ) / bpo)) (p0 _ (by positivity))
  have hf : fmin ≤ fl (fmin * powF 2 (fl ((j : ℝ) / bpo))) := hfl.ge h3 (le_mul_of_one_le_right h2.le hpow)
  generalize fl (fmin * powF 2 (fl ((j : ℝ) / bpo))) = f at *
  have hle : ⌈fl (X / f)⌉ ≤ ⌈fl (X / fmin)⌉ := Int.ceil_mono (hfl.mono (div_le_div_of_nonneg_left hX h2 hf))
  have h0 : 0 ≤ ⌈fl (X / f)⌉ := Int.ceil_nonneg (p0 _ (div_nonneg hX (by linarith)))
  obtain ⟨⟨_, hN⟩, _⟩ := MathInt.C01_nextPowerOfTwo_least _ _ h
  have hwN := hle.trans hN
  generalize ⌈fl (X / f)⌉ = w at *
  unfold origin
  rw [Int.tdiv_eq_ediv_of_nonneg (by omega), Int.tdiv_eq_ediv_of_nonneg h0]
  obtain ⟨⟨⟨k, hk⟩, _⟩, _⟩ := MathInt.C01_nextPowerOfTwo_least _ _ h
  have hpar : N = 1 ∨ N % 2 = 0 := by
    rcases k with _ | k
    · left; rw [hk]; norm_num
    · right; rw [hk, pow_succ]; omega
  omega

/-- **C95** A chromagram adds up exactly as many octaves as its range was extended to, whatever the rounding: the transform below it has that many times the bins
per octave, or one bin more. The extended range ends at the requested end or less than an octave above it, up to rounding. -/
theorem C95_octaves (hfl : Nearest fl) (hlib : Libm logF powF) (fmin fmax : ℝ) (bpo : Nat) (h1 : 0 < fmin) (h2 : IsDbl fmin) (h3 : fmin ≤ fmax) (h4 : fmax ≤ 2 ^ 60 * fmin)
    (h5 : 2 ≤ bpo) (h6 : bpo ≤ 2 ^ 20) :
    ∃ c : Nat, extended fl logF powF fmin fmax = fmin * 2 ^ c ∧ chromaOctaves fl logF powF fmin fmax bpo = c ∧
      (chromaBins fl logF powF fmin fmax bpo = bpo * c ∨ chromaBins fl logF powF fmin fmax bpo = bpo * c + 1) ∧
      fmax * (1 - 1 / 2 ^ 40) ≤ fmin * 2 ^ c ∧ fmin * 2 ^ c ≤ 2 * (fmax * (1 + 1 / 2 ^ 40)) := by
  have r1 : 1 ≤ fmax / fmin := (one_le_div h1).2 h3
  have r2 : fmax / fmin ≤ 2 ^ 60 := (div_le_iff₀ h1).2 h4
  have ho := octaves_near hfl hlib _ r1 r2
  obtain ⟨l1, l2⟩ := log2_bounds
  have hv0 : 0 ≤ Real.log (fmax / fmin) / Real.log 2 := div_nonneg (Real.log_nonneg r1) (by linarith)
  have hv1 : Real.log (fmax / fmin) / Real.log 2 ≤ 60 := by
    rw [div_le_iff₀ (by linarith)]
    calc Real.log (fmax / fmin) ≤ Real.log (2 ^ 60) := Real.log_le_log (by linarith) r2
      _ = 60 * Real.log 2 := by rw [Real.log_pow]; norm_num
  obtain ⟨o1, o2⟩ := abs_le.1 ho
  have hval : (2 : ℝ) ^ (Real.log (fmax / fmin) / Real.log 2) = fmax / fmin := by
    rw [Real.rpow_def_of_pos (by norm_num), mul_div_cancel₀ _ (by linarith : Real.log 2 ≠ 0), Real.exp_log (by linarith)]
  set v := Real.log (fmax / fmin) / Real.log 2
  have hcdef : octaves fl logF fmin fmax = ⌈fl (logF (fl (fmax / fmin)) / logF 2)⌉ := rfl
  set w := fl (logF (fl (fmax / fmin)) / logF 2)
  have hsm : (1 : ℝ) / 2 ^ 43 ≤ 1 / 2 := by norm_num
  have c0 : 0 ≤ ⌈w⌉ := by
    have : -1 < ⌈w⌉ := Int.lt_ceil.2 (by push_cast; linarith)
    omega
  have c1 : ⌈w⌉ ≤ 61 := Int.ceil_le.2 (by push_cast; linarith)
  obtain ⟨c, hc⟩ := Int.eq_ofNat_of_zero_le c0
  have hcw : w ≤ c := by
    have := Int.le_ceil w
    rw [hc] at this
    exact_mod_cast this
  have hcw' : (c : ℝ) < w + 1 := by
    have := Int.ceil_lt_add_one w
    rw [hc] at this
    exact_mod_cast this
  have hc64 : c ≤ 61 := by omega
  have hext : extended fl logF powF fmin fmax = fmin * 2 ^ c := by
    unfold extended
    rw [hcdef, hlib.pow_int _ c0 (by omega), hc]
    obtain ⟨m, e, hm, he, hfm⟩ := h2
    have hd : IsDbl (fmin * 2 ^ c) := by
      refine ⟨m, e + c, hm, by omega, ?_⟩
      rw [hfm, zpow_add₀ (by norm_num), zpow_natCast]
      ring
    simpa using hfl.exact hd
  have hbins : chromaBins fl logF powF fmin fmax bpo = ⌈fl (fl (bpo * logF ((2 : ℝ) ^ c)) / logF 2)⌉ := by
    unfold chromaBins bins
    rw [hext, mul_div_cancel_left₀ _ h1.ne', hfl.exact (isDbl_two_pow c)]
  obtain ⟨b1, b2⟩ := abs_le.1 (bins_near hfl.rounds hlib bpo c h6 (by omega))
  have hb : chromaBins fl logF powF fmin fmax bpo = bpo * c ∨ chromaBins fl logF powF fmin fmax bpo = bpo * c + 1 := by
    rw [hbins]
    generalize fl (fl (bpo * logF ((2 : ℝ) ^ c)) / logF 2) = y at *
    have u : ⌈y⌉ ≤ (bpo * c : Nat) + 1 := Int.ceil_le.2 (by push_cast; linarith)
    have l : ((bpo * c : Nat) : Int) - 1 < ⌈y⌉ := Int.lt_ceil.2 (by push_cast; linarith)
    push_cast at u l
    generalize (bpo : Int) * c = z at *
    omega
  refine ⟨c, hext, ?_, hb, ?_, ?_⟩
  · unfold chromaOctaves
    have hbp : (0 : Int) < bpo := by omega
    have hz : (0 : Int) ≤ bpo * c := by positivity
    rcases hb with hb | hb
    · rw [hb, Int.tdiv_eq_ediv_of_nonneg hz, Int.mul_ediv_cancel_left _ (by omega)]
    · rw [hb, Int.tdiv_eq_ediv_of_nonneg (by omega), add_comm, Int.add_mul_ediv_left _ _ (by omega), Int.ediv_eq_zero_of_lt (by omega) (by omega)]
      simp
  · have h : fmax / fmin * (1 - 1 / 2 ^ 40) ≤ 2 ^ c := by
      calc _ = (2 : ℝ) ^ v * (1 - 1 / 2 ^ 40) := by rw [hval]
        _ ≤ (2 : ℝ) ^ v * (2 : ℝ) ^ (-(1 / 2 ^ 43) : ℝ) := by
          refine mul_le_mul_of_nonneg_left ?_ (by positivity)
          rw [Real.rpow_def_of_pos (by norm_num)]
          have := Real.add_one_le_exp (Real.log 2 * (-(1 / 2 ^ 43)))
          norm_num at *
          linarith
        _ = (2 : ℝ) ^ (v + -(1 / 2 ^ 43)) := by rw [Real.rpow_add (by norm_num)]
        _ ≤ (2 : ℝ) ^ (c : ℝ) := Real.rpow_le_rpow_of_exponent_le (by norm_num) (by linarith)
        _ = 2 ^ c := Real.rpow_natCast _ _
    rw [div_mul_eq_mul_div, div_le_iff₀ h1] at h
    linarith
  · have h : (2 : ℝ) ^ c ≤ fmax / fmin * (2 * (1 + 1 / 2 ^ 40)) := by
      calc (2 : ℝ) ^ c = (2 : ℝ) ^ (c : ℝ) := (Real.rpow_natCast _ _).symm
        _ ≤ (2 : ℝ) ^ (v + (1 + 1 / 2 ^ 43)) := Real.rpow_le_rpow_of_exponent_le (by norm_num) (by linarith)
        _ = fmax / fmin * (2 * (2 : ℝ) ^ (1 / 2 ^ 43 : ℝ)) := by rw [Real.rpow_add (by norm_num), Real.rpow_add (by norm_num), hval, Real.rpow_one]
        _ ≤ _ := by
          refine mul_le_mul_of_nonneg_left (mul_le_mul_of_nonneg_left ?_ (by norm_num)) (by linarith)
          rw [Real.rpow_def_of_pos (by norm_num)]
          have hsm : |Real.log 2 * (1 / 2 ^ 43)| ≤ 1 / 2 ^ 43 := by
            rw [abs_of_pos (by positivity)]
            norm_num
            linarith
          have := Real.abs_exp_sub_one_le (x := Real.log 2 * (1 / 2 ^ 43)) (hsm.trans (by norm_num))
          have := (abs_le.1 this).2
          norm_num at *
          linarith
    rw [div_mul_eq_mul_div, le_div_iff₀ h1] at h
    linarith

/-- The hypotheses are met: correct rounding, 27.5 Hz to 4186 Hz, 12 bins per octave. -/
example : ∃ c : Nat, chromaOctaves rn (fun x => rn (Real.log x)) (fun x y => rn (x ^ y)) 27.5 4186 12 = c ∧ c = 8 := by
  have hd : IsDbl 27.5 := ⟨55, -1, by norm_num, by norm_num, by norm_num⟩
  obtain ⟨c, _, h, _, h1, h2⟩ := C95_octaves nearest_rn libm_rn 27.5 4186 12 (by norm_num) hd (by norm_num) (by norm_num) (by norm_num) (by norm_num)
  refine ⟨c, h, ?_⟩
  by_contra hne
  rcases Nat.lt_or_ge c 8 with hc | hc
  · have : (2 : ℝ) ^ c ≤ 2 ^ 7 := pow_le_pow_right₀ (by norm_num) (by omega)
    norm_num at *
    linarith
  · have : (2 : ℝ) ^ 9 ≤ 2 ^ c := pow_le_pow_right₀ (by norm_num) (by omega)
    norm_num at *
    linarith

end QM.ConstantQ.Rounded
