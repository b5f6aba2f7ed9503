import Verif.DecimatorB.Linear
import Verif.Decimator.ResponseProps
import Mathlib.Analysis.SpecialFunctions.Trigonometric.Bounds
import Mathlib.Algebra.Order.BigOperators.GroupWithZero.Finset

/-!
# C85: the frequency response of the decimator by powers of two

In exact arithmetic with the decimal coefficients of the source.
-/

namespace QM.DecimatorB

open QM.IntPoly QM.Stable Finset
open QM.Decimator (ev_sum norm_exp_omega exp_omega_re)

/-- The frequency response of one stage at `ω` radians per sample of its input: the numerator over the denominator at `exp (i ω)`. -/
noncomputable def response (ω : ℝ) : ℂ :=
  (∑ k ∈ range 7, (((bCoeffs.getD k 0 : ℚ) : ℂ)) * Complex.exp (-(k * (ω * Complex.I)))) /
    (∑ k ∈ range 7, (((aCoeffs.getD k 0 : ℚ) : ℂ)) * Complex.exp (-(k * (ω * Complex.I))))

/-- The frequency response of `k` stages: each sees twice the frequency of the one before it. -/
noncomputable def total (k : ℕ) (ω : ℝ) : ℂ := ∏ j ∈ range k, response (2 ^ j * ω)

theorem response_gain (ω : ℝ) : response ω = gain intB intA (Complex.exp (ω * Complex.I)) := by
  have hk : ∀ k : ℕ, Complex.exp (-(k * (ω * Complex.I))) = (Complex.exp (ω * Complex.I))⁻¹ ^ k := by
    intro k
    rw [← Complex.exp_neg, ← Complex.exp_nat_mul]
    congr 1
    ring
  have hp : ∀ p : List ℤ, p.length = 7 → (∑ k ∈ range 7, ((((p.map (fun k : ℤ => (k : ℚ) / 10 ^ 15)).getD k 0 : ℚ) : ℂ)) * Complex.exp (-(k * (ω * Complex.I)))) =
      ev p (Complex.exp (ω * Complex.I))⁻¹ / 10 ^ 15 := by
    intro p hp
    rw [ev_sum, hp, sum_div]
    refine sum_congr rfl (fun k _ => ?_)
    rw [hk, getD_map_div]
    push_cast
    ring
  obtain ⟨h1, h2⟩ := coeffs_int
  unfold response gain
  rw [h1, h2, hp _ rfl, hp _ rfl, div_div_div_cancel_right₀ (by norm_num)]

theorem den_ne_zero (ω : ℝ) : ev intA (Complex.exp (ω * Complex.I))⁻¹ ≠ 0 := by
  obtain ⟨p0, ps, h1, h2, -⟩ := cert_sound _ _ _ _ _ _ cert_two (by norm_num)
  exact ev_ne_zero _ _ _ _ h1 h2 _ (by rw [norm_inv, norm_exp_omega, inv_one])

theorem normSq_inv (ω : ℝ) : Complex.normSq (Complex.exp (ω * Complex.I))⁻¹ = 1 := by
  rw [map_inv₀, Complex.normSq_eq_norm_sq, norm_exp_omega]
  norm_num

theorem inv_re (ω : ℝ) : ((Complex.exp (ω * Complex.I))⁻¹).re = Real.cos ω := by
  rw [Complex.inv_re, exp_omega_re, Complex.normSq_eq_norm_sq, norm_exp_omega]
  norm_num

/-- The squared gain in terms of the cosine. -/
theorem sq_gain (ω : ℝ) : 0 < ev (normPoly intA) (Real.cos ω) ∧
    ‖response ω‖ ^ 2 = ev (normPoly intB) (Real.cos ω) / ev (normPoly intA) (Real.cos ω) := by
  have hA := normPoly_sound intA _ (normSq_inv ω)
  have hB := normPoly_sound intB _ (normSq_inv ω)
  rw [inv_re] at hA hB
  refine ⟨?_, ?_⟩
  · rw [← hA]
    exact Complex.normSq_pos.mpr (den_ne_zero ω)
  · rw [response_gain, gain, norm_div, div_pow, ← Complex.normSq_eq_norm_sq, ← Complex.normSq_eq_norm_sq, hA, hB]

/-- **C85** Every stage is a Butterworth lowpass of order six whose cutoff is a quarter of its sampling rate, which is the Nyquist frequency of its output:
the squared gain is `1 / (1 + tan (ω / 2) ^ 12)` to within `10 ^ -13`. -/
theorem C85_butterworth (ω : ℝ) (h1 : -Real.pi < ω) (h2 : ω < Real.pi) :
    |‖response ω‖ ^ 2 - 1 / (1 + Real.tan (ω / 2) ^ 12)| ≤ 1 / 10 ^ 13 := by
  obtain ⟨hpos, hsq⟩ := sq_gain ω
  have l1 := Real.neg_one_le_cos ω
  have l2 := Real.cos_le_one ω
  have hcos : 0 < Real.cos (ω / 2) := Real.cos_pos_of_mem_Ioo ⟨by linarith, by linarith⟩
  have hc2 : Real.cos ω = 2 * Real.cos (ω / 2) ^ 2 - 1 := by
    rw [← Real.cos_two_mul]
    congr 1
    ring
  have hs2 : Real.sin (ω / 2) ^ 2 = 1 - Real.cos (ω / 2) ^ 2 := by
    have := Real.sin_sq_add_cos_sq (ω / 2)
    linarith
  have hplus : 0 < 1 + Real.cos ω := by
    rw [hc2]
    have := pow_pos hcos 2
    linarith
  have htan : Real.tan (ω / 2) ^ 12 = ((1 - Real.cos ω) / (1 + Real.cos ω)) ^ 6 := by
    rw [Real.tan_eq_sin_div_cos, show (12 : ℕ) = 2 * 6 from rfl, pow_mul, div_pow, hs2, hc2]
    congr 1
    field_simp
    ring
  have up := pos_scaled 1048576 (by norm_num) _ _ _ _ bw_up (Real.cos ω) (by push_cast; linarith) (by push_cast; linarith)
  have lo := pos_scaled 1048576 (by norm_num) _ _ _ _ bw_lo (Real.cos ω) (by push_cast; linarith) (by push_cast; linarith)
  simp only [bwUp, bwLo, ev_add, ev_mul, ev_smul] at up lo
  have hn : ev num6 (Real.cos ω) = (1 + Real.cos ω) ^ 6 := by
    simp only [num6, ev]
    push_cast
    ring
  have hd : ev den6 (Real.cos ω) = (1 + Real.cos ω) ^ 6 + (1 - Real.cos ω) ^ 6 := by
    simp only [den6, ev]
    push_cast
    ring
  rw [hn, hd] at up lo
  have hbw : 1 / (1 + Real.tan (ω / 2) ^ 12) = (1 + Real.cos ω) ^ 6 / ((1 + Real.cos ω) ^ 6 + (1 - Real.cos ω) ^ 6) := by
    rw [htan, div_pow]
    field_simp
  have hN : 0 < (1 + Real.cos ω) ^ 6 := by positivity
  have hD : 0 < (1 + Real.cos ω) ^ 6 + (1 - Real.cos ω) ^ 6 := by
    have : 0 ≤ (1 - Real.cos ω) ^ 6 := by
      have : 0 ≤ 1 - Real.cos ω := by linarith
      positivity
    linarith
  rw [hbw, hsq]
  generalize ev (normPoly intA) (Real.cos ω) = a at *
  generalize ev (normPoly intB) (Real.cos ω) = b at *
  generalize (1 + Real.cos ω) ^ 6 = p at *
  generalize (1 - Real.cos ω) ^ 6 = r at *
  rw [div_sub_div _ _ hpos.ne' hD.ne', abs_le, ← neg_div, div_le_div_iff₀ (by positivity) (by positivity), div_le_div_iff₀ (by positivity) (by positivity)]
  push_cast at up lo
  constructor <;> nlinarith

/-- **C85** No frequency is amplified: the gain of a stage is at most 1.00001 everywhere. -/
theorem C85_no_gain (ω : ℝ) : ‖response ω‖ ≤ 1.00001 := by
  rw [response_gain]
  refine (gain_le _ _ _ (norm_exp_omega ω) (den_ne_zero ω) 100000 100001 (by norm_num) (by norm_num) ?_).trans (by norm_num)
  rw [exp_omega_re]
  have h1 := Real.neg_one_le_cos ω
  have h2 := Real.cos_le_one ω
  exact pos_scaled 1048576 (by norm_num) _ _ _ _ upper _ (by push_cast; linarith) (by push_cast; linarith)

theorem cos_quarter : 741455 / 1048576 ≤ Real.cos (Real.pi / 4) := by
  rw [Real.cos_pi_div_four]
  have : 741455 / 1048576 * 2 ≤ Real.sqrt 2 := Real.le_sqrt_of_sq_le (by norm_num)
  linarith

/-- **C85** A stage attenuates what it folds: 3 dB from the new Nyquist frequency up, 28 dB from 4/3 and 45 dB from 3/2 of it. -/
theorem C85_stopband (ω : ℝ) (h2 : ω ≤ Real.pi) : (Real.pi / 2 ≤ ω → ‖response ω‖ ≤ 0.70711) ∧ (2 * Real.pi / 3 ≤ ω → ‖response ω‖ ≤ 0.0371) ∧
    (3 * Real.pi / 4 ≤ ω → ‖response ω‖ ≤ 0.0051) := by
  rw [response_gain]
  have hpi := Real.pi_pos
  have h3 := Real.neg_one_le_cos ω
  refine ⟨fun h => ?_, fun h => ?_, fun h => ?_⟩
  · refine (gain_le _ _ _ (norm_exp_omega ω) (den_ne_zero ω) 100000 70711 (by norm_num) (by norm_num) ?_).trans (by norm_num)
    rw [exp_omega_re]
    have h4 : Real.cos ω ≤ Real.cos (Real.pi / 2) := Real.cos_le_cos_of_nonneg_of_le_pi (by positivity) h2 h
    rw [Real.cos_pi_div_two] at h4
    exact pos_scaled 1048576 (by norm_num) _ _ _ _ upperNyquist _ (by push_cast; linarith) (by push_cast; linarith)
  · refine (gain_le _ _ _ (norm_exp_omega ω) (den_ne_zero ω) 10000 371 (by norm_num) (by norm_num) ?_).trans (by norm_num)
    rw [exp_omega_re]
    have h4 : Real.cos ω ≤ Real.cos (2 * Real.pi / 3) := Real.cos_le_cos_of_nonneg_of_le_pi (by positivity) h2 h
    rw [show 2 * Real.pi / 3 = Real.pi - Real.pi / 3 by ring, Real.cos_pi_sub, Real.cos_pi_div_three] at h4
    exact pos_scaled 1048576 (by norm_num) _ _ _ _ upperTwoThirds _ (by push_cast; linarith) (by push_cast; linarith)
  · refine (gain_le _ _ _ (norm_exp_omega ω) (den_ne_zero ω) 10000 51 (by norm_num) (by norm_num) ?_).trans (by norm_num)
    rw [exp_omega_re]
    have h4 : Real.cos ω ≤ Real.cos (3 * Real.pi / 4) := Real.cos_le_cos_of_nonneg_of_le_pi (by positivity) h2 h
    rw [show 3 * Real.pi / 4 = Real.pi - Real.pi / 4 by ring, Real.cos_pi_sub] at h4
    have h5 := cos_quarter
    exact pos_scaled 1048576 (by norm_num) _ _ _ _ upperThreeQuarters _ (by push_cast; linarith) (by push_cast; linarith)

/-- **C85** A stage keeps what it should: to within 3 dB up to the new Nyquist frequency, to 0.07 % up to 2/3 and to 0.002 % up to half of it. -/
theorem C85_passband (ω : ℝ) (h0 : 0 ≤ ω) : (ω ≤ Real.pi / 2 → 0.70710 ≤ ‖response ω‖) ∧ (ω ≤ Real.pi / 3 → 0.9993 ≤ ‖response ω‖) ∧
    (ω ≤ Real.pi / 4 → 0.99998 ≤ ‖response ω‖) := by
  rw [response_gain]
  have hpi := Real.pi_pos
  have h3 := Real.cos_le_one ω
  refine ⟨fun h => ?_, fun h => ?_, fun h => ?_⟩
  · refine le_trans (by norm_num) (le_gain _ _ _ (norm_exp_omega ω) (den_ne_zero ω) 100000 70710 (by norm_num) (by norm_num) ?_)
    rw [exp_omega_re]
    have h4 : Real.cos (Real.pi / 2) ≤ Real.cos ω := Real.cos_le_cos_of_nonneg_of_le_pi h0 (by linarith) h
    rw [Real.cos_pi_div_two] at h4
    exact pos_scaled 1048576 (by norm_num) _ _ _ _ lowerNyquist _ (by push_cast; linarith) (by push_cast; linarith)
  · refine le_trans (by norm_num) (le_gain _ _ _ (norm_exp_omega ω) (den_ne_zero ω) 10000 9993 (by norm_num) (by norm_num) ?_)
    rw [exp_omega_re]
    have h4 : Real.cos (Real.pi / 3) ≤ Real.cos ω := Real.cos_le_cos_of_nonneg_of_le_pi h0 (by linarith) h
    rw [Real.cos_pi_div_three] at h4
    exact pos_scaled 1048576 (by norm_num) _ _ _ _ lowerTwoThirds _ (by push_cast; linarith) (by push_cast; linarith)
  · refine le_trans (by norm_num) (le_gain _ _ _ (norm_exp_omega ω) (den_ne_zero ω) 100000 99998 (by norm_num) (by norm_num) ?_)
    rw [exp_omega_re]
    have h4 : Real.cos (Real.pi / 4) ≤ Real.cos ω := Real.cos_le_cos_of_nonneg_of_le_pi h0 (by linarith) h
    have h5 := cos_quarter
    exact pos_scaled 1048576 (by norm_num) _ _ _ _ lowerHalf _ (by push_cast; linarith) (by push_cast; linarith)

/-- **C85** After all `k` stages a frequency is at least as weak as one stage leaves it, up to the 1.00001 of the others. -/
theorem C85_total_le (k j : ℕ) (hj : j < k) (ω : ℝ) : ‖total k ω‖ ≤ 1.00001 ^ (k - 1) * ‖response (2 ^ j * ω)‖ := by
  unfold total
  rw [norm_prod, ← mul_prod_erase _ _ (mem_range.mpr hj), mul_comm]
  refine mul_le_mul_of_nonneg_right ?_ (norm_nonneg _)
  have hcard : ((range k).erase j).card = k - 1 := by rw [card_erase_of_mem (mem_range.mpr hj), card_range]
  rw [← hcard, ← prod_const]
  exact prod_le_prod (fun _ _ => norm_nonneg _) (fun i _ => C85_no_gain _)

/-- **C85** So everything above the new Nyquist frequency `π / 2 ^ k` is attenuated, whichever stage folds it. -/
theorem C85_alias (k : ℕ) (hk : 0 < k) (ω : ℝ) (h1 : Real.pi / 2 ^ k ≤ ω) (h2 : ω ≤ Real.pi) : ‖total k ω‖ ≤ 1.00001 ^ (k - 1) * 0.70711 := by
  have hpi := Real.pi_pos
  obtain ⟨j, hj, hj1, hj2⟩ : ∃ j, j < k ∧ Real.pi / 2 ≤ 2 ^ j * ω ∧ 2 ^ j * ω ≤ Real.pi := by
    have hex : ∃ j, Real.pi / 2 ≤ 2 ^ j * ω ∧ j < k := by
      refine ⟨k - 1, ?_, by omega⟩
      obtain ⟨k, rfl⟩ : ∃ l, k = l + 1 := ⟨k - 1, by omega⟩
      rw [div_le_iff₀ (by positivity), pow_succ] at h1
      rw [Nat.add_sub_cancel]
      linarith
    classical
    have hs := Nat.find_spec hex
    refine ⟨Nat.find hex, hs.2, hs.1, ?_⟩
    rcases Nat.eq_zero_or_pos (Nat.find hex) with h0 | h0
    · rw [h0]
      linarith
    · have hm := Nat.find_min hex (m := Nat.find hex - 1) (by omega)
      have hlt : ¬ Real.pi / 2 ≤ 2 ^ (Nat.find hex - 1) * ω := fun h => hm ⟨h, by have := hs.2; omega⟩
      rw [show Nat.find hex = Nat.find hex - 1 + 1 by omega, pow_succ]
      linarith
  refine (C85_total_le k j hj ω).trans (mul_le_mul_of_nonneg_left ?_ (by positivity))
  exact (C85_stopband _ hj2).1 hj1

/-- **C85** And everything up to half the new Nyquist frequency is kept. -/
theorem C85_kept (k : ℕ) (ω : ℝ) (h0 : 0 ≤ ω) (h1 : 2 ^ k * ω ≤ Real.pi / 2) : 0.99998 ^ k ≤ ‖total k ω‖ ∧ ‖total k ω‖ ≤ 1.00001 ^ k := by
  unfold total
  rw [norm_prod]
  constructor
  · rw [show (0.99998 : ℝ) ^ k = ∏ _j ∈ range k, (0.99998 : ℝ) by simp]
    refine prod_le_prod (fun _ _ => by norm_num) (fun j hj => ?_)
    refine (C85_passband _ (by positivity)).2.2 ?_
    have hjk : (2 : ℝ) ^ (j + 1) ≤ 2 ^ k := pow_le_pow_right₀ (by norm_num) (mem_range.mp hj)
    have := mul_le_mul_of_nonneg_right hjk h0
    rw [pow_succ] at this
    linarith
  · rw [show (1.00001 : ℝ) ^ k = ∏ _j ∈ range k, (1.00001 : ℝ) by simp]
    exact prod_le_prod (fun _ _ => norm_nonneg _) (fun j _ => C85_no_gain _)

/-! ## The stream -/

theorem casc_bounded (k : ℕ) (x : ℕ → ℝ) (M : ℝ) (hM : ∀ n, |x n| ≤ M) (n : ℕ) : |casc id (flB id) (flA id) k x n| ≤ 2 ^ k * M := by
  induction k generalizing x M n with
  | zero => simpa [casc] using hM n
  | succ k ih =>
    rw [casc]
    have := ih (fun n => filt id (flB id) (flA id) x (2 * n)) (2 * M) (fun n => bound2 x _ (exact_eq x) M hM (2 * n)) n
    rw [pow_succ]
    linarith

/-- **C85** The decimator is stable: however long the stream and however it is cut into blocks, input within `M` gives output within
`2 ^ k M` (the bound of C60 was `18 ^ k M`). -/
theorem C85_bounded (q k : Nat) (hk : 0 < k) (aa tmp : List ℝ) (haa : aa.length = q * 2 ^ k) (htmp : tmp.length = q * 2 ^ k)
    (calls : List (List ℝ × List ℝ)) (hlen : ∀ c ∈ calls, c.1.length = q * 2 ^ k ∧ c.2.length = q) (M : ℝ) (hM : 0 ≤ M)
    (hx : ∀ c ∈ calls, ∀ v ∈ c.1, |v| ≤ M) :
    ∃ s s' outs, new (q * 2 ^ k) ((2 : Int) ^ k) aa tmp = some s ∧ run s calls = some (s', outs) ∧ outs.flatten.length = calls.length * q ∧
      ∀ v ∈ outs.flatten, |v| ≤ 2 ^ k * M := by
  set X := (calls.map Prod.fst).flatten with hX
  obtain ⟨s, h1, h2⟩ := newFl_streaming id q k hk aa tmp haa htmp (fun n => X.getD n 0)
  obtain ⟨s', outs, e1, e2, e3⟩ := runFl_spec id _ _ q k calls s _ 0 h2 hlen (by
    intro i v hv
    rw [← hX] at hv
    simp [List.getD_eq_getElem?_getD, hv])
  refine ⟨s, s', outs, h1, (run_id s calls).symm.trans e1, e2, ?_⟩
  intro v hv
  obtain ⟨m, hm⟩ := List.getElem?_of_mem hv
  rw [e3 m v hm]
  refine casc_bounded k _ M ?_ _
  intro n
  rw [List.getD_eq_getElem?_getD]
  cases hg : X[n]? with
  | none => simpa using hM
  | some w =>
    have hw := List.mem_of_getElem? hg
    rw [hX, List.mem_flatten] at hw
    obtain ⟨l, hl, hwl⟩ := hw
    obtain ⟨c, hc, rfl⟩ := List.mem_map.mp hl
    exact hx c hc w hwl

theorem filt_osc (ω : ℝ) (c : ℂ) (x e : ℕ → ℝ) (he : Vanishes e) (hx : ∀ n, x n = (c * Complex.exp (ω * Complex.I) ^ n).re + e n) :
    ∃ e', Vanishes e' ∧ ∀ n, filt id (flB id) (flA id) x n = (response ω * (c * Complex.exp (ω * Complex.I) ^ n)).re + e' n := by
  set x0 : ℕ → ℝ := fun n => (c * Complex.exp (ω * Complex.I) ^ n).re with hx0
  obtain ⟨p0, ps, c1, c2, c3, c4, c5, c6⟩ := cert_sound _ _ _ _ _ _ cert_two (by norm_num)
  have hc3 : ((50 : ℤ) : ℝ) * (l1 ps : ℝ) ≤ p0 := by exact_mod_cast c3
  have hG : ((l1 (mul certQ intB) : ℤ) : ℝ) ≤ 2 * ((p0 - l1 ps : ℤ) : ℝ) := by exact_mod_cast c4
  have ho : Vanishes (fun n => filt id (flB id) (flA id) x0 n - (response ω * (c * Complex.exp (ω * Complex.I) ^ n)).re) := by
    refine vanishes_pow ((2 + ‖response ω‖) * ‖c‖) _ (fun n => ?_)
    have := oscillation intA intB certQ ps p0 c1 c2 (1 / 50) (by push_cast at hc3; linarith) (by norm_num) 2 hG c
      (Complex.exp (ω * Complex.I)) (norm_exp_omega ω) x0 (filt id (flB id) (flA id) x0) (n + 1) 60 c5 c6 (fun n _ => rfl) (fun n _ => exact_eq x0 n) n (by omega)
    rwa [← response_gain] at this
  have hv := vanishes_filt e he (fun n => filt id (flB id) (flA id) x n - filt id (flB id) (flA id) x0 n) (fun n => by
    rw [filt_sub]
    congr 1
    funext n
    rw [hx n]
    simp only [hx0]
    ring)
  refine ⟨_, ho.add hv, fun n => ?_⟩
  ring

theorem casc_osc (k : ℕ) (ω : ℝ) (c : ℂ) (x e : ℕ → ℝ) (he : Vanishes e) (hx : ∀ n, x n = (c * Complex.exp (ω * Complex.I) ^ n).re + e n) :
    ∃ e', Vanishes e' ∧ ∀ n, casc id (flB id) (flA id) k x n = (total k ω * (c * Complex.exp (((2 ^ k * ω : ℝ) : ℂ) * Complex.I) ^ n)).re + e' n := by
  induction k generalizing ω c x e with
  | zero =>
    refine ⟨e, he, fun n => ?_⟩
    rw [casc, hx n]
    simp [total]
  | succ k ih =>
    obtain ⟨e1, h1, h2⟩ := filt_osc ω c x e he hx
    obtain ⟨e2, h3, h4⟩ := ih (2 * ω) (response ω * c) (fun n => filt id (flB id) (flA id) x (2 * n)) (fun n => e1 (2 * n)) (by
      intro ε hε
      obtain ⟨N, hN⟩ := h1 ε hε
      exact ⟨N, fun n hn => hN (2 * n) (by omega)⟩) (by
      intro n
      rw [h2, pow_mul, ← Complex.exp_nat_mul]
      congr 2
      rw [mul_assoc]
      congr 4
      push_cast
      ring)
    refine ⟨e2, h3, fun n => ?_⟩
    rw [casc, h4]
    congr 2
    unfold total
    rw [prod_range_succ']
    have hp : ∀ j : ℕ, (2 : ℝ) ^ j * (2 * ω) = 2 ^ (j + 1) * ω := fun j => by rw [pow_succ]; ring
    simp only [hp, pow_zero, one_mul]
    ring

/-- **C85** A sinusoid in gives the sinusoid of the total frequency response out, at the reduced rate, plus a transient that dies away. The transient depends
on the sinusoid and the number of stages only, not on the block size, the number of blocks or what was in the buffers. -/
theorem C85_sinusoid (k : Nat) (hk : 0 < k) (A ω φ : ℝ) : ∃ e : ℕ → ℝ, (∀ ε, 0 < ε → ∃ N, ∀ n, N ≤ n → |e n| ≤ ε) ∧
    ∀ (q : Nat) (aa tmp : List ℝ), aa.length = q * 2 ^ k → tmp.length = q * 2 ^ k → ∀ calls : List (List ℝ × List ℝ),
      (∀ c ∈ calls, c.1.length = q * 2 ^ k ∧ c.2.length = q) →
      (∀ (n : ℕ) v, (calls.map Prod.fst).flatten[n]? = some v → v = A * Real.cos (ω * n + φ)) →
      ∃ s s' outs, new (q * 2 ^ k) ((2 : Int) ^ k) aa tmp = some s ∧ run s calls = some (s', outs) ∧ outs.flatten.length = calls.length * q ∧
        ∀ (m : ℕ) v, outs.flatten[m]? = some v → v = A * ‖total k ω‖ * Real.cos (ω * (2 ^ k * m : ℕ) + φ + (total k ω).arg) + e m := by
  have hz : ∀ (w : ℝ) (n : ℕ), (A : ℂ) * Complex.exp (φ * Complex.I) * Complex.exp (w * Complex.I) ^ n = (A : ℂ) * Complex.exp (((w * n + φ : ℝ) : ℂ) * Complex.I) := by
    intro w n
    rw [← Complex.exp_nat_mul, mul_assoc, ← Complex.exp_add]
    congr 2
    push_cast
    ring
  obtain ⟨e, he, hc⟩ := casc_osc k ω ((A : ℂ) * Complex.exp (φ * Complex.I)) (fun n => A * Real.cos (ω * n + φ)) (fun _ => 0)
    (fun ε hε => ⟨0, fun n _ => by simpa using hε.le⟩) (fun n => by
      rw [hz, Complex.re_ofReal_mul, Complex.exp_ofReal_mul_I_re, add_zero])
  refine ⟨e, he, ?_⟩
  intro q aa tmp haa htmp calls hlen hx
  obtain ⟨s, h1, h2⟩ := newFl_streaming id q k hk aa tmp haa htmp (fun n => A * Real.cos (ω * n + φ))
  obtain ⟨s', outs, e1, e2, e3⟩ := runFl_spec id _ _ q k calls s _ 0 h2 hlen (by
    intro i v hv
    rw [hx i v hv]
    simp)
  refine ⟨s, s', outs, h1, (run_id s calls).symm.trans e1, e2, ?_⟩
  intro m v hm
  rw [e3 m v hm]
  have := hc (0 + m)
  unfold flB flA at this
  rw [this, Nat.zero_add, hz]
  congr 1
  rw [show 2 ^ k * ω * (m : ℝ) + φ = ω * (2 ^ k * m : ℕ) + φ by push_cast; ring]
  generalize ω * ((2 ^ k * m : ℕ) : ℝ) + φ = t
  generalize total k ω = R
  conv_lhs => rw [← Complex.norm_mul_exp_arg_mul_I R]
  rw [show ((‖R‖ : ℝ) : ℂ) * Complex.exp (R.arg * Complex.I) * ((A : ℂ) * Complex.exp ((t : ℂ) * Complex.I)) =
    ((A * ‖R‖ : ℝ) : ℂ) * (Complex.exp (R.arg * Complex.I) * Complex.exp ((t : ℂ) * Complex.I)) by
      push_cast; ring, ← Complex.exp_add, ← add_mul, ← Complex.ofReal_add, Complex.re_ofReal_mul, Complex.exp_ofReal_mul_I_re, add_comm (Complex.arg _)]

/-- Blocks of the fastest oscillation through two stages. -/
example : ∃ (aa tmp : List ℝ) (calls : List (List ℝ × List ℝ)), aa.length = 1 * 2 ^ 2 ∧ tmp.length = 1 * 2 ^ 2 ∧ calls.length = 2 ∧
    (∀ c ∈ calls, c.1.length = 1 * 2 ^ 2 ∧ c.2.length = 1) ∧
    (∀ (n : ℕ) v, (calls.map Prod.fst).flatten[n]? = some v → v = 1 * Real.cos (Real.pi * n + 0)) ∧ Real.pi / 2 ^ 2 ≤ Real.pi := by
  refine ⟨List.replicate 4 0, List.replicate 4 0, [([1, -1, 1, -1], [0]), ([1, -1, 1, -1], [0])], rfl, rfl, rfl, by simp, ?_, by
    have := Real.pi_pos
    linarith⟩
  intro n v h
  have hc : Real.cos (Real.pi * n) = (-1) ^ n := by rw [mul_comm]; exact Real.cos_nat_mul_pi n
  rw [add_zero, one_mul, hc]
  match n, h with
  | 0, h | 1, h | 2, h | 3, h | 4, h | 5, h | 6, h | 7, h => simp at h; subst h; norm_num
  | n + 8, h => simp at h

end QM.DecimatorB
