import Verif.Resampler.Design
import Verif.Common.Sum
import Mathlib.Analysis.Real.Pi.Bounds
import Mathlib.Tactic.Positivity

namespace QM.Resampler

open QM.Window

/-- Number of taps asked for: Kaiser's estimate for a stop-band attenuation of `snr` dB and a transition band that is
the fraction `bandwidth` of the higher of the two (reduced) rates. -/
noncomputable def wantedLength (snr bandwidth : ℝ) (H : Nat) : Int :=
  1 + ⌈(if snr > 21 then (snr - 7.95) / 2.285 else 5.79) * H / (2 * Real.pi * bandwidth)⌉

/-- Kaiser's shape parameter for a given attenuation. -/
noncomputable def wantedBeta (snr : ℝ) : ℝ :=
  if snr > 50 then 0.1102 * (snr - 8.7)
  else if snr > 21 then 0.5842 * (snr - 21) ^ (0.4 : ℝ) + 0.07886 * (snr - 21) else 0

theorem params_eq (snr bw : ℝ) (H : Nat) (hb : 0 < bw) (hH : 0 < H) (hfit : wantedLength snr bw H ≤ intMax) :
    2 ≤ wantedLength snr bw H ∧ kaiserParamsForBandwidth snr bw (H : ℝ) = some (wantedLength snr bw H, wantedBeta snr) := by
  have hH' : (0 : ℝ) < H := by exact_mod_cast hH
  have hpi := Real.pi_pos
  have ht : bw * 2 * Real.pi / (H : ℝ) ≠ 0 := by positivity
  have e1 : (if snr > 21 then ⌈(snr - 7.95) / (2.285 * (bw * 2 * Real.pi / (H : ℝ)))⌉ else ⌈5.79 / (bw * 2 * Real.pi / (H : ℝ))⌉) =
      ⌈(if snr > 21 then (snr - 7.95) / 2.285 else 5.79) * H / (2 * Real.pi * bw)⌉ := by
    split_ifs
    · congr 1; field_simp
    · congr 1; field_simp
  have hpos : 2 ≤ wantedLength snr bw H := by
    unfold wantedLength
    have : (0 : ℝ) < (if snr > 21 then (snr - 7.95) / 2.285 else 5.79) * H / (2 * Real.pi * bw) := by
      have : (0 : ℝ) < (if snr > 21 then (snr - 7.95) / 2.285 else 5.79) := by
        split_ifs with h
        · apply div_pos _ (by norm_num); linarith
        · norm_num
      positivity
    have := Int.ceil_pos.mpr this
    omega
  refine ⟨hpos, ?_⟩
  unfold kaiserParamsForBandwidth
  rw [if_neg hH'.ne']
  unfold kaiserParams
  rw [if_neg ht, e1]
  change (if wantedLength snr bw H > intMax ∨ wantedLength snr bw H < -intMax - 1 then none else some (wantedLength snr bw H, wantedBeta snr)) = _
  rw [if_neg]
  unfold intMax at *
  omega

theorem oddCapped_spec (l : Int) (h : 2 ≤ l) : 3 ≤ oddCapped l ∧ oddCapped l % 2 = 1 ∧ oddCapped l ≤ 200001 ∧
    (oddCapped l = 200001 ∨ (oddCapped l = l ∨ oddCapped l = l + 1)) ∧ (200001 < l → oddCapped l = 200001) := by
  unfold oddCapped
  rw [Int.tmod_eq_emod_of_nonneg (by omega)]
  dsimp only
  split_ifs <;> omega

/-- Zero crossings of the cardinal sine. -/
theorem sincFn_pi (k : Int) : sincFn (k * Real.pi) = if k = 0 then 1 else 0 := by
  unfold sincFn
  by_cases hk : k = 0
  · simp [hk]
  · rw [if_neg (by
      have : (k : ℝ) ≠ 0 := by exact_mod_cast hk
      have := Real.pi_ne_zero
      positivity), if_neg hk, Real.sin_int_mul_pi, zero_div]

theorem sincFn_neg (x : ℝ) : sincFn (-x) = sincFn x := by
  unfold sincFn
  by_cases hx : x = 0
  · simp [hx]
  · rw [if_neg (by simpa using hx), if_neg hx, Real.sin_neg, neg_div_neg_eq]

theorem cutInPlace_ok (n : Nat) (cache src : List ℝ) (g h : Nat → ℝ) (h1 : cache.length = n) (h2 : src.length = n)
    (hc : ∀ i : Nat, i < n → cache[i]? = some (g i)) (hs : ∀ i : Nat, i < n → src[i]? = some (h i)) :
    ∃ d, cutInPlace n cache src = some d ∧ d.length = n ∧ ∀ i : Nat, i < n → d[i]? = some (h i * g i) := by
  obtain ⟨d, a, b⟩ := C50_cut_in_place n cache src (by omega) (by omega)
  obtain ⟨d', a', b', c', _⟩ := C50_cut n cache src src (by omega) (by omega) (by omega)
  rw [b] at a'; cases a'
  refine ⟨d, a, by omega, fun i hi => ?_⟩
  obtain ⟨s, c, e1, e2, e3⟩ := c' i hi
  rw [hs i hi] at e1; rw [hc i hi] at e2
  cases e1; cases e2
  exact e3

theorem ones_ok (n : Nat) : ∃ d, loop n (fun i f => wr f i (1 : ℝ)) (List.replicate n 0) = some d ∧ d.length = n ∧
    ∀ i : Nat, i < n → d[i]? = some 1 := by
  obtain ⟨m, a1, a2, a3, _⟩ := fill_ok n (fun i mult => wr mult i (1 : ℝ)) (fun _ => 1) (List.replicate n 0) (by simp)
    (by
      intro i b hin hb _ _
      rw [List.length_replicate] at hb
      rw [wr_some _ (by omega)])
  exact ⟨m, a1, by simpa using a2, a3⟩

/-- The distance from the peak of the prototype to its first zero, in taps. -/
noncomputable def pole (S T : Nat) (bw : ℝ) : ℝ :=
  if T < S then ((S / Nat.gcd S T : Nat) : ℝ) / (1 - bw / 2) else ((T / Nat.gcd S T : Nat) : ℝ)

theorem design_ok (S T : Nat) (snr bw : ℝ) (hS : 0 < S) (hT : 0 < T) (hb : 0 < bw) (hb2 : bw < 2)
    (hfit : wantedLength snr bw (max S T / Nat.gcd S T) ≤ intMax) :
    ∃ f, design S T snr bw = some (f, ((T / Nat.gcd S T : Nat) : ℝ) / pole S T bw) ∧ 0 < pole S T bw ∧
      (f.length : Int) = oddCapped (wantedLength snr bw (max S T / Nat.gcd S T)) ∧
      2 ≤ wantedLength snr bw (max S T / Nat.gcd S T) ∧
      ∀ i : Nat, i < f.length → f[i]? = some (sincFn (((i : ℝ) - ((f.length / 2 : Nat) : ℝ)) * Real.pi / pole S T bw) *
        kaiserAt f.length (wantedBeta snr) i) := by
  have hg : 0 < Nat.gcd S T := Nat.gcd_pos_of_pos_left _ hS
  have hgm : Nat.gcd (min S T) (max S T) = Nat.gcd S T := by
    rcases le_total S T with h | h
    · rw [min_eq_left h, max_eq_right h]
    · rw [min_eq_right h, max_eq_left h, Nat.gcd_comm]
  have hgm' : QM.MathInt.gcd (min S T) (max S T) = some (Nat.gcd S T) := by
    rw [QM.MathInt.C02_gcd_correct _ _ (by omega), hgm]
  have hH : 0 < max S T / Nat.gcd S T := by
    apply Nat.div_pos _ hg
    exact le_trans (Nat.le_of_dvd hS (Nat.gcd_dvd_left _ _)) (le_max_left _ _)
  obtain ⟨hw, hp⟩ := params_eq snr bw _ hb hH hfit
  have hpole : peakToPole S T (Nat.gcd S T) bw = some (pole S T bw) ∧ 0 < pole S T bw := by
    unfold peakToPole pole
    have hH' : (0 : ℝ) < ((max S T / Nat.gcd S T : Nat) : ℝ) := by exact_mod_cast hH
    by_cases h : T < S
    · rw [max_eq_left h.le] at hH' ⊢
      simp only [if_pos h]
      rw [if_neg (by linarith)]
      exact ⟨rfl, div_pos hH' (by linarith)⟩
    · rw [max_eq_right (by omega)] at hH' ⊢
      simp only [if_neg h]
      exact ⟨trivial, hH'⟩
  obtain ⟨o1, o2, o3, -, -⟩ := oddCapped_spec _ hw
  obtain ⟨n, hn⟩ : ∃ n : Nat, n = (oddCapped (wantedLength snr bw (max S T / Nat.gcd S T))).toNat := ⟨_, rfl⟩
  have hn' : (n : Int) = oddCapped (wantedLength snr bw (max S T / Nat.gcd S T)) := by omega
  obtain ⟨kw, k1, k2, k3⟩ := kaiser_ok n (wantedBeta snr) (by omega)
  have hp2 : pole S T bw * 2 ≠ 0 := by have := hpole.2; positivity
  obtain ⟨sw, s1, s2, s3⟩ := sinc_ok n (pole S T bw * 2) hp2
  obtain ⟨d1, q1, q2, q3⟩ := ones_ok n
  obtain ⟨d2, r1, r2, r3⟩ := cutInPlace_ok n sw d1 _ _ s2 q2 s3 q3
  obtain ⟨d3, t1, t2, t3⟩ := cutInPlace_ok n kw d2 _ _ k2 r2 k3 r3
  refine ⟨d3, ?_, hpole.2, by omega, hw, ?_⟩
  · unfold design
    rw [bind_ok hgm', if_neg (by omega), bind_ok hpole.1, bind_ok hp]
    dsimp only
    rw [if_neg (not_or.mpr ⟨by omega, hpole.2.ne'⟩), ← hn, bind_ok k1, bind_ok s1, bind_ok q1, bind_ok r1, bind_ok t1]
    rw [Nat.cast_div (Nat.gcd_dvd_right S T) (by exact_mod_cast hg.ne')]
  · intro i hi
    rw [t2] at hi ⊢
    rw [t3 i hi, one_mul]
    congr 3
    have := hpole.2
    field_simp

end QM.Resampler
