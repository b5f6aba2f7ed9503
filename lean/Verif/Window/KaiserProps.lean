import Verif.Window.Kaiser
import Verif.Resampler.DesignLemmas
import Mathlib.Algebra.BigOperators.Ring.Finset
import Mathlib.Algebra.Order.BigOperators.Group.Finset

/-!
# C130: Kaiser windows by specification
-/

namespace QM.Window

open QM.Resampler

/-! ## The shape -/

theorem kaiserAt_rising (n : Nat) (beta : ℝ) (i j : Nat) (h : 2 ≤ n) (hij : i ≤ j) (hj : 2 * j ≤ n - 1) : kaiserAt n beta i ≤ kaiserAt n beta j := by
  unfold kaiserAt
  have hn : (0 : ℝ) < (n : ℝ) - 1 := by
    have : (2 : ℝ) ≤ n := by exact_mod_cast h
    linarith
  apply div_le_div_of_nonneg_right _ (by linarith [bessel_pos beta])
  apply bessel_mono
  rw [abs_mul, abs_mul, abs_of_nonneg (Real.sqrt_nonneg _), abs_of_nonneg (Real.sqrt_nonneg _)]
  apply mul_le_mul_of_nonneg_left _ (abs_nonneg _)
  apply Real.sqrt_le_sqrt
  have h1 : (2 : ℝ) * i / ((n : ℝ) - 1) ≤ 2 * j / ((n : ℝ) - 1) := by
    apply div_le_div_of_nonneg_right _ hn.le
    have : (i : ℝ) ≤ j := by exact_mod_cast hij
    linarith
  have h2 : (2 : ℝ) * j / ((n : ℝ) - 1) ≤ 1 := by
    rw [div_le_one hn]
    have : ((2 * j : Nat) : ℝ) ≤ ((n - 1 : Nat) : ℝ) := by exact_mod_cast hj
    rw [Nat.cast_sub (by omega)] at this
    push_cast at this
    exact this
  nlinarith

theorem cross_sum (a : Nat → ℝ) (m : Nat) (x y t : ℝ) (ha : ∀ i, 0 ≤ a i) (hx : 0 ≤ x) (hxy : x ≤ y) (ht : 0 ≤ t) (ht1 : t ≤ 1) :
    (∑ i ∈ Finset.range m, a i * (y * t) ^ i) * (∑ i ∈ Finset.range m, a i * x ^ i) ≤
      (∑ i ∈ Finset.range m, a i * (x * t) ^ i) * (∑ i ∈ Finset.range m, a i * y ^ i) := by
  have key : ∀ k l : Nat, k ≤ l → 0 ≤ (t ^ k - t ^ l) * (a k * x ^ k * (a l * y ^ l) - a k * y ^ k * (a l * x ^ l)) := by
    intro k l hkl
    obtain ⟨d, rfl⟩ := Nat.exists_eq_add_of_le hkl
    apply mul_nonneg
    · have : t ^ (k + d) ≤ t ^ k := pow_le_pow_of_le_one ht ht1 hkl
      linarith
    · have h1 : x ^ d ≤ y ^ d := pow_le_pow_left₀ hx hxy d
      have h2 : a k * x ^ k * (a (k + d) * y ^ (k + d)) - a k * y ^ k * (a (k + d) * x ^ (k + d)) = a k * a (k + d) * x ^ k * y ^ k * (y ^ d - x ^ d) := by ring
      rw [h2]
      have := ha k
      have := ha (k + d)
      have hy : 0 ≤ y := hx.trans hxy
      exact mul_nonneg (by positivity) (by linarith)
  have hall : 0 ≤ ∑ k ∈ Finset.range m, ∑ l ∈ Finset.range m, (t ^ k - t ^ l) * (a k * x ^ k * (a l * y ^ l) - a k * y ^ k * (a l * x ^ l)) := by
    refine Finset.sum_nonneg fun k _ => Finset.sum_nonneg fun l _ => ?_
    rcases le_total k l with h | h
    · exact key k l h
    · have := key l k h
      calc (0 : ℝ) ≤ _ := this
        _ = _ := by ring
  have e1 : ∀ u v : ℝ, (∑ i ∈ Finset.range m, a i * (u * t) ^ i) * (∑ i ∈ Finset.range m, a i * v ^ i) =
      ∑ k ∈ Finset.range m, ∑ l ∈ Finset.range m, t ^ k * (a k * u ^ k * (a l * v ^ l)) := by
    intro u v
    rw [Finset.sum_mul_sum]
    exact Finset.sum_congr rfl fun k _ => Finset.sum_congr rfl fun l _ => by rw [mul_pow]; ring
  have e2 : ∀ u v : ℝ, (∑ i ∈ Finset.range m, a i * (u * t) ^ i) * (∑ i ∈ Finset.range m, a i * v ^ i) =
      ∑ k ∈ Finset.range m, ∑ l ∈ Finset.range m, t ^ l * (a k * v ^ k * (a l * u ^ l)) := by
    intro u v
    rw [e1, Finset.sum_comm]
    exact Finset.sum_congr rfl fun k _ => Finset.sum_congr rfl fun l _ => by ring
  have h2 : 2 * ((∑ i ∈ Finset.range m, a i * (x * t) ^ i) * (∑ i ∈ Finset.range m, a i * y ^ i) -
      (∑ i ∈ Finset.range m, a i * (y * t) ^ i) * (∑ i ∈ Finset.range m, a i * x ^ i)) =
      ∑ k ∈ Finset.range m, ∑ l ∈ Finset.range m, (t ^ k - t ^ l) * (a k * x ^ k * (a l * y ^ l) - a k * y ^ k * (a l * x ^ l)) := by
    have e3 := e1 x y
    have e4 := e2 x y
    have e5 := e1 y x
    have e6 := e2 y x
    rw [mul_sub, two_mul, two_mul]
    nth_rw 1 [e3]
    nth_rw 1 [e4]
    nth_rw 1 [e5]
    nth_rw 1 [e6]
    simp only [← Finset.sum_add_distrib, ← Finset.sum_sub_distrib]
    exact Finset.sum_congr rfl fun k _ => Finset.sum_congr rfl fun l _ => by ring
  linarith

theorem bessel_cross (x y s : ℝ) (hx : 0 ≤ x) (hxy : x ≤ y) (hs : 0 ≤ s) (hs1 : s ≤ 1) :
    bessel0 (y * s) * bessel0 x ≤ bessel0 (x * s) * bessel0 y := by
  have hb : ∀ u : ℝ, bessel0 u = ∑ i ∈ Finset.range 20, (1 / (i.factorial : ℝ) ^ 2 / 4 ^ i) * (u ^ 2) ^ i := by
    intro u
    rw [bessel_sum]
    refine Finset.sum_congr rfl fun i _ => ?_
    rw [div_pow, div_pow u, div_pow, ← pow_mul, ← pow_mul, ← pow_mul, show (2 : ℝ) ^ (i * 2) = 4 ^ i by rw [mul_comm, pow_mul]; norm_num, mul_comm i 2]
    field_simp
  have := cross_sum (fun i => 1 / (i.factorial : ℝ) ^ 2 / 4 ^ i) 20 (x ^ 2) (y ^ 2) (s ^ 2) (fun i => by positivity) (by positivity)
    (pow_le_pow_left₀ hx hxy 2) (by positivity) (pow_le_one₀ hs hs1)
  rw [hb, hb, hb, hb, mul_pow, mul_pow]
  exact this

theorem kaiserAt_taper (n : Nat) (b b' : ℝ) (i : Nat) (hb : 0 ≤ b) (hbb : b ≤ b') : kaiserAt n b' i ≤ kaiserAt n b i := by
  unfold kaiserAt
  rw [div_le_div_iff₀ (by linarith [bessel_pos b']) (by linarith [bessel_pos b])]
  refine bessel_cross b b' _ hb hbb (Real.sqrt_nonneg _) ?_
  rw [Real.sqrt_le_one]
  linarith [sq_nonneg (2 * (i : ℝ) / ((n : ℝ) - 1) - 1)]

/-! ## The parameters -/

theorem beta_nonneg (a : ℝ) : 0 ≤ wantedBeta a := by
  unfold wantedBeta
  split_ifs with h1 h2
  · nlinarith
  · have : 0 ≤ (a - 21) ^ (0.4 : ℝ) := Real.rpow_nonneg (by linarith) _
    nlinarith
  · exact le_rfl

theorem beta_mono {a b : ℝ} (h : a ≤ b) : wantedBeta a ≤ wantedBeta b := by
  by_cases ha : 21 < a
  swap
  · rw [show wantedBeta a = 0 by unfold wantedBeta; rw [if_neg (by linarith), if_neg (by linarith)]]
    exact beta_nonneg b
  have hp : ∀ c, 21 < c → c ≤ b → (a ≤ c) → (a - 21) ^ (0.4 : ℝ) ≤ (c - 21) ^ (0.4 : ℝ) := fun c _ _ hc =>
    Real.rpow_le_rpow (by linarith) (by linarith) (by norm_num)
  have h29 : ((29 : ℝ)) ^ (0.4 : ℝ) ≤ 3.87 := by
    have h1 : (29 : ℝ) ≤ (3.87 : ℝ) ^ (2.5 : ℝ) := by
      rw [show (2.5 : ℝ) = (5 : ℝ) * (1 / 2) by norm_num, Real.rpow_mul (by norm_num), ← Real.sqrt_eq_rpow, show (5 : ℝ) = ((5 : ℕ) : ℝ) by norm_num, Real.rpow_natCast]
      exact Real.le_sqrt_of_sq_le (by norm_num)
    calc ((29 : ℝ)) ^ (0.4 : ℝ) ≤ ((3.87 : ℝ) ^ (2.5 : ℝ)) ^ (0.4 : ℝ) := Real.rpow_le_rpow (by norm_num) h1 (by norm_num)
      _ = 3.87 := by rw [← Real.rpow_mul (by norm_num)]; norm_num
  unfold wantedBeta
  by_cases h50 : a > 50
  · rw [if_pos h50, if_pos (by linarith)]
    linarith
  · rw [if_neg h50, if_pos ha]
    by_cases hb : b > 50
    · rw [if_pos hb]
      have h1 := hp 50 (by norm_num) (by linarith) (by linarith)
      norm_num at h1 h29
      norm_num
      linarith
    · rw [if_neg hb, if_pos (by linarith)]
      have h1 := hp b (by linarith) le_rfl h
      linarith

theorem order_pos (a : ℝ) : 0 < kaiserOrder a := by
  unfold kaiserOrder
  split_ifs with h
  · apply div_pos _ (by norm_num); linarith
  · norm_num

theorem kaiserParams_eq (a t : ℝ) (ht : t ≠ 0) : kaiserParams a t =
    if 1 + ⌈kaiserOrder a / t⌉ > intMax ∨ 1 + ⌈kaiserOrder a / t⌉ < -intMax - 1 then none else some (1 + ⌈kaiserOrder a / t⌉, wantedBeta a) := by
  have e1 : (if a > 21 then ⌈(a - 7.95) / (2.285 * t)⌉ else ⌈5.79 / t⌉) = ⌈kaiserOrder a / t⌉ := by
    unfold kaiserOrder
    split_ifs
    · rw [div_div]
    · rfl
  unfold kaiserParams
  rw [if_neg ht, e1]
  rfl

/-- The parameters that the constructor finds. -/
theorem by_eq (a t : ℝ) (ht : 0 < t) (hfit : kaiserOrder a / t ≤ 2147483646) :
    ∃ n : Nat, 2 ≤ n ∧ ((n : ℝ) - 2) * t < kaiserOrder a ∧ kaiserOrder a ≤ ((n : ℝ) - 1) * t ∧ byTransitionWidth a t = kaiser n (wantedBeta a) := by
  have hq : 0 < kaiserOrder a / t := div_pos (order_pos a) ht
  have h1 : 1 ≤ ⌈kaiserOrder a / t⌉ := Int.ceil_pos.mpr hq
  have h2 : ⌈kaiserOrder a / t⌉ ≤ 2147483646 := Int.ceil_le.mpr (by exact_mod_cast hfit)
  have h3 := Int.ceil_lt_add_one (kaiserOrder a / t)
  have h4 := Int.le_ceil (kaiserOrder a / t)
  obtain ⟨n, hn⟩ := Int.eq_ofNat_of_zero_le (show 0 ≤ 1 + ⌈kaiserOrder a / t⌉ by omega)
  have hn' : (n : ℝ) = 1 + (⌈kaiserOrder a / t⌉ : ℝ) := by exact_mod_cast hn.symm
  refine ⟨n, by omega, ?_, ?_, ?_⟩
  · rw [← lt_div_iff₀ ht]; linarith
  · rw [← div_le_iff₀ ht]; linarith
  · unfold byTransitionWidth
    rw [kaiserParams_eq a t ht.ne', if_neg (by unfold intMax; omega), hn]
    rfl

/-- **C130** A window asked for by attenuation and transition width has the least length that Kaiser's estimate allows, is symmetric, has values above 0
and up to 1, rises to the middle, and with an odd length is 1 there. -/
theorem C130_window (a t : ℝ) (ht : 0 < t) (hfit : kaiserOrder a / t ≤ 2147483646) :
    ∃ w, byTransitionWidth a t = some w ∧ 2 ≤ w.length ∧ kaiserOrder a ≤ ((w.length : ℝ) - 1) * t ∧ ((w.length : ℝ) - 2) * t < kaiserOrder a ∧
      (∀ i : Nat, i < w.length → w[i]? = w[w.length - 1 - i]?) ∧ (∀ v ∈ w, 0 < v ∧ v ≤ 1) ∧
      (∀ (i j : Nat) (x y : ℝ), i ≤ j → 2 * j ≤ w.length - 1 → w[i]? = some x → w[j]? = some y → x ≤ y) ∧ (w.length % 2 = 1 → w[w.length / 2]? = some 1) := by
  obtain ⟨n, h1, h2, h3, h4⟩ := by_eq a t ht hfit
  obtain ⟨w, a1, a2, a3, a4, a5⟩ := C50_kaiser_partial n (wantedBeta a) h1
  obtain ⟨w', b1, b2, b3⟩ := kaiser_ok n (wantedBeta a) h1
  rw [a1] at b1
  cases b1
  subst a2
  refine ⟨w, by rw [h4, a1], h1, h3, h2, a3, a4, fun i j x y hij hj hx hy => ?_, a5⟩
  rw [b3 i (by omega)] at hx
  rw [b3 j (by omega)] at hy
  cases hx
  cases hy
  exact kaiserAt_rising _ _ i j h1 hij hj

/-- **C130** A narrower transition never gives a shorter window. More attenuation does not either, except that 21 dB and less, where the estimate is another
one, cannot be compared with more. Between windows of the same length, the one for more attenuation is nowhere greater: it tapers more. -/
theorem C130_monotone_partial (a a' t t' : ℝ) (ht : 0 < t') (htt : t' ≤ t) (haa : a ≤ a') (hfit : kaiserOrder a / t ≤ 2147483646)
    (hfit' : kaiserOrder a' / t' ≤ 2147483646) (w w' : List ℝ) (hw : byTransitionWidth a t = some w) (hw' : byTransitionWidth a' t' = some w') :
    ((21 < a ∨ a' ≤ 21) → w.length ≤ w'.length) ∧
      (w.length = w'.length → ∀ (i : Nat) (x x' : ℝ), w[i]? = some x → w'[i]? = some x' → x' ≤ x) := by
  obtain ⟨n, h1, h2, h3, h4⟩ := by_eq a t (ht.trans_le htt) hfit
  obtain ⟨n', h1', h2', h3', h4'⟩ := by_eq a' t' ht hfit'
  obtain ⟨v, b1, b2, b3⟩ := kaiser_ok n (wantedBeta a) h1
  obtain ⟨v', b1', b2', b3'⟩ := kaiser_ok n' (wantedBeta a') h1'
  rw [h4, b1] at hw
  rw [h4', b1'] at hw'
  cases hw
  cases hw'
  rw [b2, b2']
  constructor
  · intro ho
    have hoo : kaiserOrder a ≤ kaiserOrder a' := by
      unfold kaiserOrder
      rcases ho with ho | ho
      · rw [if_pos ho, if_pos (by linarith)]
        apply div_le_div_of_nonneg_right _ (by norm_num)
        linarith
      · rw [if_neg (by linarith), if_neg (by linarith)]
    by_contra hlt
    have h5 : ((n' : ℝ) - 1) ≤ (n : ℝ) - 2 := by
      have : ((n' + 1 : Nat) : ℝ) ≤ n := by exact_mod_cast (show n' + 1 ≤ n by omega)
      push_cast at this
      linarith
    have h6 : (0 : ℝ) ≤ (n : ℝ) - 2 := by
      have : (2 : ℝ) ≤ n := by exact_mod_cast h1
      linarith
    nlinarith
  · rintro rfl i x x' hx hx'
    have hi : i < n := by have := lt_of_getElem?_some hx; omega
    rw [b3 i hi] at hx
    rw [b3' i hi] at hx'
    cases hx
    cases hx'
    exact kaiserAt_taper n _ _ i (beta_nonneg a) (beta_mono haa)

/-- **C130** The exception is there: for 21.1 dB one gets a shorter window than for 21 dB. -/
theorem C130_monotone_violation : ∃ w w', byTransitionWidth 21 (1 / 100) = some w ∧ byTransitionWidth 21.1 (1 / 100) = some w' ∧ w.length = 580 ∧ w'.length = 577 := by
  have o1 : kaiserOrder 21 = 5.79 := by unfold kaiserOrder; rw [if_neg (by norm_num)]
  have o2 : kaiserOrder 21.1 = (21.1 - 7.95) / 2.285 := by unfold kaiserOrder; rw [if_pos (by norm_num)]
  obtain ⟨w, h1, h2, h3, h4, -⟩ := C130_window 21 (1 / 100) (by norm_num) (by rw [o1]; norm_num)
  obtain ⟨w', h1', h2', h3', h4', -⟩ := C130_window 21.1 (1 / 100) (by norm_num) (by rw [o2]; norm_num)
  refine ⟨w, w', h1, h1', ?_, ?_⟩
  · rw [o1] at h3 h4
    have l2 : (w.length : ℝ) < 581 := by norm_num at h3 h4; linarith
    have l3 : (580 : ℝ) ≤ w.length := by norm_num at h3 h4; linarith
    have l2' : w.length < 581 := by exact_mod_cast l2
    have l3' : 580 ≤ w.length := by exact_mod_cast l3
    omega
  · rw [o2] at h3' h4'
    have l2 : (w'.length : ℝ) < 578 := by norm_num at h3' h4'; linarith
    have l3 : (576 : ℝ) < w'.length := by norm_num at h3' h4'; linarith
    have l2' : w'.length < 578 := by exact_mod_cast l2
    have l3' : 576 < w'.length := by exact_mod_cast l3
    omega

/-- **C130** A window by bandwidth is one by transition width in radians per sample, so only the ratio of bandwidth and sample rate counts. -/
theorem C130_bandwidth (a bw sr : ℝ) (hs : sr ≠ 0) :
    byBandwidth a bw sr = byTransitionWidth a (2 * Real.pi * bw / sr) ∧ ∀ c, c ≠ 0 → byBandwidth a (c * bw) (c * sr) = byBandwidth a bw sr := by
  constructor
  · unfold byBandwidth byTransitionWidth kaiserParamsForBandwidth
    rw [if_neg hs, show bw * 2 * Real.pi = 2 * Real.pi * bw by ring]
  · intro c hc
    unfold byBandwidth kaiserParamsForBandwidth
    rw [if_neg hs, if_neg (mul_ne_zero hc hs), show c * bw * 2 * Real.pi / (c * sr) = bw * 2 * Real.pi / sr by field_simp]

/-- **C130** A transition width that is not positive gives an empty window or none (0/0, or a length that does not fit an `int`). -/
theorem C130_not_positive (a t : ℝ) (ht : t ≤ 0) (w : List ℝ) (hw : byTransitionWidth a t = some w) : w = [] := by
  rcases ht.lt_or_eq with ht | rfl
  swap
  · simp [byTransitionWidth, kaiserParams] at hw
  unfold byTransitionWidth at hw
  rw [kaiserParams_eq a t ht.ne] at hw
  split_ifs at hw with hc
  · cases hw
  have h1 : ⌈kaiserOrder a / t⌉ ≤ 0 := Int.ceil_le.mpr (by simpa using (div_neg_of_pos_of_neg (order_pos a) ht).le)
  simp only [Option.bind_eq_bind, Option.bind_some] at hw
  rcases (show (1 + ⌈kaiserOrder a / t⌉).toNat = 0 ∨ (1 + ⌈kaiserOrder a / t⌉).toNat = 1 by omega) with h | h
  · rw [h] at hw
    simp only [kaiser] at hw
    simpa [loop] using hw.symm
  · rw [h, C50_kaiser_one_violation] at hw
    cases hw

/-- 60 dB and a tenth of a radian: 229 values. -/
example : ∃ w, byTransitionWidth 60 (1 / 10) = some w ∧ w.length = 229 := by
  have o1 : kaiserOrder 60 = (60 - 7.95) / 2.285 := by unfold kaiserOrder; rw [if_pos (by norm_num)]
  obtain ⟨w, h1, h2, h3, h4, -⟩ := C130_window 60 (1 / 10) (by norm_num) (by rw [o1]; norm_num)
  refine ⟨w, h1, ?_⟩
  rw [o1] at h3 h4
  have l2 : (w.length : ℝ) < 230 := by norm_num at h3 h4; linarith
  have l3 : (228 : ℝ) < w.length := by norm_num at h3 h4; linarith
  have l2' : w.length < 230 := by exact_mod_cast l2
  have l3' : 228 < w.length := by exact_mod_cast l3
  omega

/-- 60 and 60.1 dB with a width of 10 give windows of the same length, 4, the one for 60.1 dB below the other. -/
example : ∃ w w', byTransitionWidth 60 10 = some w ∧ byTransitionWidth 60.1 10 = some w' ∧ w.length = w'.length := by
  have o1 : kaiserOrder 60 = (60 - 7.95) / 2.285 := by unfold kaiserOrder; rw [if_pos (by norm_num)]
  have o2 : kaiserOrder 60.1 = (60.1 - 7.95) / 2.285 := by unfold kaiserOrder; rw [if_pos (by norm_num)]
  obtain ⟨w, h1, h2, h3, h4, -⟩ := C130_window 60 10 (by norm_num) (by rw [o1]; norm_num)
  obtain ⟨w', h1', h2', h3', h4', -⟩ := C130_window 60.1 10 (by norm_num) (by rw [o2]; norm_num)
  refine ⟨w, w', h1, h1', ?_⟩
  rw [o1] at h3 h4
  rw [o2] at h3' h4'
  have l1 : (3 : ℝ) < w.length := by norm_num at h3 h4; linarith
  have l2 : (w.length : ℝ) < 5 := by norm_num at h3 h4; linarith
  have l3 : (3 : ℝ) < w'.length := by norm_num at h3' h4'; linarith
  have l4 : (w'.length : ℝ) < 5 := by norm_num at h3' h4'; linarith
  have l1' : 3 < w.length := by exact_mod_cast l1
  have l2' : w.length < 5 := by exact_mod_cast l2
  have l3' : 3 < w'.length := by exact_mod_cast l3
  have l4' : w'.length < 5 := by exact_mod_cast l4
  omega

end QM.Window
