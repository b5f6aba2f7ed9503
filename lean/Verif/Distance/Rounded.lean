import Verif.Distance.Props
import Verif.Common.Nearest
import Verif.Common.DoubleSum

/-!
# The cosine distance in double precision

Every operation is followed by a rounding `fl`; `sqrt` is the correctly rounded one of IEEE 754.
-/

namespace QM.Distance

open QM.Double

/-- `CosineDistance::distance` in double precision, maths/CosineDistance.cpp:24-48; `1e-20` is itself rounded, line 28. -/
noncomputable def cosineD (fl : ℝ → ℝ) (v1 v2 : List ℝ) : Option ℝ :=
  if v1.length ≠ v2.length then some 1
  else do
    let s ← loop v1.length (fun i (s : ℝ × ℝ × ℝ) => do
      let a ← v1[i]?
      let b ← v2[i]?
      pure (fl (s.1 + fl (a * b)), fl (s.2.1 + fl (a * a)), fl (s.2.2 + fl (b * b)))) (0, 0, 0)
    let denTot := fl (fl (Real.sqrt |fl (s.2.1 * s.2.2)|) + fl small)
    pure (fl (1 - fl (s.1 / denTot)))

/-- The inner product, each product and each partial sum rounded. -/
noncomputable def dotD (fl : ℝ → ℝ) (v w : List ℝ) : ℝ := flSum fl (fun k => fl (v.getD k 0 * w.getD k 0)) v.length

theorem loop_flSum3 (fl : ℝ → ℝ) (n : Nat) (f : Nat → ℝ × ℝ × ℝ → Option (ℝ × ℝ × ℝ)) (g1 g2 g3 : Nat → ℝ)
    (hf : ∀ i s, i < n → f i s = some (fl (s.1 + g1 i), fl (s.2.1 + g2 i), fl (s.2.2 + g3 i))) :
    loop n f (0, 0, 0) = some (flSum fl g1 n, flSum fl g2 n, flSum fl g3 n) := by
  induction n with
  | zero => simp [loop, flSum]
  | succ n ih =>
    rw [loop, ih (fun i acc hi => hf i acc (by omega))]
    simp only [Option.bind_some]
    rw [hf n _ (by omega)]
    rfl

theorem cosineD_eq (fl : ℝ → ℝ) (v w : List ℝ) (h : v.length = w.length) :
    cosineD fl v w = some (fl (1 - fl (dotD fl v w / fl (fl (Real.sqrt |fl (dotD fl v v * dotD fl w w)|) + fl small)))) := by
  unfold cosineD
  rw [if_neg (by simp [h])]
  rw [loop_flSum3 fl v.length _ (fun i => fl (v.getD i 0 * w.getD i 0)) (fun i => fl (v.getD i 0 * v.getD i 0))
    (fun i => fl (w.getD i 0 * w.getD i 0))
    (by
      intro i s hi
      rw [get_getD v i 0 hi, get_getD w i 0 (by omega)]
      rfl)]
  have e : flSum fl (fun i => fl (w.getD i 0 * w.getD i 0)) v.length = dotD fl w w := by unfold dotD; rw [h]
  simp only [Option.bind_eq_bind, Option.bind_some, e]
  rfl

theorem dotD_comm (fl : ℝ → ℝ) (v w : List ℝ) (h : v.length = w.length) : dotD fl v w = dotD fl w v := by
  unfold dotD
  rw [h]
  congr 1
  funext k
  rw [mul_comm]

/-! ## Doubles next to each other -/

/-- A double that is at least `2 ^ -1022` has a mantissa of exactly 53 bits. -/
theorem normalise {d : ℝ} (h : IsDbl d) (hd : (2 : ℝ) ^ (-1022 : ℤ) ≤ d) :
    ∃ m e : ℤ, 2 ^ 52 ≤ m ∧ m < 2 ^ 53 ∧ -1074 ≤ e ∧ d = m * (2 : ℝ) ^ e := by
  obtain ⟨m, e, hm, he, rfl⟩ := h
  have hp : (0 : ℝ) < 2 ^ e := by positivity
  have hd0 : (0 : ℝ) < m * 2 ^ e := lt_of_lt_of_le (by positivity) hd
  have hm0 : (0 : ℝ) < m := pos_of_mul_pos_left hd0 hp.le
  have hm1 : 0 < m := by exact_mod_cast hm0
  obtain ⟨n, rfl⟩ := Int.eq_ofNat_of_zero_le hm1.le
  have hn0 : n ≠ 0 := by omega
  rw [abs_of_nonneg (by omega)] at hm
  have hn : n < 2 ^ 53 := by exact_mod_cast hm
  set k := Nat.log 2 n with hk
  have k1 : 2 ^ k ≤ n := Nat.pow_log_le_self 2 hn0
  have k2 : n < 2 ^ (k + 1) := Nat.lt_pow_succ_log_self (by norm_num) n
  have k3 : k ≤ 52 := by
    by_contra hc
    have : 2 ^ 53 ≤ 2 ^ k := Nat.pow_le_pow_right (by norm_num) (by omega)
    omega
  obtain ⟨j, hj⟩ : ∃ j, 52 = k + j := ⟨52 - k, by omega⟩
  refine ⟨(n * 2 ^ j : ℕ), e - j, ?_, ?_, ?_, ?_⟩
  · have : 2 ^ 52 ≤ n * 2 ^ j := by
      rw [hj, pow_add]
      exact Nat.mul_le_mul_right _ k1
    exact_mod_cast this
  · have : n * 2 ^ j < 2 ^ 53 := by
      have : 2 ^ 53 = 2 ^ (k + 1) * 2 ^ j := by rw [← pow_add]; congr 1; omega
      rw [this]
      exact Nat.mul_lt_mul_of_pos_right k2 (by positivity)
    exact_mod_cast this
  · have h1 : (2 : ℝ) ^ (-1022 : ℤ) < 2 ^ ((k + 1 : ℕ) + e : ℤ) := by
      refine hd.trans_lt ?_
      rw [zpow_add₀ (by norm_num), zpow_natCast]
      refine mul_lt_mul_of_pos_right ?_ hp
      push_cast
      exact_mod_cast k2
    have h2 := (zpow_lt_zpow_iff_right₀ (by norm_num : (1 : ℝ) < 2)).mp h1
    push_cast at h2
    omega
  · push_cast
    rw [sub_eq_add_neg, zpow_add₀ (by norm_num), zpow_neg, zpow_natCast]
    field_simp

/-- A double in the half open interval between two neighbours is the lower one. -/
theorem eq_of_between {m e : ℤ} (hm : 2 ^ 52 ≤ m) {y : ℝ} (hy : IsDbl y) (h1 : m * (2 : ℝ) ^ e ≤ y) (h2 : y < (m + 1) * (2 : ℝ) ^ e) :
    y = m * (2 : ℝ) ^ e := by
  obtain ⟨m', e', hm', _, rfl⟩ := hy
  by_cases he : e ≤ e'
  · obtain ⟨k, rfl⟩ := Int.le.dest he
    rw [zpow_add₀ (by norm_num)] at h1 h2 ⊢
    have hp : (0 : ℝ) < 2 ^ e := by positivity
    rw [show (m' : ℝ) * (2 ^ e * 2 ^ (k : ℤ)) = ((m' * 2 ^ k : ℤ) : ℝ) * 2 ^ e by push_cast; rw [zpow_natCast]; ring] at h1 h2 ⊢
    have a1 : (m : ℝ) ≤ ((m' * 2 ^ k : ℤ) : ℝ) := le_of_mul_le_mul_right h1 hp
    have a2 : ((m' * 2 ^ k : ℤ) : ℝ) < ((m + 1 : ℤ) : ℝ) := by push_cast at h2 ⊢; exact lt_of_mul_lt_mul_right h2 hp.le
    have b1 : m ≤ m' * 2 ^ k := by exact_mod_cast a1
    have b2 : m' * 2 ^ k < m + 1 := by exact_mod_cast a2
    rw [show m' * 2 ^ k = m by omega]
  · exfalso
    have hp : (0 : ℝ) < 2 ^ e' := by positivity
    have h3 : (2 : ℝ) ^ e' * 2 ≤ 2 ^ e := by
      rw [← zpow_add_one₀ (by norm_num)]
      exact zpow_le_zpow_right₀ (by norm_num) (by omega)
    have h4 : (m' : ℝ) < 2 ^ 53 := by exact_mod_cast (le_abs_self m').trans_lt hm'
    have h5 : (2 : ℝ) ^ 52 ≤ m := by exact_mod_cast hm
    nlinarith

/-- What is nearer to a double than half the distance to the next one is rounded to it. -/
theorem fl_above {fl : ℝ → ℝ} (hfl : Nearest fl) {m e : ℤ} (hm : 2 ^ 52 ≤ m) (hm' : m < 2 ^ 53) (he : -1074 ≤ e) {x : ℝ}
    (h1 : m * (2 : ℝ) ^ e ≤ x) (h2 : x < m * (2 : ℝ) ^ e + 2 ^ e / 2) : fl x = m * (2 : ℝ) ^ e := by
  have hd : IsDbl (m * (2 : ℝ) ^ e) := ⟨m, e, by rw [abs_of_nonneg (by omega)]; exact hm', he, rfl⟩
  refine eq_of_between hm (hfl.dbl x) (hfl.ge hd h1) ?_
  have hn := hfl.near x _ hd
  have ha := abs_of_nonpos (show m * (2 : ℝ) ^ e - x ≤ 0 by linarith)
  rw [ha] at hn
  have := le_abs_self (fl x - x)
  have hp : (0 : ℝ) < 2 ^ e := by positivity
  rw [add_mul, one_mul]
  linarith

theorem fl_below {fl : ℝ → ℝ} (hfl : Nearest fl) {m e : ℤ} (hm : 2 ^ 52 < m) (hm' : m < 2 ^ 53) (he : -1074 ≤ e) {x : ℝ}
    (h1 : x ≤ m * (2 : ℝ) ^ e) (h2 : m * (2 : ℝ) ^ e - 2 ^ e / 2 < x) : fl x = m * (2 : ℝ) ^ e := by
  have hd : IsDbl (m * (2 : ℝ) ^ e) := ⟨m, e, by rw [abs_of_nonneg (by omega)]; exact hm', he, rfl⟩
  have h3 := hfl.le hd h1
  rcases h3.lt_or_eq with h4 | h4
  · exfalso
    have hn := hfl.near x _ hd
    have ha := abs_of_nonneg (show 0 ≤ m * (2 : ℝ) ^ e - x by linarith)
    rw [ha] at hn
    have := neg_abs_le (fl x - x)
    have hp : (0 : ℝ) < 2 ^ e := by positivity
    have hb := eq_of_between (m := m - 1) (e := e) (by omega) (hfl.dbl x) (by push_cast; rw [sub_mul, one_mul]; linarith) (by push_cast; linarith)
    push_cast at hb
    rw [sub_mul, one_mul] at hb
    linarith
  · exact h4

/-- The exponent of a double of at least `2 ^ -13`. -/
theorem expo {m e : ℤ} (hm' : m < 2 ^ 53) (h : (2 : ℝ) ^ (-13 : ℤ) ≤ m * (2 : ℝ) ^ e) : -65 ≤ e := by
  by_contra hc
  have h1 : (2 : ℝ) ^ e ≤ 2 ^ (-66 : ℤ) := zpow_le_zpow_right₀ (by norm_num) (by omega)
  have h2 : (m : ℝ) < 2 ^ 53 := by exact_mod_cast hm'
  have hp : (0 : ℝ) < 2 ^ e := by positivity
  have h3 : m * (2 : ℝ) ^ e < 2 ^ 53 * 2 ^ (-66 : ℤ) := (mul_lt_mul_of_pos_right h2 hp).trans_le (mul_le_mul_of_nonneg_left h1 (by norm_num))
  norm_num at h h3
  linarith

theorem low13 : (2 : ℝ) ^ (-1022 : ℤ) ≤ 2 ^ (-13 : ℤ) := zpow_le_zpow_right₀ (by norm_num) (by norm_num)

/-- The square root of the rounded square of a double is that double. -/
theorem sqrt_sq {fl : ℝ → ℝ} (hfl : Nearest fl) {d : ℝ} (h : IsDbl d) (h1 : (2 : ℝ) ^ (-13 : ℤ) ≤ d) (h2 : d ≤ 2 ^ 510) :
    fl (Real.sqrt |fl (d * d)|) = d := by
  have hd0 : 0 < d := lt_of_lt_of_le (by positivity) h1
  obtain ⟨m, e, hm, hm', he, rfl⟩ := normalise h (low13.trans h1)
  have he' := expo hm' h1
  rcases hm.lt_or_eq with hm1 | hm1
  · set g : ℝ := (2 : ℝ) ^ e with hg
    have hp : 0 < g := by positivity
    have hg1 : (2 : ℝ) ^ (-65 : ℤ) ≤ g := zpow_le_zpow_right₀ (by norm_num) he'
    have hg2 : (1 : ℝ) / 2 ^ 1075 ≤ g ^ 2 / 8 := by
      have a1 : (1 : ℝ) / 2 ^ 1075 ≤ 1 / 2 ^ 150 := one_div_le_one_div_of_le (by positivity) (pow_le_pow_right₀ (by norm_num) (by norm_num))
      have a2 : ((2 : ℝ) ^ (-65 : ℤ)) ^ 2 ≤ g ^ 2 := pow_le_pow_left₀ (by positivity) hg1 2
      have a3 : (1 : ℝ) / 2 ^ 150 ≤ ((2 : ℝ) ^ (-65 : ℤ)) ^ 2 / 8 := by norm_num
      exact a1.trans (a3.trans (div_le_div_of_nonneg_right a2 (by norm_num)))
    have hdd : (m * g) * (m * g) ≤ 2 ^ 1023 := by
      calc (m * g) * (m * g) ≤ 2 ^ 510 * 2 ^ 510 := mul_le_mul h2 h2 hd0.le (by positivity)
        _ = 2 ^ 1020 := by rw [← pow_add]
        _ ≤ 2 ^ 1023 := pow_le_pow_right₀ (by norm_num) (by norm_num)
    have hr := hfl.rounds (m * g * (m * g)) (by rw [abs_of_nonneg (mul_self_nonneg _)]; exact hdd)
    rw [abs_of_nonneg (mul_self_nonneg (m * g))] at hr
    have hmr : (m : ℝ) ≤ 2 ^ 53 - 1 := by
      have : m ≤ 2 ^ 53 - 1 := by omega
      exact_mod_cast this
    have hmr1 : (2 : ℝ) ^ 52 ≤ m := by exact_mod_cast hm
    have hmm : m * g * (m * g) / 2 ^ 53 ≤ (m - 1 / 2) * g ^ 2 := by
      rw [div_le_iff₀ (by positivity), show m * g * (m * g) = (m * m : ℝ) * g ^ 2 by ring,
        show (m - 1 / 2) * g ^ 2 * 2 ^ 53 = ((m - 1 / 2) * 2 ^ 53) * g ^ 2 by ring]
      refine mul_le_mul_of_nonneg_right ?_ (by positivity)
      nlinarith
    have hq := abs_le.mp (hr.trans (add_le_add hmm hg2))
    set q := fl (m * g * (m * g)) with hqd
    have hg3 : 0 < g ^ 2 := by positivity
    have hq0 : 0 < q := by nlinarith [hq.1]
    rw [abs_of_pos hq0]
    rcases le_total (m * g) (Real.sqrt q) with h3 | h3
    · refine fl_above hfl hm hm' he h3 ?_
      rw [Real.sqrt_lt' (by positivity)]
      nlinarith [hq.2]
    · refine fl_below hfl hm1 hm' he h3 ?_
      rw [← hg]
      refine Real.lt_sqrt_of_sq_lt ?_
      nlinarith [hq.1]
  · have hx : IsDbl (m * (2 : ℝ) ^ e * (m * (2 : ℝ) ^ e)) := by
      refine ⟨2 ^ 52, 52 + e + e, by norm_num, by omega, ?_⟩
      rw [← hm1, zpow_add₀ (by norm_num), zpow_add₀ (by norm_num)]
      norm_num
      ring
    rw [hfl.exact hx, abs_of_nonneg (mul_self_nonneg _), Real.sqrt_mul_self hd0.le, hfl.exact h]

/-- Adding `1e-20` to a double of at least `2 ^ -13` does not change it. -/
theorem add_small {fl : ℝ → ℝ} (hfl : Nearest fl) {d : ℝ} (h : IsDbl d) (h1 : (2 : ℝ) ^ (-13 : ℤ) ≤ d) : fl (d + fl small) = d := by
  obtain ⟨m, e, hm, hm', he, rfl⟩ := normalise h (low13.trans h1)
  have he' := expo hm' h1
  have hz : IsDbl 0 := ⟨0, 0, by norm_num, by norm_num, by simp⟩
  have hs0 : 0 ≤ fl small := hfl.ge hz small_pos.le
  have hs1 := hfl.rounds small (by
    rw [abs_of_pos small_pos]
    refine le_trans ?_ (one_le_pow₀ (by norm_num))
    unfold small; norm_num)
  rw [abs_of_pos small_pos] at hs1
  have hs2 := (abs_le.mp hs1).2
  have a1 : (1 : ℝ) / 2 ^ 1075 ≤ 1 / 2 ^ 150 := one_div_le_one_div_of_le (by positivity) (pow_le_pow_right₀ (by norm_num) (by norm_num))
  have hs3 : fl small < 2 ^ (-66 : ℤ) := by
    have : small + (small / 2 ^ 53 + 1 / 2 ^ 150) < 2 ^ (-66 : ℤ) := by unfold small; norm_num
    calc fl small ≤ small + (small / 2 ^ 53 + 1 / 2 ^ 1075) := sub_le_iff_le_add'.mp hs2
      _ ≤ small + (small / 2 ^ 53 + 1 / 2 ^ 150) := add_le_add_right (add_le_add_right a1 _) _
      _ < _ := this
  clear hs1 hs2 a1
  refine fl_above hfl hm hm' he (by linarith) ?_
  have hg1 : (2 : ℝ) ^ (-65 : ℤ) ≤ 2 ^ e := zpow_le_zpow_right₀ (by norm_num) he'
  have h3 : (2 : ℝ) ^ (-65 : ℤ) / 2 = 2 ^ (-66 : ℤ) := by norm_num
  have h4 : (2 : ℝ) ^ (-66 : ℤ) ≤ 2 ^ e / 2 := h3 ▸ div_le_div_of_nonneg_right hg1 (by norm_num)
  exact add_lt_add_right (hs3.trans_le h4) _

end QM.Distance
