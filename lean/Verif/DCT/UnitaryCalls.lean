import Verif.DCT.UnitaryLemmas

/-!
# One call of a unitary cosine transform in double precision
-/

namespace QM.DCT

open QM.FFT QM.DFT QM.Kiss QM.Double Finset

variable {fl cosF sinF : ℝ → ℝ}

/-- An object between two calls. -/
structure NearU (fl cosF sinF : ℝ → ℝ) (d : T) (n : Nat) (ρ : ℝ) : Prop where
  near : Near fl cosF sinF d n ρ
  scale : d.scale = fl (n * fl (Real.sqrt (fl (2 / n))))
  scaled : d.scaled.length = n

theorem makeF_keeps {n : Nat} {u : ℂ} {d : T} (h : makeF fl cosF sinF n u = some d) : d.scale = fl (n * fl (Real.sqrt (fl (2 / n)))) ∧ d.scaled.length = n := by
  simp only [makeF, Option.bind_eq_bind, Option.bind_eq_some_iff, Option.pure_def, Option.some.injEq] at h
  obtain ⟨_, _, rfl⟩ := h
  simp

theorem forwardF_keeps {d d' : T} {inp out out' : List ℝ} (h : forwardF fl d inp out = some (d', out')) : d'.scale = d.scale ∧ d'.scaled = d.scaled := by
  simp only [forwardF, Option.bind_eq_bind, Option.bind_eq_some_iff, Option.pure_def, Option.some.injEq, Prod.mk.injEq] at h
  obtain ⟨_, _, _, _, _, _, rfl, _⟩ := h
  exact ⟨rfl, rfl⟩

theorem inverseF_keeps {d d' : T} {inp out out' : List ℝ} (h : inverseF fl d inp out = some (d', out')) : d'.scale = d.scale ∧ d'.scaled = d.scaled := by
  simp only [inverseF, Option.bind_eq_bind, Option.bind_eq_some_iff, Option.pure_def, Option.some.injEq, Prod.mk.injEq] at h
  obtain ⟨_, _, _, _, _, _, _, _, _, _, _, _, rfl, _⟩ := h
  exact ⟨rfl, rfl⟩

theorem scale_facts {n : Nat} (h1 : 1 ≤ n) : 1 ≤ (n : ℝ) * Real.sqrt (2 / n) ∧ (n : ℝ) * Real.sqrt (2 / n) ≤ 2 * n ∧
    Real.sqrt (2 / n) * (n * Real.sqrt (2 / n)) = 2 := by
  have hn : (1 : ℝ) ≤ n := by exact_mod_cast h1
  have hn0 : (0 : ℝ) < n := by linarith
  have hb0 : 0 ≤ Real.sqrt (2 / (n : ℝ)) := Real.sqrt_nonneg _
  have hbb : Real.sqrt (2 / (n : ℝ)) * Real.sqrt (2 / n) = 2 / n := Real.mul_self_sqrt (by positivity)
  have e : Real.sqrt (2 / n) * (n * Real.sqrt (2 / n)) = 2 := by
    rw [show Real.sqrt (2 / n) * (n * Real.sqrt (2 / n)) = n * (Real.sqrt (2 / n) * Real.sqrt (2 / n)) by ring, hbb]; field_simp
  have hb2 : Real.sqrt (2 / (n : ℝ)) ≤ 2 := by
    refine Real.sqrt_le_iff.mpr ⟨by norm_num, ?_⟩
    rw [div_le_iff₀ hn0]; linarith
  refine ⟨?_, by nlinarith, e⟩
  have : Real.sqrt (2 / n) * (n * Real.sqrt (2 / n)) ≤ 2 * (n * Real.sqrt (2 / n)) := mul_le_mul_of_nonneg_right hb2 (by positivity)
  linarith

variable (hfl : Rounds fl) (hlib : Libm cosF sinF)

include hfl in
theorem factors_near {n : Nat} (h1 : 1 ≤ n) (h2 : 4 * n ≤ 2147483647) :
    |fl (n * fl (Real.sqrt (fl (2 / n)))) - n * Real.sqrt (2 / n)| ≤ 4 * (1 / 2 ^ 53) * (n * Real.sqrt (2 / n)) ∧
    |fl (Real.sqrt 2) - Real.sqrt 2| ≤ 4 * (1 / 2 ^ 53) * Real.sqrt 2 := by
  obtain ⟨M, u, τ, hu, hτ, hM, u0, u1, t0, t1, nt, nM, PM⟩ := setting h1 h2
  have hr := rounds_rel hfl
  have hn : (1 : ℝ) ≤ n := by exact_mod_cast h1
  rw [← hu]
  rw [← hu, ← hτ, ← hM] at hr
  clear PM hM hτ hu
  exact ⟨scale_near hr u0 u1 hn nt nM, sqrt2_near hr u0 t1 (by linarith)⟩

include hfl hlib in
theorem radix_pos {n : Nat} (h1 : 1 ≤ n) (h2 : 4 * n ≤ 2147483647) : (1 : ℝ) / 2 ^ 53 ≤ (radixSum (2 * n) : ℝ) / 2 ^ 53 := by
  obtain ⟨st, p1, _⟩ := allocF_ok hfl hlib (2 * n) false (by omega) (by omega)
  obtain ⟨_, _, _, _, q5, _⟩ := allocF_facts (2 * n) false hfl hlib (by omega) (by omega) st p1
  exact div_le_div_of_nonneg_right (by exact_mod_cast q5) (by positivity)

include hfl hlib in
theorem forwardUnitaryF_ok {n : Nat} (h1 : 1 ≤ n) (h2 : 4 * n ≤ 2147483647) {B : ℝ} (hB0 : 0 ≤ B) (hB : B ≤ 2 ^ 980) {d : T} (hd : NearU fl cosF sinF d n (rest n B))
    (inp out : List ℝ) (hi : n ≤ inp.length) (ho : n ≤ out.length) (hS : size1 n inp ≤ 2 ^ 980) :
    ∃ d' out', forwardUnitaryF fl d inp out = some (d', out') ∧ NearU fl cosF sinF d' n (rest n B) ∧ out'.length = out.length ∧
      (∀ k, k < n → |out'.getD k 0 - dctU n (fun j => inp.getD j 0) k| ≤
        Real.sqrt (2 / n) * (1820 * ((radixSum (2 * n) : ℝ) / 2 ^ 53) * (size1 n inp + 2 * n * (1 / 2 ^ 1022)) +
          1325 * ((radixSum (2 * n) : ℝ) / 2 ^ 53) * (B + n * (1 / 2 ^ 1022)))) ∧
      (∀ k, n ≤ k → out'[k]? = out[k]?) := by
  obtain ⟨d', o, a1, a2, a3, a4, a5⟩ := near_forward hfl hlib h1 h2 hB0 hB hd.near inp out hi ho hS
  obtain ⟨o2, b1, b2, b3, b4⟩ := fill_ok n (fun i o => do
      let v ← o[i]?
      wr o i (fl (v / d.scale))) (fun k => fl (o.getD k 0 / d.scale)) o (by omega)
    (by
      intro i b hin hl hle _
      have hv : b[i]? = some (o.getD i 0) := by rw [hle i (le_refl _)]; simp [List.getElem?_eq_getElem (show i < o.length by omega)]
      simp only [hv, Option.bind_eq_bind, Option.bind_some]
      rw [wr_some _ (by omega)])
  obtain ⟨s1, s2, s3⟩ := sqrt_two_div h1
  obtain ⟨g1, g2, g3⟩ := scale_facts h1
  obtain ⟨f1, f2⟩ := factors_near hfl h1 h2
  have hR := radix_pos hfl hlib h1 h2
  obtain ⟨r1, r2⟩ := radix_small hfl hlib h1 h2
  obtain ⟨k1, k2⟩ := forwardF_keeps a1
  refine ⟨d', o2.set 0 (fl (fl (o.getD 0 0 / d.scale) / fl (Real.sqrt 2))), ?_, ⟨a2, k1.trans hd.scale, by rw [k2, hd.scaled]⟩, by simp; omega, ?_, ?_⟩
  · unfold forwardUnitaryF
    simp only [Option.bind_eq_bind] at b1
    simp only [a1, hd.near.size, Option.bind_eq_bind, Option.bind_some]
    rw [b1]
    simp only [Option.bind_some, b3 0 (by omega)]
    rw [wr_some _ (by omega)]
    rfl
  · intro k hk
    obtain ⟨M, u, τ, hu, hτ, hM, u0, u1, t0, t1, nt, nM, PM⟩ := setting h1 h2
    have hr := rounds_rel hfl
    have hX := dct2_le n inp k
    have hv := a4 k hk
    have hS0 := size1_nonneg n inp
    rw [← hτ] at hv ⊢
    rw [← hu, ← hτ, ← hM] at hr
    rw [← hu] at f1 f2 hR
    rw [hd.scale]
    obtain ⟨-, P2, P3⟩ := powers
    rw [P2] at PM
    have hn : (1 : ℝ) ≤ n := by exact_mod_cast h1
    have hb0 : 0 ≤ Real.sqrt (2 / (n : ℝ)) := Real.sqrt_nonneg _
    clear P2 hM hτ hu
    generalize (radixSum (2 * n) : ℝ) / 2 ^ 53 = w at *
    generalize (2 : ℝ) ^ 980 = P at *
    clear a4
    generalize size1 n inp = S at *
    obtain ⟨X, eX⟩ : ∃ X, X = dct2 n (fun j => inp.getD j 0) k := ⟨_, rfl⟩
    rw [← eX] at hX hv
    obtain ⟨D, eD⟩ : ∃ D, D = 3600 * w * (S + 2 * n * τ) + 2640 * w * (B + n * τ) := ⟨_, rfl⟩
    rw [← eD] at hv
    have q1 : 0 ≤ w * (S + 2 * n * τ) := by positivity
    have q2 : 0 ≤ w * (B + n * τ) := by positivity
    have q3 : 256000 * w * (S + 2 * n * τ) ≤ 1 * (S + 2 * n * τ) := mul_le_mul_of_nonneg_right r2 (by positivity)
    have q4 : 256000 * w * (B + n * τ) ≤ 1 * (B + n * τ) := mul_le_mul_of_nonneg_right r2 (by positivity)
    have hD0 : 0 ≤ D := by rw [eD]; linarith
    have fin := forward_near hr u0 u1 t0 g1 f1 f2 hv hX (by linarith)
    have hcalc : (D + 30 * u * (S + D)) / (n * Real.sqrt (2 / n)) + 3 * (u * τ) ≤
        Real.sqrt (2 / n) * (1820 * w * (S + 2 * n * τ) + 1325 * w * (B + n * τ)) := by
      obtain ⟨s, es⟩ : ∃ s, s = (n : ℝ) * Real.sqrt (2 / n) := ⟨_, rfl⟩
      obtain ⟨b, eb⟩ : ∃ b, b = Real.sqrt (2 / (n : ℝ)) := ⟨_, rfl⟩
      rw [← es] at g1 g2 g3 ⊢
      rw [← eb] at g3 hb0 ⊢
      clear f1 f2 fin s1 s2 s3 es
      have e1 : (D + 30 * u * (S + D)) / s = b / 2 * (D + 30 * u * (S + D)) := by
        rw [div_eq_iff (by linarith)]
        linear_combination (-(D + 30 * u * (S + D)) / 2) * g3
      have e2 : 3 * (u * τ) = b / 2 * (3 * (u * τ) * s) := by linear_combination (-3 / 2 * (u * τ)) * g3
      rw [e1, e2, ← mul_add, show b * (1820 * w * (S + 2 * n * τ) + 1325 * w * (B + n * τ)) = b / 2 * (3640 * w * (S + 2 * n * τ) + 2650 * w * (B + n * τ)) by ring]
      refine mul_le_mul_of_nonneg_left ?_ (by linarith)
      have m1 : u * D ≤ 1 / 256000 * D := mul_le_mul_of_nonneg_right (by linarith) hD0
      have m2 : u * S ≤ w * S := mul_le_mul_of_nonneg_right hR hS0
      have m3 : (u * τ) * s ≤ (w * τ) * (2 * n) := mul_le_mul (mul_le_mul_of_nonneg_right hR t0) g2 (by linarith) (by positivity)
      have m4 : 0 ≤ w * S := by positivity
      have m5 : 0 ≤ w * (n * τ) := by positivity
      rw [eD] at m1 ⊢
      linarith
    rw [dctU_eq, rowScale, ← eX]
    by_cases e : k = 0
    · subst e
      rw [if_pos rfl, ← s3, List.getD, List.getElem?_set_self (by omega), Option.getD_some]
      have e3 : Real.sqrt (2 / (n : ℝ)) / Real.sqrt 2 * X = 2 * X / (n * Real.sqrt (2 / n)) / Real.sqrt 2 := by
        conv_lhs => rw [← s2]
        ring
      rw [e3]
      exact fin.2.trans hcalc
    · rw [if_neg e, List.getD, List.getElem?_set_ne (by omega), b3 k hk, Option.getD_some, hd.scale]
      have e3 : Real.sqrt (2 / (n : ℝ)) * X = 2 * X / (n * Real.sqrt (2 / n)) := by
        conv_lhs => rw [← s2]
        ring
      rw [e3]
      exact fin.1.trans hcalc
  · intro k hk
    rw [List.getElem?_set_ne (by omega), b4 k hk, a5 k hk]

theorem dct3_sub_sum {n : Nat} (h1 : 1 ≤ n) (x y : Nat → ℝ) (m : Nat) : |dct3 n x m - dct3 n y m| ≤ ∑ k ∈ range n, |x k - y k| := by
  have e : dct3 n x m - dct3 n y m = (x 0 - y 0) / 2 + ∑ k ∈ Ico 1 n, (x k - y k) * ker n k m := by
    unfold dct3
    rw [sum_congr rfl fun k _ => sub_mul (x k) (y k) (ker n k m), sum_sub_distrib]
    ring
  rw [e, range_eq_Ico, sum_eq_sum_Ico_succ_bot (show 0 < n by omega)]
  refine (abs_add_le _ _).trans (add_le_add ?_ ((abs_sum_le_sum_abs _ _).trans (sum_le_sum fun k _ => ?_)))
  · rw [abs_div, abs_of_pos (show (0 : ℝ) < 2 by norm_num)]
    linarith [abs_nonneg (x 0 - y 0)]
  · rw [abs_mul]
    exact mul_le_of_le_one_right (abs_nonneg _) (Real.abs_cos_le_one _)

/-- The exact scaling of `inverseUnitary`. -/
noncomputable def scaledBy (n : Nat) (y : Nat → ℝ) (k : Nat) : ℝ := if k = 0 then y k * (n * Real.sqrt (2 / n)) * Real.sqrt 2 else y k * (n * Real.sqrt (2 / n))

theorem dct3_scaledBy {n : Nat} (h1 : 1 ≤ n) (y : Nat → ℝ) (m : Nat) : dct3 n (scaledBy n y) m / n = ∑ k ∈ range n, y k * (rowScale n k * ker n k m) := by
  have hn : (0 : ℝ) < n := by exact_mod_cast h1
  obtain ⟨s1, s2, s3⟩ := sqrt_two_div h1
  have h22 : Real.sqrt 2 * Real.sqrt 2 = 2 := Real.mul_self_sqrt (by norm_num)
  have hr2 : Real.sqrt 2 ≠ 0 := by positivity
  rw [dct3, range_eq_Ico, sum_eq_sum_Ico_succ_bot (show 0 < n by omega), add_div, sum_div]
  congr 1
  · rw [scaledBy, if_pos rfl, ker_zero, rowScale, if_pos rfl, ← s3]
    have h3 : Real.sqrt 2 / 2 = 1 / Real.sqrt 2 := by
      rw [div_eq_div_iff (by norm_num) hr2, h22]; norm_num
    rw [show y 0 * ((n : ℝ) * Real.sqrt (2 / n)) * Real.sqrt 2 / 2 / n = y 0 * Real.sqrt (2 / n) * (Real.sqrt 2 / 2) by field_simp, h3]
    ring
  · refine sum_congr rfl fun k hk => ?_
    rw [mem_Ico] at hk
    rw [scaledBy, if_neg (by omega), rowScale, if_neg (by omega)]
    field_simp

include hfl hlib in
theorem inverseUnitaryF_ok {n : Nat} (h1 : 1 ≤ n) (h2 : 4 * n ≤ 2147483647) {B : ℝ} (hB : B ≤ 2 ^ 980) {d : T} (hd : NearU fl cosF sinF d n (rest n B))
    (inp out : List ℝ) (hi : n ≤ inp.length) (ho : n ≤ out.length) (hS : 2 * (n * Real.sqrt (2 / n)) * size1 n inp + n * (1 / 2 ^ 1022) ≤ B) :
    ∃ d' out', inverseUnitaryF fl d inp out = some (d', out') ∧ NearU fl cosF sinF d' n (rest n B) ∧ out'.length = out.length ∧
      (∀ m, m < n → |out'.getD m 0 - ∑ k ∈ range n, inp.getD k 0 * (rowScale n k * ker n k m)| ≤
        (radixSum (2 * n) : ℝ) / 2 ^ 53 * (2120 * (Real.sqrt (2 / n) * size1 n inp) + 2630 * (1 / 2 ^ 1022))) ∧
      (∀ m, n ≤ m → out'[m]? = out[m]?) := by
  have hn : (0 : ℝ) < n := by exact_mod_cast h1
  obtain ⟨s, a1, a2, a3, a4⟩ := fill_ok n (fun i s => do
      let v ← inp[i]?
      wr s i (fl (v * d.scale))) (fun i => fl (inp.getD i 0 * d.scale)) d.scaled (by rw [hd.scaled])
    (by
      intro i b hin hl _ _
      have hv : inp[i]? = some (inp.getD i 0) := by simp [List.getElem?_eq_getElem (show i < inp.length by omega)]
      simp only [hv, Option.bind_eq_bind, Option.bind_some]
      rw [wr_some _ (by rw [hl, hd.scaled]; exact hin)])
  rw [hd.scaled] at a2
  obtain ⟨z, hz⟩ : ∃ z, z = s.set 0 (fl (fl (inp.getD 0 0 * d.scale) * fl (Real.sqrt 2))) := ⟨_, rfl⟩
  have hl : z.length = n := by rw [hz]; simp [a2]
  have z0 : z.getD 0 0 = fl (fl (inp.getD 0 0 * d.scale) * fl (Real.sqrt 2)) := by
    rw [hz]; simp [List.getD, List.getElem?_set_self (show 0 < s.length by omega)]
  have zk : ∀ k, k < n → k ≠ 0 → z.getD k 0 = fl (inp.getD k 0 * d.scale) := by
    intro k hk hk0
    have hne : (0 : Nat) ≠ k := by omega
    rw [hz]; simp only [List.getD, List.getElem?_set_ne hne, a3 k hk, Option.getD_some]
  obtain ⟨g1, g2, g3⟩ := scale_facts h1
  obtain ⟨f1, f2⟩ := factors_near hfl h1 h2
  have hR := radix_pos hfl hlib h1 h2
  obtain ⟨r1, r2⟩ := radix_small hfl hlib h1 h2
  have hS0 := size1_nonneg n inp
  obtain ⟨M, u, τ, hu, hτ, hM, u0, u1, t0, t1, nt, nM, PM⟩ := setting h1 h2
  have hr := rounds_rel hfl
  obtain ⟨-, P2, P3⟩ := powers
  have one (k : Nat) (hk : k < n) : |inp.getD k 0| ≤ size1 n inp :=
    single_le_sum (f := fun k => |inp.getD k 0|) (fun _ _ => abs_nonneg _) (mem_range.mpr hk)
  -- the scaled values
  have err : ∀ k, k < n → |z.getD k 0 - scaledBy n (fun k => inp.getD k 0) k| ≤ 20 * u * ((n * Real.sqrt (2 / n)) * |inp.getD k 0|) + 3 * (u * τ) := by
    intro k hk
    have ok := one k hk
    rw [← hτ] at hS
    rw [← hu, ← hτ, ← hM] at hr
    rw [← hu] at f1 f2
    rw [P2] at PM
    have hsy : |inp.getD k 0 * (n * Real.sqrt (2 / n))| = (n * Real.sqrt (2 / n)) * |inp.getD k 0| := by
      rw [abs_mul, abs_of_nonneg (by linarith : 0 ≤ (n : ℝ) * Real.sqrt (2 / n)), mul_comm]
    have hle : (n * Real.sqrt (2 / n)) * |inp.getD k 0| ≤ (n * Real.sqrt (2 / n)) * size1 n inp := mul_le_mul_of_nonneg_left ok (by linarith)
    have hnτ : 0 ≤ (n : ℝ) * τ := by positivity
    have fin := inverse_near hr u0 u1 t0 (y := inp.getD k 0) (by linarith) f1 f2 (by
      rw [hsy]
      clear P2 hM hτ hu
      generalize (2 : ℝ) ^ 980 = P at *
      linarith)
    rw [hsy] at fin
    by_cases e : k = 0
    · subst e
      rw [z0, scaledBy, if_pos rfl, hd.scale]
      exact fin.2
    · rw [zk k hk e, scaledBy, if_neg e, hd.scale]
      exact fin.1
  have g22 : Real.sqrt 2 ≤ 3 / 2 := Real.sqrt_le_iff.mpr ⟨by norm_num, by norm_num⟩
  have sz : size1 n z ≤ 16 / 10 * ((n * Real.sqrt (2 / n)) * size1 n inp) + n * τ := by
    have : ∀ k ∈ range n, |z.getD k 0| ≤ 16 / 10 * ((n * Real.sqrt (2 / n)) * |inp.getD k 0|) + τ := by
      intro k hk
      have h3 := err k (mem_range.mp hk)
      have hp : 0 ≤ (n * Real.sqrt (2 / n)) * |inp.getD k 0| := mul_nonneg (by linarith) (abs_nonneg _)
      have h4 : |scaledBy n (fun k => inp.getD k 0) k| ≤ 3 / 2 * ((n * Real.sqrt (2 / n)) * |inp.getD k 0|) := by
        have e1 : |inp.getD k 0 * (n * Real.sqrt (2 / n))| = (n * Real.sqrt (2 / n)) * |inp.getD k 0| := by
          rw [abs_mul, abs_of_nonneg (by linarith : 0 ≤ (n : ℝ) * Real.sqrt (2 / n)), mul_comm]
        unfold scaledBy
        split_ifs
        · rw [abs_mul, e1, abs_of_nonneg (Real.sqrt_nonneg 2), mul_comm]
          exact mul_le_mul_of_nonneg_right g22 hp
        · rw [e1]; linarith
      have h5 : |z.getD k 0| ≤ |z.getD k 0 - scaledBy n (fun k => inp.getD k 0) k| + |scaledBy n (fun k => inp.getD k 0) k| := by
        simpa using abs_add_le (z.getD k 0 - scaledBy n (fun k => inp.getD k 0) k) (scaledBy n (fun k => inp.getD k 0) k)
      have h6 : u * ((n * Real.sqrt (2 / n)) * |inp.getD k 0|) ≤ 1 / 1000000 * ((n * Real.sqrt (2 / n)) * |inp.getD k 0|) := mul_le_mul_of_nonneg_right u1 hp
      have h7 : u * τ ≤ 1 / 1000000 * τ := mul_le_mul_of_nonneg_right u1 t0
      clear hM hτ hu hS hB P2 P3 PM hr nM f1 f2 hR r1 r2
      linarith
    refine (sum_le_sum this).trans (le_of_eq ?_)
    rw [sum_add_distrib, ← mul_sum, ← mul_sum, sum_const, card_range, nsmul_eq_mul]
    rfl
  have hsp : 0 ≤ (n * Real.sqrt (2 / n)) * size1 n inp := mul_nonneg (by linarith) hS0
  have szB : size1 n z ≤ B := by
    rw [← hτ] at hS
    clear hM hτ hu hB P2 P3 PM hr nM f1 f2 hR r1 r2
    linarith
  obtain ⟨d', o, b1, b2, b3, b4, b5⟩ := inverseF_ok hfl hlib h1 h2 (d := { d with scaled := z })
    ⟨hd.near.size, hd.near.time2, hd.near.even, hd.near.fr, hd.near.fi, hd.near.fft⟩ z out (by omega) ho (fits_inverse h2 (szB.trans hB))
  obtain ⟨k1, k2⟩ := inverseF_keeps b1
  refine ⟨d', o, ?_, ⟨b2.mono (rest_mono n szB), k1.trans hd.scale, by rw [k2, hl]⟩, b3, ?_, b5⟩
  · unfold inverseUnitaryF
    simp only [Option.bind_eq_bind] at a1
    simp only [hd.near.size, Option.bind_eq_bind]
    rw [a1]
    simp only [Option.bind_some, a3 0 (by omega)]
    rw [wr_some _ (by omega)]
    simp only [Option.bind_some]
    simp only [hd.near.size] at b1
    rw [← hz, b1]
  · intro m hm
    have c1 := b4 m hm
    have c2 : |dct3 n (fun k => z.getD k 0) m / n - ∑ k ∈ range n, inp.getD k 0 * (rowScale n k * ker n k m)| ≤
        (20 * u * ((n * Real.sqrt (2 / n)) * size1 n inp) + n * (3 * (u * τ))) / n := by
      rw [← dct3_scaledBy h1, ← sub_div, abs_div, abs_of_pos hn]
      refine div_le_div_of_nonneg_right ((dct3_sub_sum h1 _ _ m).trans ((sum_le_sum fun k hk => err k (mem_range.mp hk)).trans (le_of_eq ?_))) hn.le
      rw [sum_add_distrib, ← mul_sum, ← mul_sum, sum_const, card_range, nsmul_eq_mul]
      rfl
    have c3 : (20 * u * ((n * Real.sqrt (2 / n)) * size1 n inp) + n * (3 * (u * τ))) / n = 20 * u * (Real.sqrt (2 / n) * size1 n inp) + 3 * (u * τ) := by
      field_simp
    have c4 : size1 n z / n ≤ 16 / 10 * (Real.sqrt (2 / n) * size1 n inp) + τ := by
      rw [div_le_iff₀ hn]
      linarith
    rw [c3] at c2
    rw [mul_div_assoc] at c1
    rw [← hτ] at c1 ⊢
    rw [← hu] at hR
    have hp : 0 ≤ Real.sqrt (2 / n) * size1 n inp := mul_nonneg (Real.sqrt_nonneg _) hS0
    refine (abs_sub_le _ _ _).trans ((add_le_add c1 c2).trans ?_)
    clear hM hτ hu hS hB P2 P3 PM hr nM f1 f2 c1 c2 c3
    generalize (radixSum (2 * n) : ℝ) / 2 ^ 53 = w at *
    have m1 : w * (size1 n z / n + τ) ≤ w * (16 / 10 * (Real.sqrt (2 / n) * size1 n inp) + τ + τ) := mul_le_mul_of_nonneg_left (by linarith) r1
    have m2 : u * (Real.sqrt (2 / n) * size1 n inp) ≤ w * (Real.sqrt (2 / n) * size1 n inp) := mul_le_mul_of_nonneg_right hR hp
    have m3 : u * τ ≤ w * τ := mul_le_mul_of_nonneg_right hR t0
    have m4 : 0 ≤ w * (Real.sqrt (2 / n) * size1 n inp) := by positivity
    have m5 : 0 ≤ w * τ := by positivity
    linarith

end QM.DCT
