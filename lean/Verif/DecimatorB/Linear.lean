import Verif.DecimatorB.Stream
import Verif.DecimatorB.Certs
import Verif.Common.Perturb

/-!
# The exact stream through one stage of `DecimatorB`: the difference equation, its bound, and signals that die away
-/

namespace QM.DecimatorB

open QM.IntPoly QM.Stable Finset

/-- The coefficients as real numbers. -/
noncomputable def coefB (k : ℕ) : ℝ := ((bCoeffs.getD k 0 : ℚ) : ℝ)
/-- The coefficients as real numbers. -/
noncomputable def coefA (k : ℕ) : ℝ := ((aCoeffs.getD k 0 : ℚ) : ℝ)

theorem coef_le (p : List ℚ) (h : ∀ q ∈ p, |q| ≤ 20) (k : ℕ) : |((p.getD k 0 : ℚ) : ℝ)| ≤ 20 := by
  have : |p.getD k 0| ≤ 20 := by
    rw [List.getD_eq_getElem?_getD]
    cases hk : p[k]? with
    | none => simp
    | some q => simpa using h q (List.mem_of_getElem? hk)
  exact_mod_cast this

theorem coefs_le (k : ℕ) : |coefB k| ≤ 20 ∧ |coefA k| ≤ 20 := by
  refine ⟨coef_le _ ?_ k, coef_le _ ?_ k⟩
  · norm_num [bCoeffs, abs_le]
  · norm_num [aCoeffs, abs_le]

theorem getD_map_div (p : List ℤ) (k : Nat) : (p.map (fun k : ℤ => (k : ℚ) / 10 ^ 15)).getD k 0 = (p.getD k 0 : ℚ) / 10 ^ 15 := by
  rw [List.getD_eq_getElem?_getD, List.getD_eq_getElem?_getD, List.getElem?_map]
  cases p[k]? <;> simp

theorem coef_eq (k : ℕ) : ((intB.getD k 0 : ℤ) : ℝ) = ((1000000000000000 : ℤ) : ℝ) * coefB k ∧ ((intA.getD k 0 : ℤ) : ℝ) = ((1000000000000000 : ℤ) : ℝ) * coefA k := by
  unfold coefB coefA
  rw [coeffs_int.1, coeffs_int.2, getD_map_div, getD_map_div]
  push_cast
  constructor <;> ring

theorem getD_map (fl : ℝ → ℝ) (p : List ℚ) (k : ℕ) (hk : k < p.length) : (p.map (fun q : ℚ => fl (q : ℝ))).getD k 0 = fl ((p.getD k 0 : ℚ) : ℝ) := by
  rw [List.getD_eq_getElem?_getD, List.getD_eq_getElem?_getD, List.getElem?_map, List.getElem?_eq_getElem hk]
  simp

/-- The coefficients the constructor stores. -/
noncomputable def flB (fl : ℝ → ℝ) : List ℝ := bCoeffs.map (fun q : ℚ => fl (q : ℝ))
/-- The coefficients the constructor stores. -/
noncomputable def flA (fl : ℝ → ℝ) : List ℝ := aCoeffs.map (fun q : ℚ => fl (q : ℝ))

theorem flB_get (fl : ℝ → ℝ) (k : ℕ) (hk : k < 7) : (flB fl).getD k 0 = fl (coefB k) := getD_map fl _ k hk
theorem flA_get (fl : ℝ → ℝ) (k : ℕ) (hk : k < 7) : (flA fl).getD k 0 = fl (coefA k) := getD_map fl _ k hk

/-- The statements of one iteration. -/
theorem mem_step (fl : ℝ → ℝ) (b a o : List ℝ) (x : ℝ) : (antiAliasStepFl fl b a o x).2 = fl (fl (x * b.getD 0 0) + o.getD 0 0) ∧
    (∀ k, k < 5 → (antiAliasStepFl fl b a o x).1.getD k 0 =
      fl (fl (fl (x * b.getD (k + 1) 0) - fl ((antiAliasStepFl fl b a o x).2 * a.getD (k + 1) 0)) + o.getD (k + 1) 0)) ∧
    (antiAliasStepFl fl b a o x).1.getD 5 0 = fl (fl (x * b.getD 6 0) - fl ((antiAliasStepFl fl b a o x).2 * a.getD 6 0)) := by
  refine ⟨rfl, fun k hk => ?_, rfl⟩
  match k, hk with
  | 0, _ | 1, _ | 2, _ | 3, _ | 4, _ => rfl

theorem mems_length (fl : ℝ → ℝ) (b a : List ℝ) (x : ℕ → ℝ) (n : ℕ) : (mems fl b a x n).length = 6 := by
  cases n <;> rfl

theorem mems_high (fl : ℝ → ℝ) (b a : List ℝ) (x : ℕ → ℝ) (n k : ℕ) (hk : 6 ≤ k) : (mems fl b a x n).getD k 0 = 0 := by
  rw [List.getD_eq_getElem?_getD, List.getElem?_eq_none (by rw [mems_length]; exact hk)]
  rfl

theorem mems_zero (fl : ℝ → ℝ) (b a : List ℝ) (x : ℕ → ℝ) (k : ℕ) : (mems fl b a x 0).getD k 0 = 0 := by
  rw [mems, List.getD_eq_getElem?_getD, List.getElem?_replicate]
  split <;> rfl

theorem intA_cons : ∃ as, intA = 1000000000000000 :: as ∧ as.length = 6 := ⟨_, rfl, rfl⟩
theorem intB_cons : ∃ b bs, intB = b :: bs ∧ bs.length = 6 := ⟨_, _, rfl, rfl⟩

/-- The exact stream meets the difference equation. -/
theorem exact_eq (x : ℕ → ℝ) (n : ℕ) : cv intA (filt id (flB id) (flA id) x) n = cv intB x n := by
  obtain ⟨as, e2, i1⟩ := intA_cons
  obtain ⟨b, bs, e1, i2⟩ := intB_cons
  have hcoef := coef_eq
  rw [e1, e2] at hcoef
  have hz : ∀ k, (6 ≤ k → coefB (k + 1) = 0 ∧ coefA (k + 1) = 0) := by
    intro k hk
    unfold coefB coefA
    have l1 : bCoeffs.length = 7 := rfl
    have l2 : aCoeffs.length = 7 := rfl
    rw [List.getD_eq_getElem?_getD, List.getD_eq_getElem?_getD, List.getElem?_eq_none (by omega), List.getElem?_eq_none (by omega)]
    simp
  have hd := disturbed 1000000000000000 coefA coefB x (filt id (flB id) (flA id) x)
    (fun k n => (mems id (flB id) (flA id) x n).getD k 0) (fun _ _ => 0) (fun k => mems_zero _ _ _ _ k) (by
      intro n
      beta_reduce
      rw [filt, (mem_step id _ _ _ _).1, flB_get _ 0 (by omega)]
      simp only [id]
      ring) (by
      intro k n
      beta_reduce
      rw [mems]
      by_cases h6 : k < 5
      · rw [(mem_step id _ _ _ _).2.1 k h6, flB_get _ _ (by omega), flA_get _ _ (by omega)]
        simp only [id, filt]
        ring
      · by_cases h7 : k = 5
        · subst h7
          rw [(mem_step id _ _ _ _).2.2, flB_get _ _ (by omega), flA_get _ _ (by omega), mems_high _ _ _ _ _ _ (by omega)]
          simp only [id, filt]
          ring
        · rw [← mems, mems_high _ _ _ _ _ _ (by omega), mems_high _ _ _ _ _ _ (by omega), (hz k (by omega)).1, (hz k (by omega)).2]
          ring) b bs as (by omega) (by rintro rfl; simp at i2) (by simpa using (hcoef 0).1) (by
      intro i _
      rw [Nat.add_comm 1]
      simpa using (hcoef (i + 1)).1) (by
      intro i _
      rw [Nat.add_comm 1]
      simpa using (hcoef (i + 1)).2) (by
      intro n
      exact mems_high _ _ _ _ _ _ (by omega)) n
  have he : ∀ l k n, errs (fun _ _ => 0) k l n = 0 := by
    intro l
    induction l with
    | zero => intro k n; rfl
    | succ l ih =>
      intro k n
      simp only [errs, zero_add]
      cases n with
      | zero => rfl
      | succ n => exact ih _ _
  rw [he, mul_zero, add_zero] at hd
  rw [e1, e2]
  exact hd

/-- No bounded signal is enlarged more than twice. -/
theorem bound2 (x y : ℕ → ℝ) (h : ∀ n, cv intA y n = cv intB x n) (M : ℝ) (hM : ∀ n, |x n| ≤ M) (n : ℕ) : |y n| ≤ 2 * M := by
  obtain ⟨p0, ps, c1, c2, -, c4, -, -⟩ := cert_sound _ _ _ _ _ _ cert_two (by norm_num)
  have hb := bounded intA intB certQ ps p0 c1 c2 x y (n + 1) (fun n _ => h n) M hM n (by omega)
  have hM0 : 0 ≤ M := (abs_nonneg _).trans (hM 0)
  have hD : (0 : ℝ) < ((p0 - l1 ps : ℤ) : ℝ) := by exact_mod_cast sub_pos.mpr c2
  have hG : ((l1 (mul certQ intB) : ℤ) : ℝ) ≤ 2 * ((p0 - l1 ps : ℤ) : ℝ) := by exact_mod_cast c4
  have : ((p0 - l1 ps : ℤ) : ℝ) * |y n| ≤ ((p0 - l1 ps : ℤ) : ℝ) * (2 * M) := by
    refine hb.trans ?_
    have := mul_le_mul_of_nonneg_right hG hM0
    linarith
  exact le_of_mul_le_mul_left this hD

theorem filt_sub (x x' : ℕ → ℝ) (n : ℕ) :
    cv intA (fun n => filt id (flB id) (flA id) x n - filt id (flB id) (flA id) x' n) n = cv intB (fun n => x n - x' n) n := by
  rw [cv_sub, cv_sub, exact_eq, exact_eq]

/-- The exact stage on two signals that are close. -/
theorem filt_close (x x' : ℕ → ℝ) (E : ℝ) (h : ∀ n, |x n - x' n| ≤ E) (n : ℕ) :
    |filt id (flB id) (flA id) x n - filt id (flB id) (flA id) x' n| ≤ 2 * E :=
  bound2 (fun n => x n - x' n) (fun n => filt id (flB id) (flA id) x n - filt id (flB id) (flA id) x' n) (filt_sub x x') E h n

/-- The signal dies away. -/
def Vanishes (e : ℕ → ℝ) : Prop := ∀ ε, 0 < ε → ∃ N, ∀ n, N ≤ n → |e n| ≤ ε

theorem Vanishes.add {e f : ℕ → ℝ} (he : Vanishes e) (hf : Vanishes f) : Vanishes (fun n => e n + f n) := by
  intro ε hε
  obtain ⟨N1, h1⟩ := he (ε / 2) (by linarith)
  obtain ⟨N2, h2⟩ := hf (ε / 2) (by linarith)
  refine ⟨max N1 N2, fun n hn => (abs_add_le _ _).trans ?_⟩
  have := h1 n (le_trans (le_max_left _ _) hn)
  have := h2 n (le_trans (le_max_right _ _) hn)
  linarith

theorem Vanishes.bounded {e : ℕ → ℝ} (he : Vanishes e) : ∃ M, 0 ≤ M ∧ ∀ n, |e n| ≤ M := by
  obtain ⟨N, h⟩ := he 1 one_pos
  refine ⟨1 + ∑ k ∈ range N, |e k|, by positivity, fun n => ?_⟩
  by_cases hn : N ≤ n
  · have : 0 ≤ ∑ k ∈ range N, |e k| := by positivity
    linarith [h n hn]
  · have := single_le_sum (f := fun k => |e k|) (fun k _ => abs_nonneg _) (mem_range.mpr (Nat.lt_of_not_le hn))
    linarith

theorem vanishes_pow (C : ℝ) (e : ℕ → ℝ) (h : ∀ n, |e n| ≤ C * (1 / 50) ^ (n / 60)) : Vanishes e := by
  intro ε hε
  have hC : 0 ≤ C := by
    have := (abs_nonneg _).trans (h 0)
    simpa using this
  obtain ⟨k, hk⟩ := exists_pow_lt_of_lt_one (show 0 < ε / (C + 1) by positivity) (show (1 / 50 : ℝ) < 1 by norm_num)
  refine ⟨60 * k, fun n hn => (h n).trans ?_⟩
  have h1 : (1 / 50 : ℝ) ^ (n / 60) ≤ (1 / 50) ^ k := pow_le_pow_of_le_one (by norm_num) (by norm_num) (by omega)
  have h2 : C * (1 / 50) ^ (n / 60) ≤ C * (ε / (C + 1)) := mul_le_mul_of_nonneg_left (h1.trans hk.le) hC
  refine h2.trans ?_
  rw [← mul_div_assoc, div_le_iff₀ (by linarith)]
  nlinarith

/-- What is filtered from a signal that dies away dies away. -/
theorem vanishes_filt (e : ℕ → ℝ) (he : Vanishes e) (y : ℕ → ℝ) (h : ∀ n, cv intA y n = cv intB e n) : Vanishes y := by
  intro ε hε
  obtain ⟨N, hN⟩ := he (ε / 4) (by linarith)
  obtain ⟨M, hM0, hM⟩ := he.bounded
  set e1 : ℕ → ℝ := fun n => if n < N then e n else 0 with he1
  have hM1 : ∀ n, |e1 n| ≤ M := by
    intro n
    simp only [he1]
    split_ifs
    · exact hM n
    · simpa using hM0
  set y1 := filt id (flB id) (flA id) e1 with hy1
  obtain ⟨p0, ps, c1, c2, c3, c4, c5, c6⟩ := cert_sound _ _ _ _ _ _ cert_two (by norm_num)
  have hc3 : ((50 : ℤ) : ℝ) * (l1 ps : ℝ) ≤ p0 := by exact_mod_cast c3
  have hb1 : ∀ n, |y1 n| ≤ 2 * M := bound2 e1 y1 (exact_eq e1) M hM1
  set T := certQ.length + (N + 7) + (ps.length + 1) with hT
  have hdec : ∀ n, |y1 n| ≤ 2 * M * (1 / 50) ^ (n / T) := by
    intro n
    refine Stable.decay intA certQ ps p0 c1 c2 (1 / 50) (by push_cast at hc3; linarith) (by norm_num) y1 (n + 1) (N + 7) T (by omega) (by omega) ?_ (2 * M)
      (fun n _ => hb1 n) n (by omega)
    intro m hm _
    rw [exact_eq, cv_local intB e1 (fun _ => 0) m, cv_zero]
    intro k hk hk'
    have : intB.length = 7 := rfl
    simp only [he1]
    rw [if_neg (by omega)]
  have hrest : ∀ n, |y n - y1 n| ≤ 2 * (ε / 4) := by
    intro n
    refine bound2 (fun n => e n - e1 n) (fun n => y n - y1 n) (fun n => by rw [cv_sub, cv_sub, exact_eq, h]) (ε / 4) ?_ n
    intro n
    simp only [he1]
    split_ifs with hn
    · rw [sub_self, abs_zero]; linarith
    · rw [sub_zero]; exact hN n (by omega)
  have hT0 : 0 < T := by omega
  obtain ⟨k, hk⟩ := exists_pow_lt_of_lt_one (show 0 < ε / 2 / (2 * M + 1) by positivity) (show (1 / 50 : ℝ) < 1 by norm_num)
  refine ⟨T * k, fun n hn => ?_⟩
  have h1 : (1 / 50 : ℝ) ^ (n / T) ≤ (1 / 50) ^ k := pow_le_pow_of_le_one (by norm_num) (by norm_num) ((Nat.le_div_iff_mul_le hT0).mpr (by rw [Nat.mul_comm]; exact hn))
  have h2 : 2 * M * (1 / 50) ^ (n / T) ≤ 2 * M * (ε / 2 / (2 * M + 1)) := mul_le_mul_of_nonneg_left (h1.trans hk.le) (by linarith)
  have h3 : 2 * M * (ε / 2 / (2 * M + 1)) ≤ ε / 2 := by
    rw [← mul_div_assoc, div_le_iff₀ (by linarith)]
    nlinarith
  have h4 := hdec n
  have h5 := abs_add_le (y n - y1 n) (y1 n)
  rw [sub_add_cancel] at h5
  linarith [hrest n]

end QM.DecimatorB
