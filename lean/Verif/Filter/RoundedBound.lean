import Verif.Filter.RoundedLemmas
import Verif.Filter.Stability

namespace QM.Filter.Rounded

open QM QM.Filter QM.Double Finset

variable {fl : ℝ → ℝ}

theorem weighted_le (c : ℕ → ℝ) (d : ℕ → ℝ) (n : ℕ) (C D : ℝ) (hD : 0 ≤ D) (hc : ∑ i ∈ range n, |c i| ≤ C) (hd : ∀ i < n, |d i| ≤ D) :
    ∑ i ∈ range n, |c i * d i| ≤ C * D := by
  calc _ ≤ ∑ i ∈ range n, |c i| * D := by
        refine sum_le_sum fun i hi => ?_
        rw [abs_mul]
        exact mul_le_mul_of_nonneg_left (hd i (mem_range.1 hi)) (abs_nonneg _)
    _ = (∑ i ∈ range n, |c i|) * D := by rw [sum_mul]
    _ ≤ C * D := mul_le_mul_of_nonneg_right hc hD

theorem delayed_le (x : List ℝ) (A : ℝ) (hA : 0 ≤ A) (hx : ∀ v ∈ x, |v| ≤ A) (n i : ℕ) : |delayed x n i| ≤ A := by
  unfold delayed
  split
  · rw [List.getD_eq_getElem?_getD]
    cases h : x[n - i]? with
    | none => simpa using hA
    | some v => exact hx v (List.mem_of_getElem? h)
  · simpa using hA

/-- One value: how far it is from the exact difference equation on the same data. -/
theorem local_error (hfl : Rounds fl) (b a x z : List ℝ) (A B Q Z M : ℝ) (hA : 0 ≤ A) (hZ : 0 ≤ Z) (hM : Scale M) (hB : ∑ i ∈ range b.length, |b.getD i 0| ≤ B)
    (hQ : ∑ i ∈ range (a.length - 1), |a.getD (i + 1) 0| ≤ Q) (hBM : B * A + Q * Z ≤ M) (hl : b.length + a.length ≤ 2 ^ 20)
    (hx : ∀ v ∈ x, |v| ≤ A) (hz : DiffEqR fl b a x z) (n : ℕ) (hn : n < x.length) (hzn : ∀ k < n, |z.getD k 0| ≤ Z) :
    |z.getD n 0 - (∑ i ∈ range b.length, b.getD i 0 * delayed x n i - ∑ i ∈ range (a.length - 1), a.getD (i + 1) 0 * delayed z n (i + 1))|
      ≤ (5 * (b.length + a.length : ℕ) + 3) * (M / 2 ^ 53) := by
  have hw := unit_pos hM
  have hB0 : 0 ≤ B := (sum_nonneg fun _ _ => abs_nonneg _).trans hB
  have hQ0 : 0 ≤ Q := (sum_nonneg fun _ _ => abs_nonneg _).trans hQ
  have hBA : 0 ≤ B * A := mul_nonneg hB0 hA
  have hQZ : 0 ≤ Q * Z := mul_nonneg hQ0 hZ
  have hl' : ((b.length + a.length : ℕ) : ℝ) ≤ 2 ^ 20 := by exact_mod_cast hl
  push_cast at hl'
  have hb0 : (0 : ℝ) ≤ b.length := Nat.cast_nonneg _
  have ha0 : (0 : ℝ) ≤ a.length := Nat.cast_nonneg _
  have ha1 : ((a.length - 1 : ℕ) : ℝ) ≤ a.length := by exact_mod_cast Nat.sub_le _ _
  have hzd : ∀ i < a.length - 1, |delayed z n (i + 1)| ≤ Z := by
    intro i _
    unfold delayed
    split
    · exact hzn _ (by omega)
    · simpa using hZ
  have s1 := weighted_le (fun i => b.getD i 0) (fun i => delayed x n i) b.length B A hA hB (fun i _ => delayed_le x A hA hx n i)
  have s2 := weighted_le (fun i => a.getD (i + 1) 0) (fun i => delayed z n (i + 1)) (a.length - 1) Q Z hZ hQ hzd
  have f1 := flSum_rounded hfl hM _ _ (by linarith) (s1.trans (by linarith))
  have f2 := flSum_rounded hfl hM _ _ (by linarith) (s2.trans (by linarith))
  have g1 := partial_abs_le _ _ _ le_rfl s1
  have g2 := partial_abs_le _ _ _ le_rfl s2
  rw [hz.2 n hn]
  push_cast
  generalize flSum fl (fun i => fl (b.getD i 0 * delayed x n i)) b.length = sb' at *
  generalize flSum fl (fun i => fl (a.getD (i + 1) 0 * delayed z n (i + 1))) (a.length - 1) = sa' at *
  generalize ∑ i ∈ range b.length, b.getD i 0 * delayed x n i = sb at *
  by_cases ha : a = []
  · rw [if_pos ha, ha]
    simp only [List.length_nil, Nat.zero_sub, range_zero, sum_empty, sub_zero, Nat.cast_zero, add_zero]
    exact f1.trans (mul_le_mul_of_nonneg_right (by linarith) hw)
  · rw [if_neg ha]
    generalize ∑ i ∈ range (a.length - 1), a.getD (i + 1) 0 * delayed z n (i + 1) = sa at *
    have f2' : |sa' - sa| ≤ 5 * a.length * (M / 2 ^ 53) := f2.trans (mul_le_mul_of_nonneg_right (by linarith) hw)
    have h1 : |sb' - sa' - (sb - sa)| ≤ 5 * (b.length + a.length) * (M / 2 ^ 53) := by
      rw [show sb' - sa' - (sb - sa) = (sb' - sb) - (sa' - sa) by ring]
      calc _ ≤ |sb' - sb| + |sa' - sa| := abs_sub _ _
        _ ≤ 5 * b.length * (M / 2 ^ 53) + 5 * a.length * (M / 2 ^ 53) := add_le_add f1 f2'
        _ = _ := by ring
    have h2 : |sb - sa| ≤ M := by
      calc _ ≤ |sb| + |sa| := abs_sub _ _
        _ ≤ M := by linarith
    have h3 : 5 * ((b.length : ℝ) + a.length) * (M / 2 ^ 53) ≤ M := by
      calc _ ≤ 2 ^ 53 * (M / 2 ^ 53) := mul_le_mul_of_nonneg_right (by linarith) hw
        _ = M := by field_simp
    have h4 : |sb' - sa'| ≤ 2 * M := by
      have := abs_le_of_sub _ _ _ _ h1 h2
      linarith
    have h5 := rnd hfl hM (sb' - sa') 2 (by norm_num) h4
    have h6 := abs_add_le (fl (sb' - sa') - (sb' - sa')) (sb' - sa' - (sb - sa))
    rw [sub_add_sub_cancel] at h6
    calc _ ≤ _ := h6
      _ ≤ (2 + 1) * (M / 2 ^ 53) + 5 * (b.length + a.length) * (M / 2 ^ 53) := add_le_add h5 h1
      _ = _ := by ring

/-- The exact response is bounded. -/
theorem exact_le (b a x y : List ℝ) (A B G : ℝ) (hA : 0 ≤ A) (hB : ∑ i ∈ range b.length, |b.getD i 0| ≤ B) (hG : ∀ N, ∑ k ∈ range N, |imp a k| ≤ G)
    (hx : ∀ v ∈ x, |v| ≤ A) (hy : DiffEq b a x y) (n : ℕ) (hn : n < x.length) : |y.getD n 0| ≤ G * (B * A) := by
  have hB0 : 0 ≤ B := (sum_nonneg fun _ _ => abs_nonneg _).trans hB
  refine response_le a (fun n => y.getD n 0) (fun n => ∑ i ∈ range b.length, b.getD i 0 * delayed x n i) x.length G _ (mul_nonneg hB0 hA) hG
    (fun n hn => hy.2 n hn) (fun n _ => ?_) n hn
  exact partial_abs_le _ _ _ le_rfl (weighted_le (fun i => b.getD i 0) (fun i => delayed x n i) b.length B A hA hB (fun i _ => delayed_le x A hA hx n i))

theorem global_error (hfl : Rounds fl) (b a x y z : List ℝ) (A B Q G : ℝ) (hA : 0 ≤ A) (hB : ∑ i ∈ range b.length, |b.getD i 0| ≤ B)
    (hQ : ∑ i ∈ range (a.length - 1), |a.getD (i + 1) 0| ≤ Q) (hG : ∀ N, ∑ k ∈ range N, |imp a k| ≤ G) (hM : Scale (B * A * (1 + 2 * G * Q)))
    (hGQ : G * Q ≤ 2 ^ 20) (hl : b.length + a.length ≤ 2 ^ 20) (hx : ∀ v ∈ x, |v| ≤ A) (hy : DiffEq b a x y) (hz : DiffEqR fl b a x z) (n : ℕ)
    (hn : n < x.length) :
    |z.getD n 0 - y.getD n 0| ≤ G * ((5 * (b.length + a.length : ℕ) + 3) * (B * A * (1 + 2 * G * Q) / 2 ^ 53)) := by
  have hw := unit_pos hM
  have hB0 : 0 ≤ B := (sum_nonneg fun _ _ => abs_nonneg _).trans hB
  have hQ0 : 0 ≤ Q := (sum_nonneg fun _ _ => abs_nonneg _).trans hQ
  have hG0 : 0 ≤ G := (sum_nonneg fun _ _ => abs_nonneg _).trans (hG 0)
  have hBA : 0 ≤ B * A := mul_nonneg hB0 hA
  have hl' : ((b.length + a.length : ℕ) : ℝ) ≤ 2 ^ 20 := by exact_mod_cast hl
  have hl0 : (0 : ℝ) ≤ ((b.length + a.length : ℕ) : ℝ) := Nat.cast_nonneg _
  set M := B * A * (1 + 2 * G * Q) with hMdef
  set ε := (5 * ((b.length + a.length : ℕ) : ℝ) + 3) * (M / 2 ^ 53) with hε
  have hε0 : 0 ≤ ε := mul_nonneg (by linarith) hw
  have hεle : ε ≤ B * A := by
    have h1 : 5 * ((b.length + a.length : ℕ) : ℝ) + 3 ≤ 2 ^ 23 := by linarith
    have h2 : M ≤ B * A * 2 ^ 22 := mul_le_mul_of_nonneg_left (by nlinarith) hBA
    calc ε ≤ 2 ^ 23 * (M / 2 ^ 53) := mul_le_mul_of_nonneg_right h1 hw
      _ ≤ 2 ^ 23 * (B * A * 2 ^ 22 / 2 ^ 53) := by
          refine mul_le_mul_of_nonneg_left ?_ (by norm_num)
          exact div_le_div_of_nonneg_right h2 (by norm_num)
      _ ≤ B * A := by
          rw [← mul_div_assoc, div_le_iff₀ (by norm_num)]
          nlinarith
  induction n using Nat.strong_induction_on with
  | _ n ih =>
    have hzk : ∀ k < n, |z.getD k 0| ≤ 2 * (G * (B * A)) := by
      intro k hk
      have h1 := ih k hk (by omega)
      have h2 := exact_le b a x y A B G hA hB hG hx hy k (by omega)
      have h3 := abs_le_of_sub _ _ _ _ h1 h2
      have h4 := mul_le_mul_of_nonneg_left hεle hG0
      linarith
    refine response_le a (fun n => z.getD n 0 - y.getD n 0)
      (fun n => z.getD n 0 - (∑ i ∈ range b.length, b.getD i 0 * delayed x n i - ∑ i ∈ range (a.length - 1), a.getD (i + 1) 0 * delayed z n (i + 1)))
      (n + 1) G ε hε0 hG (fun k hk => ?_) (fun k hk => ?_) n (by omega)
    · have e : ∀ i, dl (fun n => z.getD n 0 - y.getD n 0) k (i + 1) = delayed z k (i + 1) - delayed y k (i + 1) := by
        intro i
        unfold dl delayed
        split
        · rfl
        · simp
      simp only [e, mul_sub, sum_sub_distrib]
      rw [hy.2 k (by omega)]
      ring
    · refine local_error hfl b a x z A B Q (2 * (G * (B * A))) M hA (by positivity) hM hB hQ (le_of_eq ?_) hl hx hz k (by omega) (fun j hj => hzk j (by omega))
      rw [hMdef]
      ring

/-- If the coefficients that are fed back sum to less than one, the filter is stable. -/
theorem imp_small (a : List ℝ) (ρ : ℝ) (hρ : ρ < 1) (h : ∑ i ∈ range (a.length - 1), |a.getD (i + 1) 0| ≤ ρ) (N : ℕ) : ∑ k ∈ range N, |imp a k| ≤ 1 / (1 - ρ) := by
  have hρ0 : 0 ≤ ρ := (sum_nonneg fun _ _ => abs_nonneg _).trans h
  have hp : 0 < 1 - ρ := by linarith
  rw [le_div_iff₀ hp]
  have hrec : ∀ n, imp a n = (if n = 0 then 1 else 0) - ∑ i ∈ range (a.length - 1), a.getD (i + 1) 0 * dl (imp a) n (i + 1) := by
    intro n
    have := den_mul a (den a)⁻¹ n
    rw [den_inv, PowerSeries.coeff_one] at this
    have e : dl (fun k => PowerSeries.coeff k (den a)⁻¹) = dl (imp a) := rfl
    rw [e] at this
    have e2 : PowerSeries.coeff n (den a)⁻¹ = imp a n := rfl
    rw [e2] at this
    linarith
  have hstep : ∑ k ∈ range N, |imp a k| ≤ 1 + ρ * ∑ k ∈ range N, |imp a k| := by
    calc _ ≤ ∑ k ∈ range N, ((if k = 0 then 1 else 0) + ∑ i ∈ range (a.length - 1), |a.getD (i + 1) 0| * |dl (imp a) k (i + 1)|) := by
          refine sum_le_sum fun k _ => ?_
          rw [hrec k]
          refine (abs_sub _ _).trans (add_le_add (le_of_eq (by split <;> simp)) ?_)
          refine (abs_sum_le_sum_abs _ _).trans (le_of_eq (sum_congr rfl fun i _ => abs_mul _ _))
      _ = ∑ k ∈ range N, (if k = 0 then (1 : ℝ) else 0) + ∑ i ∈ range (a.length - 1), |a.getD (i + 1) 0| * ∑ k ∈ range N, |dl (imp a) k (i + 1)| := by
          rw [sum_add_distrib, sum_comm]
          simp only [mul_sum]
      _ ≤ 1 + ∑ i ∈ range (a.length - 1), |a.getD (i + 1) 0| * ∑ k ∈ range N, |imp a k| := by
          refine add_le_add ?_ (sum_le_sum fun i _ => mul_le_mul_of_nonneg_left ?_ (abs_nonneg _))
          · rw [sum_ite_eq' (range N) 0 (fun _ => (1 : ℝ))]
            split <;> norm_num
          · rcases le_total N (i + 1) with hN | hN
            · refine le_trans (le_of_eq (sum_eq_zero fun k hk => ?_)) (sum_nonneg fun _ _ => abs_nonneg _)
              rw [dl, if_neg (by have := mem_range.1 hk; omega), abs_zero]
            · obtain ⟨d, rfl⟩ := Nat.exists_eq_add_of_le hN
              rw [sum_range_add, sum_eq_zero (s := range (i + 1)), zero_add]
              · refine le_trans (le_of_eq (sum_congr rfl fun k _ => ?_)) (sum_le_sum_of_subset_of_nonneg (range_mono (show d ≤ i + 1 + d by omega)) (fun _ _ _ => abs_nonneg _))
                rw [dl, if_pos (by omega), Nat.add_sub_cancel_left]
              · intro k hk
                rw [dl, if_neg (by have := mem_range.1 hk; omega), abs_zero]
      _ = 1 + (∑ i ∈ range (a.length - 1), |a.getD (i + 1) 0|) * ∑ k ∈ range N, |imp a k| := by rw [sum_mul]
      _ ≤ 1 + ρ * ∑ k ∈ range N, |imp a k| := by
          have := mul_le_mul_of_nonneg_right h (sum_nonneg (s := range N) fun k _ => abs_nonneg (imp a k))
          linarith
  linarith

end QM.Filter.Rounded
