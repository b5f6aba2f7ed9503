import Verif.Filter.RoundedBound
import Mathlib.Algebra.Order.Ring.GeomSum
import Mathlib.Algebra.Order.Field.GeomSum

/-!
# Recursive filters: disturbances at the ends of a block die out
-/

namespace QM.Filter

open Finset QM.Filter.Rounded

/-- `v` is the response of the filter to `u` for `L` samples, with any past. -/
def Sol (b a : List ℝ) (u v : ℤ → ℝ) (L : ℕ) : Prop :=
  ∀ j : ℕ, j < L → v j = ∑ i ∈ range b.length, b.getD i 0 * u (j - i) - ∑ i ∈ range (a.length - 1), a.getD (i + 1) 0 * v (j - (i + 1 : ℕ))

theorem Sol.sub {b a : List ℝ} {u v x y : ℤ → ℝ} {L : ℕ} (h1 : Sol b a u v L) (h2 : Sol b a x y L) : Sol b a (fun j => u j - x j) (fun j => v j - y j) L := by
  intro j hj
  show v j - y j = _
  rw [h1 j hj, h2 j hj]
  simp only [mul_sub, sum_sub_distrib]
  ring

theorem imp_zero (a : List ℝ) : imp a 0 = 1 := by
  have := den_mul a (den a)⁻¹ 0
  rw [den_inv, PowerSeries.coeff_one, if_pos rfl] at this
  rw [imp]
  have e : ∑ i ∈ range (a.length - 1), a.getD (i + 1) 0 * dl (fun k => PowerSeries.coeff k (den a)⁻¹) 0 (i + 1) = 0 := by
    refine sum_eq_zero fun i _ => ?_
    rw [dl, if_neg (by omega), mul_zero]
  rw [e, add_zero] at this
  exact this.symm

theorem imp_rec (a : List ℝ) (n : ℕ) (hn : 0 < n) : imp a n = - ∑ i ∈ range (a.length - 1), a.getD (i + 1) 0 * dl (imp a) n (i + 1) := by
  have := den_mul a (den a)⁻¹ n
  rw [den_inv, PowerSeries.coeff_one, if_neg (by omega)] at this
  have e : dl (fun k => PowerSeries.coeff k (den a)⁻¹) = dl (imp a) := rfl
  rw [e] at this
  have e2 : PowerSeries.coeff n (den a)⁻¹ = imp a n := rfl
  rw [e2] at this
  linarith

/-- The impulse response decays geometrically if the coefficients fed back sum to less than one. -/
theorem imp_decay (a : List ℝ) (r : ℝ) (h0 : 0 < r) (h1 : r ≤ 1) (h : ∑ i ∈ range (a.length - 1), |a.getD (i + 1) 0| ≤ r ^ a.length) (n : ℕ) : |imp a n| ≤ r ^ n := by
  induction n using Nat.strong_induction_on with
  | _ n ih =>
    rcases Nat.eq_zero_or_pos n with hz | hp
    · rw [hz, imp_zero]; simp
    · rw [imp_rec a n hp, abs_neg]
      have hrm : 0 < r ^ a.length := pow_pos h0 _
      calc _ ≤ ∑ i ∈ range (a.length - 1), |a.getD (i + 1) 0 * dl (imp a) n (i + 1)| := abs_sum_le_sum_abs _ _
        _ ≤ ∑ i ∈ range (a.length - 1), |a.getD (i + 1) 0| * (r ^ n / r ^ a.length) := by
            refine sum_le_sum fun i hi => ?_
            have hi := mem_range.1 hi
            rw [abs_mul]
            refine mul_le_mul_of_nonneg_left ?_ (abs_nonneg _)
            rw [le_div_iff₀ hrm]
            unfold dl
            split
            · next hc =>
              calc _ ≤ r ^ (n - (i + 1)) * r ^ a.length := mul_le_mul_of_nonneg_right (ih _ (by omega)) hrm.le
                _ ≤ r ^ (n - (i + 1)) * r ^ (i + 1) := mul_le_mul_of_nonneg_left (pow_le_pow_of_le_one h0.le h1 (by omega)) (pow_nonneg h0.le _)
                _ = r ^ n := by rw [← pow_add]; congr 1; omega
            · rw [abs_zero, zero_mul]
              exact pow_nonneg h0.le _
        _ = (∑ i ∈ range (a.length - 1), |a.getD (i + 1) 0|) * (r ^ n / r ^ a.length) := by rw [sum_mul]
        _ ≤ r ^ a.length * (r ^ n / r ^ a.length) := mul_le_mul_of_nonneg_right h (by positivity)
        _ = r ^ n := by field_simp

/-- A rate of decay exists. -/
theorem rate_exists (ρ : ℝ) (h0 : 0 ≤ ρ) (h1 : ρ < 1) (m : ℕ) : ∃ r : ℝ, 0 < r ∧ r < 1 ∧ ρ ≤ r ^ m := by
  have hm : (0 : ℝ) < m + 2 := by positivity
  have hd : 0 < (1 - ρ) / (m + 2) := div_pos (by linarith) hm
  have hd1 : (1 - ρ) / (m + 2) ≤ 1 / 2 := by
    rw [div_le_iff₀ hm]
    have : (0 : ℝ) ≤ m := Nat.cast_nonneg m
    linarith
  refine ⟨1 - (1 - ρ) / (m + 2), by linarith, by linarith, ?_⟩
  have hb := one_add_mul_le_pow (a := -((1 - ρ) / (m + 2))) (by linarith) m
  rw [← sub_eq_add_neg] at hb
  refine le_trans ?_ hb
  have : (m : ℝ) * ((1 - ρ) / (m + 2)) ≤ 1 - ρ := by
    rw [← mul_div_assoc, div_le_iff₀ hm]
    nlinarith
  linarith

theorem geom_le (q : ℝ) (h0 : 0 ≤ q) (h1 : q < 1) (n : ℕ) : ∑ k ∈ range n, q ^ k ≤ 1 / (1 - q) := by
  rw [le_div_iff₀ (by linarith), geom_sum_mul_neg]
  have := pow_nonneg h0 n
  linarith

/-- How large something at both ends of a block of `L` samples may still be at `j`. -/
noncomputable def env (s : ℝ) (L j : ℕ) : ℝ := s ^ j + s ^ (L - 1 - j)

theorem env_pos {s : ℝ} (h : 0 < s) (L j : ℕ) : 0 < env s L j := by unfold env; positivity

theorem env_reverse (s : ℝ) (L j : ℕ) (h : j < L) : env s L (L - 1 - j) = env s L j := by
  unfold env
  rw [add_comm, show L - 1 - (L - 1 - j) = j by omega]

/-- A profile `e` over a block that changes slowly enough for a filter whose impulse response decays like `r ^ k`, and values before the block of
at most `P` against a scale `W`. -/
structure Profile (r s : ℝ) (M L : ℕ) (P W : ℝ) (e : ℕ → ℝ) : Prop where
  nonneg : ∀ n, 0 ≤ e n
  back : ∀ n i, n < L → i ≤ M → i ≤ n → e (n - i) * s ^ M ≤ e n
  past : ∀ n, n < L → n < M → P * s ^ M ≤ W * e n
  decay : ∀ j k, j < L → k ≤ j → r ^ k * e (j - k) ≤ e j * (r / s) ^ k

/-- What comes in under a profile goes out under the same profile, times a constant of the filter. -/
theorem Sol.profile (b a : List ℝ) (u v : ℤ → ℝ) (L : ℕ) (h : Sol b a u v L) (D r s P W B Q : ℝ) (e : ℕ → ℝ) (hr : 0 < r) (hrs : r < s) (hW : 0 ≤ W) (hD : 0 ≤ D)
    (himp : ∀ k, |imp a k| ≤ D * r ^ k) (hB : ∑ i ∈ range b.length, |b.getD i 0| ≤ B) (hQ : ∑ i ∈ range (a.length - 1), |a.getD (i + 1) 0| ≤ Q)
    (he : Profile r s (b.length + a.length) L P W e)
    (hu0 : ∀ j : ℤ, j < 0 → |u j| ≤ P) (hv0 : ∀ j : ℤ, j < 0 → |v j| ≤ P) (hu : ∀ j : ℕ, j < L → |u j| ≤ W * e j) (j : ℕ) (hj : j < L) :
    |v j| ≤ D * (B + Q) / s ^ (b.length + a.length) / (1 - r / s) * W * e j := by
  have hs0 : 0 < s := hr.trans hrs
  have hB0 : 0 ≤ B := (sum_nonneg fun _ _ => abs_nonneg _).trans hB
  have hQ0 : 0 ≤ Q := (sum_nonneg fun _ _ => abs_nonneg _).trans hQ
  set M := b.length + a.length with hM
  have hsM : 0 < s ^ M := pow_pos hs0 _
  have hq : r / s < 1 := (div_lt_one hs0).2 hrs
  have hq0 : 0 ≤ r / s := div_nonneg hr.le hs0.le
  set E : ℕ → ℝ := fun m => ∑ i ∈ range b.length, b.getD i 0 * u (m - i) - ∑ i ∈ range (a.length - 1), a.getD (i + 1) 0 * (if i + 1 ≤ m then 0 else v (m - (i + 1 : ℕ))) with hE
  have hrec : ∀ n < L, v n = E n - ∑ i ∈ range (a.length - 1), a.getD (i + 1) 0 * dl (fun k => v k) n (i + 1) := by
    intro n hn
    rw [h n hn, hE]
    dsimp only
    rw [sub_sub, ← sum_add_distrib]
    congr 1
    refine sum_congr rfl fun i _ => ?_
    rw [← mul_add]
    congr 1
    unfold dl
    by_cases hi : i + 1 ≤ n
    · rw [if_pos hi, if_pos hi, zero_add]
      show _ = v ((n - (i + 1) : ℕ) : ℤ)
      rw [Nat.cast_sub hi]
    · rw [if_neg hi, if_neg hi, add_zero]
  have hback : ∀ n i : ℕ, n < L → i ≤ M → ∀ y : ℝ, (n < i → |y| ≤ P) → (i ≤ n → |y| ≤ W * e (n - i)) → |y| ≤ W / s ^ M * e n := by
    intro n i hn hi y h1 h2
    rw [div_mul_eq_mul_div, le_div_iff₀ hsM]
    rcases Nat.lt_or_ge n i with hc | hc
    · exact (mul_le_mul_of_nonneg_right (h1 hc) hsM.le).trans (he.past n hn (by omega))
    · calc |y| * s ^ M ≤ W * e (n - i) * s ^ M := mul_le_mul_of_nonneg_right (h2 hc) hsM.le
        _ = W * (e (n - i) * s ^ M) := by ring
        _ ≤ _ := mul_le_mul_of_nonneg_left (he.back n i hn hi hc) hW
  have hEle : ∀ n < L, |E n| ≤ (B + Q) * (W / s ^ M * e n) := by
    intro n hn
    have hpos : 0 ≤ W / s ^ M * e n := mul_nonneg (div_nonneg hW hsM.le) (he.nonneg _)
    rw [hE]
    dsimp only
    refine (abs_sub _ _).trans ?_
    rw [add_mul]
    refine add_le_add ?_ ?_
    · refine (abs_sum_le_sum_abs _ _).trans (weighted_le _ (fun i => u (n - i)) _ B _ hpos hB fun i hi => ?_)
      refine hback n i hn (by omega) _ (fun hc => hu0 _ (by omega)) (fun hc => ?_)
      have := hu (n - i) (by omega)
      rwa [Nat.cast_sub hc] at this
    · refine (abs_sum_le_sum_abs _ _).trans (weighted_le _ (fun i => if i + 1 ≤ n then 0 else v (n - (i + 1 : ℕ))) _ Q _ hpos hQ fun i hi => ?_)
      split
      · rw [abs_zero]; exact hpos
      · refine hback n (i + 1) hn (by omega) _ (fun hc => hv0 _ (by omega)) (fun hc => by omega)
  rw [response a (fun k => v k) E L hrec j hj]
  have hgeo := geom_le (r / s) hq0 hq (j + 1)
  have hT : 0 ≤ D * (B + Q) * (W / s ^ M) := mul_nonneg (mul_nonneg hD (by linarith)) (div_nonneg hW hsM.le)
  calc _ ≤ ∑ k ∈ range (j + 1), |imp a k * E (j - k)| := abs_sum_le_sum_abs _ _
    _ ≤ ∑ k ∈ range (j + 1), D * (B + Q) * (W / s ^ M) * e j * (r / s) ^ k := by
        refine sum_le_sum fun k hk => ?_
        have hk := mem_range.1 hk
        rw [abs_mul]
        calc _ ≤ (D * r ^ k) * ((B + Q) * (W / s ^ M * e (j - k))) := mul_le_mul (himp k) (hEle _ (by omega)) (abs_nonneg _) (by positivity)
          _ = D * (B + Q) * (W / s ^ M) * (r ^ k * e (j - k)) := by ring
          _ ≤ D * (B + Q) * (W / s ^ M) * (e j * (r / s) ^ k) := mul_le_mul_of_nonneg_left (he.decay j k hj (by omega)) hT
          _ = _ := by ring
    _ = D * (B + Q) * (W / s ^ M) * e j * ∑ k ∈ range (j + 1), (r / s) ^ k := by rw [mul_sum]
    _ ≤ D * (B + Q) * (W / s ^ M) * e j * (1 / (1 - r / s)) := mul_le_mul_of_nonneg_left hgeo (mul_nonneg hT (he.nonneg _))
    _ = _ := by ring

/-- Dying out from the start of the block. -/
theorem profile_start (r s : ℝ) (M L : ℕ) (W : ℝ) (hr : 0 < r) (hrs : r < s) (hs : s < 1) (hW : 0 ≤ W) : Profile r s M L W W (fun j => s ^ j) := by
  have hs0 : 0 < s := hr.trans hrs
  refine ⟨fun n => by positivity, fun n i _ hi hc => ?_, fun n _ hn => ?_, fun j k _ hk => le_of_eq ?_⟩
  · calc s ^ (n - i) * s ^ M ≤ s ^ (n - i) * s ^ i := mul_le_mul_of_nonneg_left (pow_le_pow_of_le_one hs0.le hs.le hi) (by positivity)
      _ = s ^ n := by rw [← pow_add]; congr 1; omega
  · exact mul_le_mul_of_nonneg_left (pow_le_pow_of_le_one hs0.le hs.le hn.le) hW
  · rw [div_pow, show s ^ j = s ^ (j - k) * s ^ k by rw [← pow_add]; congr 1; omega]
    field_simp

/-- Dying out from the end of the block, backwards. -/
theorem profile_end (r s : ℝ) (M L : ℕ) (W : ℝ) (hr : 0 < r) (hrs : r < s) (hs : s < 1) (hW : 0 ≤ W) : Profile r s M L 0 W (fun j => s ^ (L - 1 - j)) := by
  have hs0 : 0 < s := hr.trans hrs
  refine ⟨fun n => by positivity, fun n i _ hi hc => ?_, fun n _ hn => by rw [zero_mul]; positivity, fun j k _ hk => ?_⟩
  · calc s ^ (L - 1 - (n - i)) * s ^ M ≤ s ^ (L - 1 - (n - i)) * 1 := mul_le_mul_of_nonneg_left (pow_le_one₀ hs0.le hs.le) (by positivity)
      _ ≤ s ^ (L - 1 - n) := by rw [mul_one]; exact pow_le_pow_of_le_one hs0.le hs.le (by omega)
  · have e2 : r ^ k ≤ (r / s) ^ k := pow_le_pow_left₀ hr.le ((le_div_iff₀ hs0).2 (by nlinarith)) k
    have e3 : s ^ (L - 1 - (j - k)) ≤ s ^ (L - 1 - j) := pow_le_pow_of_le_one hs0.le hs.le (by omega)
    calc _ ≤ (r / s) ^ k * s ^ (L - 1 - j) := mul_le_mul e2 e3 (by positivity) (by positivity)
      _ = _ := by ring

/-- Both. -/
theorem profile_env (r s : ℝ) (M L : ℕ) (W : ℝ) (hr : 0 < r) (hrs : r < s) (hs : s < 1) (hW : 0 ≤ W) : Profile r s M L W W (env s L) := by
  have h1 := profile_start r s M L W hr hrs hs hW
  have h2 := profile_end r s M L W hr hrs hs hW
  unfold env
  refine ⟨fun n => add_nonneg (h1.nonneg n) (h2.nonneg n), fun n i a b c => ?_, fun n a b => ?_, fun j k a b => ?_⟩
  · rw [add_mul]
    exact add_le_add (h1.back n i a b c) (h2.back n i a b c)
  · have e1 := h1.past n a b
    have e2 := h2.past n a b
    rw [mul_add]
    linarith
  · rw [mul_add, add_mul]
    exact add_le_add (h1.decay j k a b) (h2.decay j k a b)

/-- A list as a signal in time, position `p` being time zero. -/
def zf (x : List ℝ) (p : ℕ) (j : ℤ) : ℝ := if 0 ≤ (p : ℤ) + j then x.getD ((p : ℤ) + j).toNat 0 else 0

theorem zf_nat (x : List ℝ) (p j : ℕ) : zf x p j = x.getD (p + j) 0 := by
  unfold zf
  rw [if_pos (by omega)]
  congr 1

theorem sol_of_diffEq (b a x y : List ℝ) (p L : ℕ) (h : DiffEq b a x y) (hl : p + L ≤ x.length) : Sol b a (zf x p) (zf y p) L := by
  have hd : ∀ (l : List ℝ) (j i : ℕ), delayed l (p + j) i = zf l p (j - i) := by
    intro l j i
    unfold delayed zf
    by_cases hi : i ≤ p + j
    · rw [if_pos hi, if_pos (by omega)]
      congr 1
      omega
    · rw [if_neg hi, if_neg (by omega)]
  intro j hj
  rw [zf_nat, h.2 (p + j) (by omega)]
  simp only [hd]

end QM.Filter
