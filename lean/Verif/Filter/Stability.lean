import Verif.Filter.Spec
import Mathlib.RingTheory.PowerSeries.Inverse
import Mathlib.Data.Real.Basic
import Mathlib.Algebra.Order.BigOperators.Group.Finset
import Mathlib.Algebra.Order.BigOperators.Ring.Finset
import Mathlib.Tactic.Ring
import Mathlib.Tactic.Linarith

/-!
# Recursive filters with disturbances
-/

namespace QM.Filter

open Finset

/-- Sample `n - i` of a sequence. -/
def dl (e : ℕ → ℝ) (n i : ℕ) : ℝ := if i ≤ n then e (n - i) else 0

/-- The denominator; the code does not use `a[0]`, it is 1. -/
noncomputable def den (a : List ℝ) : PowerSeries ℝ := PowerSeries.mk (fun n => if n = 0 then 1 else a.getD n 0)

/-- The impulse response of the recursive part. -/
noncomputable def imp (a : List ℝ) (n : ℕ) : ℝ := PowerSeries.coeff n (den a)⁻¹

theorem den_mul (a : List ℝ) (e : PowerSeries ℝ) (n : ℕ) :
    PowerSeries.coeff n (den a * e) = PowerSeries.coeff n e + ∑ i ∈ range (a.length - 1), a.getD (i + 1) 0 * dl (fun k => PowerSeries.coeff k e) n (i + 1) := by
  rw [PowerSeries.coeff_mul, Finset.Nat.sum_antidiagonal_eq_sum_range_succ_mk, sum_range_succ']
  simp only [den, PowerSeries.coeff_mk, Nat.sub_zero, if_true, one_mul, Nat.add_one_ne_zero, if_false]
  rw [add_comm]
  congr 1
  have e1 : ∑ k ∈ range n, a.getD (k + 1) 0 * PowerSeries.coeff (n - (k + 1)) e
      = ∑ k ∈ range n, a.getD (k + 1) 0 * dl (fun k => PowerSeries.coeff k e) n (k + 1) := by
    refine sum_congr rfl fun k hk => ?_
    rw [dl, if_pos (by have := mem_range.1 hk; omega)]
  rw [e1]
  rcases le_total n (a.length - 1) with h | h
  · apply sum_subset (range_mono h)
    intro k _ hk
    rw [dl, if_neg (by simp at hk; omega), mul_zero]
  · symm
    apply sum_subset (range_mono h)
    intro k _ hk
    rw [List.getD_eq_getElem?_getD, List.getElem?_eq_none (by simp at hk; omega)]
    simp

theorem den_inv (a : List ℝ) : den a * (den a)⁻¹ = 1 :=
  PowerSeries.mul_inv_cancel _ (by simp [den])

/-- The response to a disturbance is the disturbance filtered with the impulse response. -/
theorem response (a : List ℝ) (e E : ℕ → ℝ) (N : ℕ)
    (h : ∀ n < N, e n = E n - ∑ i ∈ range (a.length - 1), a.getD (i + 1) 0 * dl e n (i + 1)) (n : ℕ) (hn : n < N) :
    e n = ∑ k ∈ range (n + 1), imp a k * E (n - k) := by
  have hc : ∀ n, PowerSeries.coeff n ((den a)⁻¹ * PowerSeries.mk E)
      = E n - ∑ i ∈ range (a.length - 1), a.getD (i + 1) 0 * dl (fun k => PowerSeries.coeff k ((den a)⁻¹ * PowerSeries.mk E)) n (i + 1) := by
    intro n
    have := den_mul a ((den a)⁻¹ * PowerSeries.mk E) n
    rw [← mul_assoc, den_inv, one_mul, PowerSeries.coeff_mk] at this
    linarith
  have key : e n = PowerSeries.coeff n ((den a)⁻¹ * PowerSeries.mk E) := by
    induction n using Nat.strong_induction_on with
    | _ n ih =>
      rw [h n hn, hc n]
      congr 1
      refine sum_congr rfl fun i _ => ?_
      unfold dl
      split
      · rw [ih _ (by omega) (by omega)]
      · rfl
  rw [key, PowerSeries.coeff_mul, Finset.Nat.sum_antidiagonal_eq_sum_range_succ_mk]
  refine sum_congr rfl fun k _ => ?_
  rw [PowerSeries.coeff_mk, imp]

theorem response_le (a : List ℝ) (e E : ℕ → ℝ) (N : ℕ) (G ε : ℝ) (hε : 0 ≤ ε) (hG : ∀ N, ∑ k ∈ range N, |imp a k| ≤ G)
    (h : ∀ n < N, e n = E n - ∑ i ∈ range (a.length - 1), a.getD (i + 1) 0 * dl e n (i + 1)) (hE : ∀ n < N, |E n| ≤ ε) (n : ℕ) (hn : n < N) :
    |e n| ≤ G * ε := by
  rw [response a e E N h n hn]
  calc _ ≤ ∑ k ∈ range (n + 1), |imp a k * E (n - k)| := abs_sum_le_sum_abs _ _
    _ ≤ ∑ k ∈ range (n + 1), |imp a k| * ε := by
        refine sum_le_sum fun k _ => ?_
        rw [abs_mul]
        exact mul_le_mul_of_nonneg_left (hE _ (by omega)) (abs_nonneg _)
    _ = (∑ k ∈ range (n + 1), |imp a k|) * ε := by rw [sum_mul]
    _ ≤ G * ε := mul_le_mul_of_nonneg_right (hG _) hε

/-- The response to a unit impulse, as the difference equation defines it. -/
theorem imp_diffEq (a : List ℝ) (N : ℕ) : DiffEq [1] a (1 :: List.replicate N 0) ((List.range (N + 1)).map (imp a)) := by
  refine ⟨by simp, fun n hn => ?_⟩
  simp only [List.length_cons, List.length_replicate] at hn
  have h := den_mul a (den a)⁻¹ n
  rw [den_inv, PowerSeries.coeff_one] at h
  have e1 : ((List.range (N + 1)).map (imp a)).getD n 0 = imp a n := by
    simp [List.getD_eq_getElem?_getD, hn]
  have e2 : ∑ i ∈ range [(1 : ℝ)].length, [(1 : ℝ)].getD i 0 * delayed (1 :: List.replicate N 0) n i = if n = 0 then 1 else 0 := by
    simp only [List.length_singleton, sum_range_one, delayed, List.getD_cons_zero, one_mul, Nat.zero_le, if_true, Nat.sub_zero]
    cases n with
    | zero => simp
    | succ n =>
      rw [if_neg (by omega), List.getD_cons_succ, List.getD_eq_getElem?_getD, List.getElem?_replicate]
      split <;> rfl
  have e3 : ∑ i ∈ range (a.length - 1), a.getD (i + 1) 0 * delayed ((List.range (N + 1)).map (imp a)) n (i + 1)
      = ∑ i ∈ range (a.length - 1), a.getD (i + 1) 0 * dl (fun k => PowerSeries.coeff k (den a)⁻¹) n (i + 1) := by
    refine sum_congr rfl fun i _ => ?_
    unfold delayed dl
    split
    · rw [show ((List.range (N + 1)).map (imp a)).getD (n - (i + 1)) 0 = imp a (n - (i + 1)) by
        have : n - (i + 1) < N + 1 := by omega
        simp [List.getD_eq_getElem?_getD, this]]
      rfl
    · rfl
  rw [e1, e2, e3, h, imp]
  ring

theorem sum_map_range (g : ℕ → ℝ) (n : ℕ) : ((List.range n).map g).sum = ∑ k ∈ range n, g k := by
  induction n with
  | zero => simp
  | succ n ih => rw [List.range_succ, List.map_append, List.sum_append, ih, sum_range_succ]; simp

/-- From a bound on the responses to impulses of finite length. -/
theorem imp_sum_le (a : List ℝ) (G : ℝ) (hG : ∀ N y, DiffEq [1] a (1 :: List.replicate N 0) y → (y.map (fun v => |v|)).sum ≤ G) (N : ℕ) :
    ∑ k ∈ range N, |imp a k| ≤ G := by
  have h := hG N _ (imp_diffEq a N)
  rw [List.map_map, sum_map_range] at h
  refine le_trans ?_ h
  exact sum_le_sum_of_subset_of_nonneg (range_mono (by omega)) (fun _ _ _ => abs_nonneg _)

end QM.Filter
