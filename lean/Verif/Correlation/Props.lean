import Verif.Correlation.Model
import Verif.Common.Sum
import Mathlib.Algebra.Order.BigOperators.Ring.Finset
import Mathlib.Data.Rat.Defs
import Mathlib.Algebra.Order.Ring.Rat
import Mathlib.Algebra.Field.Rat
import Mathlib.Tactic.Linarith
import Mathlib.Tactic.Positivity
import Mathlib.Tactic.NormNum

namespace QM.Correlation

variable {K : Type} [Field K] [LinearOrder K] [IsStrictOrderedRing K]

/-- The sum of the products of samples `lag` apart. -/
def overlap (src : List K) (n lag : Nat) : K := ∑ j ∈ Finset.range (n - lag), src.getD j 0 * src.getD (lag + j) 0

theorem eps_pos : (0 : K) < eps := by unfold eps; positivity

/-- C49. For every lag the output is the mean product of the overlapping samples if that is positive, and 2.2204e-16 otherwise. -/
theorem C49_value (src dst : List K) (n : Nat) (hs : n ≤ src.length) (hd : dst.length = n) :
    ∃ dst', doAutoUnBiased src dst n = some dst' ∧ dst'.length = n ∧ ∀ i : Nat, i < n →
      dst'[i]? = some (if 0 < overlap src n i then overlap src n i / ((n - i : Nat) : K) else 22204 / 10 ^ 20) := by
  change ∃ dst', doAutoUnBiased src dst n = some dst' ∧ dst'.length = n ∧ ∀ i : Nat, i < n →
      dst'[i]? = some (if 0 < overlap src n i then overlap src n i / ((n - i : Nat) : K) else eps)
  obtain ⟨d, h1, h2⟩ := fill_part (L := n) (new := fun i => if 0 < overlap src n i then overlap src n i / ((n - i : Nat) : K) else eps)
    (holds_of_length hd 0) (f := fun i (dst : List K) => do
      let tmp ← loop (n - i) (fun t (tmp : K) => do
        let a ← src[i + t - i]?
        let b ← src[i + t]?
        pure (tmp + a * b)) 0
      let outVal := tmp / ((n - i : Nat) : K)
      if outVal ≤ 0 then wr dst i eps else wr dst i outVal)
    (by
      intro i ys hi _
      rw [bind_ok (loop_sum (n - i) _ (fun j => src.getD j 0 * src.getD (i + j) 0) 0
        (by
          intro j acc hj
          rw [Nat.add_sub_cancel_left, get_getD src j 0 (by omega), get_getD src (i + j) 0 (by omega)]
          rfl)), zero_add]
      change (if overlap src n i / ((n - i : Nat) : K) ≤ 0 then wr ys i eps else wr ys i (overlap src n i / ((n - i : Nat) : K))) = _
      have hp : (0 : K) < ((n - i : Nat) : K) := by exact_mod_cast (show 0 < n - i by omega)
      by_cases hc : 0 < overlap src n i
      · rw [if_pos hc, if_neg (not_le.mpr (div_pos hc hp))]
      · rw [if_neg hc, if_pos (div_nonpos_of_nonpos_of_nonneg (not_lt.mp hc) hp.le)])
  exact ⟨d, h1, h2.1, h2.2⟩

/-- C49. Every output is positive. -/
theorem C49_positive (src dst : List K) (n : Nat) (hs : n ≤ src.length) (hd : dst.length = n) :
    ∃ dst', doAutoUnBiased src dst n = some dst' ∧ dst'.length = n ∧ ∀ x ∈ dst', 0 < x := by
  obtain ⟨d, h1, h2, h3⟩ := C49_value src dst n hs hd
  refine ⟨d, h1, h2, fun x hx => ?_⟩
  obtain ⟨i, hi, e⟩ := List.getElem_of_mem hx
  have := h3 i (by omega)
  rw [List.getElem?_eq_getElem hi, e, Option.some.injEq] at this
  rw [this]
  have hp : (0 : K) < ((n - i : Nat) : K) := by exact_mod_cast (show 0 < n - i by omega)
  split
  · next h => exact div_pos h hp
  · exact eps_pos

/-- C49. At lag 0 the output is the mean energy, and no lag has more total product than lag 0: the output at lag `i` times the number
of overlapping samples is at most `n` times the output at lag 0 (if the block is not silent and the output at lag `i` is not the floor). -/
theorem C49_lag_zero (src dst : List K) (n : Nat) (hs : n ≤ src.length) (hd : dst.length = n)
    (hnz : ∃ j, j < n ∧ src.getD j 0 ≠ 0) :
    ∃ dst', doAutoUnBiased src dst n = some dst' ∧ dst'[0]? = some ((∑ j ∈ Finset.range n, src.getD j 0 ^ 2) / (n : K)) ∧
      ∀ i : Nat, i < n → 0 < overlap src n i → ∃ x, dst'[i]? = some x ∧ x * ((n - i : Nat) : K) ≤ ∑ j ∈ Finset.range n, src.getD j 0 ^ 2 := by
  obtain ⟨d, h1, h2, h3⟩ := C49_value src dst n hs hd
  obtain ⟨j0, hj0, hne⟩ := hnz
  have he : overlap src n 0 = ∑ j ∈ Finset.range n, src.getD j 0 ^ 2 := by
    unfold overlap
    exact Finset.sum_congr rfl fun j _ => by rw [Nat.zero_add, pow_two]
  have hpos : 0 < overlap src n 0 := by
    rw [he]
    exact Finset.sum_pos' (fun j _ => sq_nonneg _) ⟨j0, Finset.mem_range.mpr hj0, by positivity⟩
  refine ⟨d, h1, ?_, fun i hi hp => ?_⟩
  · rw [h3 0 (by omega), if_pos hpos, he, Nat.sub_zero]
  · refine ⟨_, h3 i hi, ?_⟩
    have hq : (0 : K) < ((n - i : Nat) : K) := by exact_mod_cast (show 0 < n - i by omega)
    rw [if_pos hp, div_mul_cancel₀ _ (ne_of_gt hq)]
    -- 2ab ≤ a² + b² termwise, and both halves are part of the energy
    have h2 : 2 * overlap src n i ≤ ∑ j ∈ Finset.range (n - i), src.getD j 0 ^ 2 + ∑ j ∈ Finset.range (n - i), src.getD (i + j) 0 ^ 2 := by
      unfold overlap
      rw [Finset.mul_sum, ← Finset.sum_add_distrib]
      exact Finset.sum_le_sum fun j _ => by nlinarith [sq_nonneg (src.getD j 0 - src.getD (i + j) 0)]
    have h4 : ∑ j ∈ Finset.range (n - i), src.getD j 0 ^ 2 ≤ ∑ j ∈ Finset.range n, src.getD j 0 ^ 2 :=
      Finset.sum_le_sum_of_subset_of_nonneg (fun j hj => Finset.mem_range.mpr (by have := Finset.mem_range.mp hj; omega))
        (fun _ _ _ => sq_nonneg _)
    have h5 : ∑ j ∈ Finset.range (n - i), src.getD (i + j) 0 ^ 2 ≤ ∑ j ∈ Finset.range n, src.getD j 0 ^ 2 := by
      rw [← Finset.sum_Ico_eq_sum_range (fun j => src.getD j 0 ^ 2) i n]
      exact Finset.sum_le_sum_of_subset_of_nonneg (fun j hj => Finset.mem_range.mpr (by have := Finset.mem_Ico.mp hj; omega))
        (fun _ _ _ => sq_nonneg _)
    linarith

/-- The output itself need not be greatest at lag 0: the mean over few overlapping samples can exceed the mean energy. -/
theorem C49_lag_zero_not_greatest : doAutoUnBiased [3, 0, (3 : ℚ)] [0, 0, 0] 3 = some [6, 22204 / 10 ^ 20, 9] := by decide +kernel

example : (∃ j, j < 3 ∧ ([3, 0, 3] : List ℚ).getD j 0 ≠ 0) ∧ 0 < overlap ([3, 0, 3] : List ℚ) 3 2 := by
  refine ⟨⟨0, by omega, by decide⟩, by decide +kernel⟩

/-- A block shorter than the stated length is read past its end. -/
theorem C49_short_block (src dst : List K) (n : Nat) (h : src.length < n) : doAutoUnBiased src dst n = none := by
  unfold doAutoUnBiased
  refine loop_none_of_le (m := 1) (by omega) ?_
  have : loop (n - 0) (fun t (tmp : K) => do
      let a ← src[0 + t - 0]?
      let b ← src[0 + t]?
      pure (tmp + a * b)) 0 = none := by
    refine loop_none_of_le (m := src.length + 1) (by omega) ?_
    rw [loop]
    cases loop src.length (fun t (tmp : K) => do
      let a ← src[0 + t - 0]?
      let b ← src[0 + t]?
      pure (tmp + a * b)) 0 with
    | none => rfl
    | some t => simp
  rw [loop, loop, Option.bind_some, this]
  rfl

end QM.Correlation
