import Mathlib.Analysis.SpecialFunctions.Pow.Real
import Mathlib.Algebra.BigOperators.Field
import Mathlib.Tactic.LinearCombination

/-!
# Householder reduction of a symmetric matrix

The mathematics behind `tred2`, on functions of two indices.
-/

namespace QM.Pca

open Finset

variable {A : ℕ → ℕ → ℝ} {i : ℕ}

/-- The sum of the magnitudes of row `i` left of the diagonal. -/
noncomputable def rowAbs (A : ℕ → ℕ → ℝ) (i : ℕ) : ℝ := ∑ k ∈ range i, |A i k|

/-- The scaled row. -/
noncomputable def hx (A : ℕ → ℕ → ℝ) (i k : ℕ) : ℝ := A i k / rowAbs A i

noncomputable def h0 (A : ℕ → ℕ → ℝ) (i : ℕ) : ℝ := ∑ k ∈ range i, hx A i k * hx A i k

noncomputable def hg (A : ℕ → ℕ → ℝ) (i : ℕ) : ℝ := if 0 < hx A i (i - 1) then -Real.sqrt (h0 A i) else Real.sqrt (h0 A i)

/-- The vector of the reflection. -/
noncomputable def hu (A : ℕ → ℕ → ℝ) (i k : ℕ) : ℝ := if k = i - 1 then hx A i (i - 1) - hg A i else hx A i k

/-- Half its squared length. -/
noncomputable def hH (A : ℕ → ℕ → ℝ) (i : ℕ) : ℝ := h0 A i - hx A i (i - 1) * hg A i

noncomputable def hp (A : ℕ → ℕ → ℝ) (i r : ℕ) : ℝ := (∑ k ∈ range i, A r k * hu A i k) / hH A i

noncomputable def hK (A : ℕ → ℕ → ℝ) (i : ℕ) : ℝ := (∑ j ∈ range i, hp A i j * hu A i j) / (hH A i + hH A i)

noncomputable def hq (A : ℕ → ℕ → ℝ) (i r : ℕ) : ℝ := hp A i r - hK A i * hu A i r

/-- There is a reflection for row `i`. -/
def Active (A : ℕ → ℕ → ℝ) (i : ℕ) : Prop := 1 < i ∧ rowAbs A i ≠ 0

open Classical in
/-- The element beside the diagonal after the step. -/
noncomputable def side (A : ℕ → ℕ → ℝ) (i : ℕ) : ℝ := if Active A i then rowAbs A i * hg A i else A i (i - 1)

open Classical in
/-- The leading part of the matrix after the step. -/
noncomputable def next (A : ℕ → ℕ → ℝ) (i r c : ℕ) : ℝ :=
  if Active A i then A r c - (hu A i r * hq A i c + hq A i r * hu A i c) else A r c

open Classical in
/-- The reflection. -/
noncomputable def refl (A : ℕ → ℕ → ℝ) (i : ℕ) (x : ℕ → ℝ) (r : ℕ) : ℝ :=
  if Active A i then x r - (∑ k ∈ range i, hu A i k * x k) * (hu A i r / hH A i) else x r

theorem h0_pos (h : Active A i) : 0 < h0 A i := by
  obtain ⟨h1, h2⟩ := h
  unfold h0
  have hne : ∃ k ∈ range i, A i k ≠ 0 := by
    by_contra hc
    push Not at hc
    apply h2
    unfold rowAbs
    exact sum_eq_zero fun k hk => by rw [hc k hk, abs_zero]
  obtain ⟨k, hk, hk'⟩ := hne
  refine sum_pos' (fun _ _ => mul_self_nonneg _) ⟨k, hk, ?_⟩
  exact mul_self_pos.mpr (div_ne_zero hk' h2)

theorem hg_sq : hg A i * hg A i = h0 A i := by
  have h : 0 ≤ h0 A i := sum_nonneg fun _ _ => mul_self_nonneg _
  unfold hg
  split_ifs
  · rw [neg_mul_neg, Real.mul_self_sqrt h]
  · rw [Real.mul_self_sqrt h]

theorem hx_mul_hg_nonpos : hx A i (i - 1) * hg A i ≤ 0 := by
  unfold hg
  split_ifs with h
  · have := Real.sqrt_nonneg (h0 A i)
    nlinarith
  · exact mul_nonpos_of_nonpos_of_nonneg (not_lt.mp h) (Real.sqrt_nonneg _)

theorem hH_pos (h : Active A i) : 0 < hH A i := by
  have h1 := h0_pos h
  have h2 := hx_mul_hg_nonpos (A := A) (i := i)
  unfold hH
  linarith

/-- Inner product with the vector of the reflection. -/
theorem sum_hu (hi : 0 < i) (x : ℕ → ℝ) : ∑ k ∈ range i, hu A i k * x k = (∑ k ∈ range i, hx A i k * x k) - hg A i * x (i - 1) := by
  have hm : i - 1 ∈ range i := mem_range.mpr (by omega)
  rw [← add_sum_erase _ _ hm, ← add_sum_erase _ (fun k => hx A i k * x k) hm]
  have : ∑ k ∈ (range i).erase (i - 1), hu A i k * x k = ∑ k ∈ (range i).erase (i - 1), hx A i k * x k := by
    refine sum_congr rfl fun k hk => ?_
    unfold hu
    rw [if_neg (ne_of_mem_erase hk)]
  rw [this]
  unfold hu
  rw [if_pos rfl]
  ring

theorem sum_hu_sq (hi : 0 < i) : ∑ k ∈ range i, hu A i k * hu A i k = hH A i + hH A i := by
  rw [sum_hu hi]
  have h1 : ∑ k ∈ range i, hx A i k * hu A i k = ∑ k ∈ range i, hu A i k * hx A i k := sum_congr rfl fun _ _ => mul_comm _ _
  rw [h1, sum_hu hi]
  have h2 := hg_sq (A := A) (i := i)
  unfold hH hu
  rw [if_pos rfl]
  have h3 : ∑ k ∈ range i, hx A i k * hx A i k = h0 A i := rfl
  rw [h3]
  linear_combination h2

theorem sum_hu_hx (hi : 0 < i) : ∑ k ∈ range i, hu A i k * hx A i k = hH A i := by
  rw [sum_hu hi]
  unfold hH h0
  ring

/-- The row is reflected to a multiple of the last unit vector. -/
theorem refl_row (h : Active A i) {r : ℕ} : refl A i (fun k => A i k) r = if r = i - 1 then side A i else 0 := by
  have hi : 0 < i := by have := h.1; omega
  have hH := hH_pos h
  unfold refl side
  rw [if_pos h, if_pos h]
  have e : ∀ k, A i k = rowAbs A i * hx A i k := fun k => by unfold hx; rw [mul_div_cancel₀ _ h.2]
  have : ∑ k ∈ range i, hu A i k * A i k = rowAbs A i * Pca.hH A i := by
    rw [← sum_hu_hx hi, mul_sum]
    exact sum_congr rfl fun k _ => by rw [e k]; ring
  rw [this]
  rw [show rowAbs A i * Pca.hH A i * (hu A i r / Pca.hH A i) = rowAbs A i * hu A i r by field_simp]
  beta_reduce
  rw [e r]
  unfold hu
  split_ifs with hr
  · subst hr; ring
  · ring

/-- A reflection is its own inverse. -/
theorem refl_refl (x : ℕ → ℝ) {r : ℕ} : refl A i (refl A i x) r = refl A i x r - (refl A i x r - x r) := by
  by_cases h : Active A i
  · have hi : 0 < i := by have := h.1; omega
    have hH := hH_pos h
    have key : ∑ k ∈ range i, hu A i k * refl A i x k = -∑ k ∈ range i, hu A i k * x k := by
      unfold refl
      simp only [if_pos h, mul_sub, sum_sub_distrib]
      have : ∑ k ∈ range i, hu A i k * ((∑ k ∈ range i, hu A i k * x k) * (hu A i k / Pca.hH A i)) =
          (∑ k ∈ range i, hu A i k * x k) / Pca.hH A i * ∑ k ∈ range i, hu A i k * hu A i k := by
        rw [mul_sum]
        exact sum_congr rfl fun k _ => by ring
      rw [this, sum_hu_sq hi]
      field_simp
      ring
    rw [refl, if_pos h, key]
    conv_rhs => rw [refl, if_pos h]
    rw [refl, if_pos h]
    ring
  · simp [refl, h]

theorem refl_self (x : ℕ → ℝ) {r : ℕ} : refl A i (refl A i x) r = x r := by
  rw [refl_refl]; ring

/-- A reflection keeps inner products. -/
theorem refl_inner (x y : ℕ → ℝ) : ∑ k ∈ range i, refl A i x k * refl A i y k = ∑ k ∈ range i, x k * y k := by
  by_cases h : Active A i
  · have hi : 0 < i := by have := h.1; omega
    have hH := hH_pos h
    unfold refl
    simp only [if_pos h]
    set a := ∑ k ∈ range i, hu A i k * x k with ha
    set b := ∑ k ∈ range i, hu A i k * y k with hb
    have e : ∀ k, (x k - a * (hu A i k / Pca.hH A i)) * (y k - b * (hu A i k / Pca.hH A i)) =
        x k * y k - b / Pca.hH A i * (hu A i k * x k) - a / Pca.hH A i * (hu A i k * y k) +
          a * b / (Pca.hH A i * Pca.hH A i) * (hu A i k * hu A i k) := fun k => by
      field_simp
      ring
    simp only [e]
    rw [sum_add_distrib, sum_sub_distrib, sum_sub_distrib, ← mul_sum, ← mul_sum, ← mul_sum, sum_hu_sq hi, ← ha, ← hb]
    field_simp
    ring
  · simp [refl, h]

theorem refl_lin (x : ℕ → ℕ → ℝ) (w : ℕ → ℝ) (s : Finset ℕ) (r : ℕ) :
    refl A i (fun k => ∑ j ∈ s, x j k * w j) r = ∑ j ∈ s, refl A i (x j) r * w j := by
  by_cases h : Active A i
  · simp only [refl, if_pos h, sub_mul, sum_sub_distrib]
    congr 1
    have : ∑ k ∈ range i, hu A i k * ∑ j ∈ s, x j k * w j = ∑ j ∈ s, (∑ k ∈ range i, hu A i k * x j k) * w j := by
      simp only [mul_sum, sum_mul]
      rw [sum_comm]
      exact sum_congr rfl fun _ _ => sum_congr rfl fun _ _ => by ring
    rw [this, sum_mul]
    exact sum_congr rfl fun _ _ => by ring
  · simp [refl, h]

theorem refl_congr {x y : ℕ → ℝ} (h : ∀ k, k < i → x k = y k) {r : ℕ} (hr : r < i) : refl A i x r = refl A i y r := by
  unfold refl
  rw [h r hr, sum_congr rfl fun k hk => by rw [h k (mem_range.mp hk)]]

/-- Multiplying by the matrix after reflecting is reflecting after multiplying by the next matrix. -/
theorem mul_refl (hs : ∀ r c, r < i → c < i → A r c = A c r) (y : ℕ → ℝ) {r : ℕ} (hr : r < i) :
    ∑ k ∈ range i, A r k * refl A i y k = refl A i (fun t => ∑ k ∈ range i, next A i t k * y k) r := by
  by_cases h : Active A i
  · have hi : 0 < i := by have := h.1; omega
    have hH := hH_pos h
    have hne := hH.ne'
    set U := ∑ k ∈ range i, hu A i k * y k with hU
    set Q := ∑ k ∈ range i, hq A i k * y k with hQ
    set P := ∑ k ∈ range i, hp A i k * y k with hP
    have hp' : ∀ r, ∑ k ∈ range i, A r k * hu A i k = Pca.hH A i * hp A i r := fun r => by unfold hp; rw [mul_div_cancel₀ _ hne]
    have hQP : Q = P - hK A i * U := by
      rw [hQ, hP, hU, mul_sum, ← sum_sub_distrib]
      exact sum_congr rfl fun k _ => by unfold hq; ring
    have hKsum : ∑ k ∈ range i, hp A i k * hu A i k = (Pca.hH A i + Pca.hH A i) * hK A i := by
      unfold hK
      rw [mul_div_cancel₀ _ (by linarith : Pca.hH A i + Pca.hH A i ≠ 0)]
    have huq : ∑ k ∈ range i, hu A i k * hq A i k = 0 := by
      have : ∀ k, hu A i k * hq A i k = hp A i k * hu A i k - hK A i * (hu A i k * hu A i k) := fun k => by unfold hq; ring
      simp only [this]
      rw [sum_sub_distrib, ← mul_sum, hKsum, sum_hu_sq hi]
      ring
    -- the left side
    have hl : ∑ k ∈ range i, A r k * refl A i y k = ∑ k ∈ range i, A r k * y k - hp A i r * U := by
      unfold refl
      simp only [if_pos h, mul_sub, sum_sub_distrib]
      congr 1
      rw [show ∑ k ∈ range i, A r k * (U * (hu A i k / Pca.hH A i)) = U / Pca.hH A i * ∑ k ∈ range i, A r k * hu A i k by
        rw [mul_sum]; exact sum_congr rfl fun k _ => by ring]
      rw [hp']
      field_simp
    -- the rows of the next matrix
    have hn : ∀ t, ∑ k ∈ range i, next A i t k * y k = ∑ k ∈ range i, A t k * y k - hu A i t * Q - hq A i t * U := by
      intro t
      unfold next
      simp only [if_pos h]
      rw [hQ, hU, mul_sum, mul_sum, ← sum_sub_distrib, ← sum_sub_distrib]
      exact sum_congr rfl fun k _ => by ring
    have hAu : ∑ t ∈ range i, hu A i t * ∑ k ∈ range i, A t k * y k = Pca.hH A i * P := by
      rw [hP, mul_sum]
      simp only [mul_sum]
      rw [sum_comm]
      refine sum_congr rfl fun k hk => ?_
      rw [← mul_assoc, ← hp' k, sum_mul]
      refine sum_congr rfl fun t ht => ?_
      rw [hs k t (mem_range.mp hk) (mem_range.mp ht)]
      ring
    rw [hl]
    conv_rhs => rw [refl, if_pos h]
    simp only [hn, mul_sub, sum_sub_distrib]
    rw [hAu]
    rw [show ∑ t ∈ range i, hu A i t * (hu A i t * Q) = Q * (Pca.hH A i + Pca.hH A i) by
      rw [← sum_hu_sq hi, mul_sum]; exact sum_congr rfl fun k _ => by ring]
    rw [show ∑ t ∈ range i, hu A i t * (hq A i t * U) = 0 by
      rw [← zero_mul U, ← huq, sum_mul]; exact sum_congr rfl fun k _ => by ring]
    rw [hQP]
    unfold hq
    field_simp
    ring
  · simp [refl, next, h]

theorem next_symm (hs : ∀ r c, r < i → c < i → A r c = A c r) {r c : ℕ} (hr : r < i) (hc : c < i) : next A i r c = next A i c r := by
  unfold next
  split_ifs
  · rw [hs r c hr hc]; ring
  · exact hs r c hr hc

/-! ## The sequence of matrices -/

/-- The matrix before the step for row `n - 1 - t`. -/
noncomputable def stage (A : ℕ → ℕ → ℝ) (n : ℕ) : ℕ → ℕ → ℕ → ℝ
  | 0 => A
  | t + 1 => next (stage A n t) (n - 1 - t)

/-- The matrix before the step for row `i`. -/
noncomputable def at' (A : ℕ → ℕ → ℝ) (n i : ℕ) : ℕ → ℕ → ℝ := stage A n (n - 1 - i)

theorem at_next (n : ℕ) {i : ℕ} (h : i + 1 < n) : at' A n i = next (at' A n (i + 1)) (i + 1) := by
  unfold at'
  rw [show n - 1 - i = (n - 1 - (i + 1)) + 1 by omega, stage, show n - 1 - (n - 1 - (i + 1)) = i + 1 by omega]

theorem at_symm (n : ℕ) (hs : ∀ r c, r < n → c < n → A r c = A c r) : ∀ t, t < n → ∀ r c, r < n - t → c < n - t → stage A n t r c = stage A n t c r := by
  intro t
  induction t with
  | zero => intro _ r c hr hc; exact hs r c (by omega) (by omega)
  | succ t ih =>
    intro ht r c hr hc
    rw [stage]
    exact next_symm (fun r c hr hc => ih (by omega) r c (by omega) (by omega)) (by omega) (by omega)

/-- The orthogonal matrix of the leading `i + 1` rows and columns. -/
noncomputable def orth (A : ℕ → ℕ → ℝ) (n : ℕ) : ℕ → ℕ → ℕ → ℝ
  | 0 => fun r c => if r = 0 ∧ c = 0 then 1 else 0
  | i + 1 => fun r c =>
    if r = i + 1 then (if c = i + 1 then 1 else 0)
    else if c = i + 1 then 0 else refl (at' A n (i + 1)) (i + 1) (fun k => orth A n i k c) r

theorem orth_row (n i : ℕ) {c : ℕ} (_ : c ≤ i) : orth A n i i c = if c = i then 1 else 0 := by
  cases i with
  | zero => simp [orth]
  | succ i => simp [orth]

theorem orth_col (n i : ℕ) {r : ℕ} (_ : r ≤ i) : orth A n i r i = if r = i then 1 else 0 := by
  cases i with
  | zero => simp [orth]
  | succ i => simp [orth]

/-- The columns are orthonormal. -/
theorem orth_orthonormal (n : ℕ) : ∀ i, ∀ a b, a ≤ i → b ≤ i → ∑ k ∈ range (i + 1), orth A n i k a * orth A n i k b = if a = b then 1 else 0 := by
  intro i
  induction i with
  | zero =>
    intro a b ha hb
    obtain rfl : a = 0 := by omega
    obtain rfl : b = 0 := by omega
    simp [orth]
  | succ i ih =>
    intro a b ha hb
    rw [sum_range_succ, orth_row n (i + 1) ha, orth_row n (i + 1) hb]
    have hk : ∀ k ∈ range (i + 1), ∀ c, orth A n (i + 1) k c = if c = i + 1 then 0 else refl (at' A n (i + 1)) (i + 1) (fun k => orth A n i k c) k := by
      intro k hk c
      have := mem_range.mp hk
      simp only [orth, show k ≠ i + 1 by omega, if_false]
    rw [sum_congr rfl fun k hk' => by rw [hk k hk' a, hk k hk' b]]
    by_cases h1 : a = i + 1
    · subst h1
      by_cases h2 : b = i + 1
      · simp [h2]
      · simp [h2, Ne.symm h2]
    · by_cases h2 : b = i + 1
      · simp [h1, h2]
      · simp only [h1, h2, if_false, mul_zero, add_zero]
        rw [refl_inner]
        exact ih a b (by omega) (by omega)

/-- The element beside the diagonal in row `c`, and the one on it. -/
noncomputable def off (A : ℕ → ℕ → ℝ) (n c : ℕ) : ℝ := side (at' A n c) c

noncomputable def diag (A : ℕ → ℕ → ℝ) (n c : ℕ) : ℝ := at' A n c c c

theorem side_row (hi : 1 ≤ i) {r : ℕ} (hr : r < i) : refl A i (fun k => A i k) r = if r = i - 1 then side A i else 0 := by
  by_cases h : Active A i
  · exact refl_row h
  · unfold refl side
    rw [if_neg h, if_neg h]
    split_ifs with e
    · rw [e]
    · unfold Active at h
      have h1 : 1 < i := by omega
      have h2 : rowAbs A i = 0 := by
        by_contra hne
        exact h ⟨h1, hne⟩
      unfold rowAbs at h2
      rw [sum_eq_zero_iff_of_nonneg fun _ _ => abs_nonneg _] at h2
      exact abs_eq_zero.mp (h2 r (mem_range.mpr hr))

/-- The matrix is tridiagonal in the new basis. -/
theorem tri (n : ℕ) (hs : ∀ r c, r < n → c < n → A r c = A c r) : ∀ i, i < n → ∀ r c, r ≤ i → c ≤ i →
    ∑ k ∈ range (i + 1), at' A n i r k * orth A n i k c =
      (if c = 0 then 0 else off A n c * orth A n i r (c - 1)) + diag A n c * orth A n i r c +
        (if c < i then off A n (c + 1) * orth A n i r (c + 1) else 0) := by
  intro i
  induction i with
  | zero =>
    intro _ r c hr hc
    obtain rfl : r = 0 := by omega
    obtain rfl : c = 0 := by omega
    simp [orth, diag]
  | succ i ih =>
    intro hi r c hr hc
    set B := at' A n (i + 1) with hB
    have hBs : ∀ r c, r < i + 2 → c < i + 2 → B r c = B c r := by
      intro r c hr hc
      exact at_symm n hs (n - 1 - (i + 1)) (by omega) r c (by omega) (by omega)
    have hk : ∀ k, k ≤ i → ∀ c, orth A n (i + 1) k c = if c = i + 1 then 0 else refl B (i + 1) (fun k => orth A n i k c) k := by
      intro k hk c
      simp only [orth, show k ≠ i + 1 by omega, if_false, hB]
    rw [sum_range_succ]
    have hlast : ∀ c, orth A n (i + 1) (i + 1) c = if c = i + 1 then 1 else 0 := fun c => by simp [orth]
    rw [hlast]
    by_cases hc1 : c = i + 1
    · -- the last column
      subst hc1
      rw [sum_eq_zero fun k hk' => by rw [hk k (by have := mem_range.mp hk'; omega), if_pos rfl, mul_zero]]
      simp only [if_true, mul_one, zero_add, lt_irrefl, if_false, add_zero, Nat.succ_ne_zero, Nat.add_sub_cancel]
      by_cases hr1 : r = i + 1
      · subst hr1
        rw [hlast, hlast]
        simp [diag, hB]
      · have hr2 : r ≤ i := by omega
        rw [hk r hr2, hk r hr2, if_pos rfl, if_neg (by omega), mul_zero, add_zero]
        -- B r (i+1) = off * refl (unit) r
        have e1 : B r (i + 1) = refl B (i + 1) (refl B (i + 1) (fun k => B (i + 1) k)) r := by
          rw [refl_self, hBs _ _ (by omega) (by omega)]
        have e2 : refl B (i + 1) (refl B (i + 1) (fun k => B (i + 1) k)) r = refl B (i + 1) (fun k => ∑ j ∈ {0}, (fun _ k => orth A n i k i) j k * off A n (i + 1)) r := by
          have e3 : ∀ k, k < i + 1 → refl B (i + 1) (fun k => B (i + 1) k) k = ∑ j ∈ {0}, (fun _ k => orth A n i k i) j k * off A n (i + 1) := by
            intro k hk
            rw [side_row (by omega) hk, sum_singleton]
            beta_reduce
            rw [orth_col n i (by omega)]
            simp only [Nat.add_sub_cancel]
            split_ifs
            · rw [one_mul]; rfl
            · rw [zero_mul]
          exact refl_congr e3 (by omega)
        rw [e1, e2, refl_lin, sum_singleton, mul_comm]
    · have hc2 : c ≤ i := by omega
      rw [if_neg hc1, mul_zero, add_zero, if_pos (show c < i + 1 by omega)]
      rw [sum_congr rfl fun k hk' => by rw [hk k (by have := mem_range.mp hk'; omega), if_neg hc1]]
      by_cases hr1 : r = i + 1
      · -- the last row
        subst hr1
        rw [hlast, hlast, hlast, if_neg (show ¬ c - 1 = i + 1 by omega), if_neg hc1, mul_zero, ite_self, mul_zero, add_zero, zero_add]
        have e1 : ∑ k ∈ range (i + 1), B (i + 1) k * refl B (i + 1) (fun k => orth A n i k c) k =
            ∑ k ∈ range (i + 1), refl B (i + 1) (fun k => B (i + 1) k) k * orth A n i k c := by
          rw [← refl_inner (A := B)]
          exact sum_congr rfl fun k _ => by rw [refl_self]
        rw [e1, sum_congr rfl fun k hk => by rw [side_row (by omega) (mem_range.mp hk)]]
        simp only [Nat.add_sub_cancel, ite_mul, zero_mul]
        rw [sum_ite_eq' (range (i + 1)) i, if_pos (mem_range.mpr (by omega)), orth_row n i hc2]
        by_cases e : c = i
        · subst e; simp [off, hB]
        · simp [e]
      · have hr2 : r ≤ i := by omega
        rw [mul_refl (fun r c hr hc => hBs r c (by omega) (by omega)) _ (show r < i + 1 by omega)]
        have e1 : ∀ t, t < i + 1 → ∑ k ∈ range (i + 1), next B (i + 1) t k * orth A n i k c =
            ∑ j ∈ range 3, (fun j k => if j = 0 then orth A n i k (c - 1) else if j = 1 then orth A n i k c else orth A n i k (c + 1)) j t *
              (fun j => if j = 0 then (if c = 0 then 0 else off A n c) else if j = 1 then diag A n c else if c < i then off A n (c + 1) else 0) j := by
          intro t ht
          rw [hB, ← at_next n hi, ih (by omega) t c (by omega) hc2]
          simp only [sum_range_succ, sum_range_zero, zero_add]
          norm_num
          by_cases h1 : c = 0 <;> by_cases h2 : c < i <;> simp [h1, h2] <;> ring
        have e2 : refl B (i + 1) (fun t => ∑ k ∈ range (i + 1), next B (i + 1) t k * orth A n i k c) r =
            refl B (i + 1) (fun t => ∑ j ∈ range 3, (fun j k => if j = 0 then orth A n i k (c - 1) else if j = 1 then orth A n i k c else orth A n i k (c + 1)) j t *
              (fun j => if j = 0 then (if c = 0 then 0 else off A n c) else if j = 1 then diag A n c else if c < i then off A n (c + 1) else 0) j) r := by
          exact refl_congr e1 (by omega)
        rw [e2, refl_lin]
        simp only [sum_range_succ, sum_range_zero, zero_add]
        norm_num
        rw [hk r hr2, hk r hr2, hk r hr2, if_neg (show ¬ c - 1 = i + 1 by omega), if_neg hc1]
        by_cases h2 : c < i
        · rw [if_pos h2, if_neg (show ¬ c + 1 = i + 1 by omega)]
          by_cases h1 : c = 0
          · simp [h1]; ring
          · simp [h1]; ring
        · rw [if_neg h2, if_pos (show c + 1 = i + 1 by omega)]
          by_cases h1 : c = 0
          · simp [h1]; ring
          · simp [h1]; ring

end QM.Pca
