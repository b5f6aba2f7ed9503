import Verif.DCT.Spec
import Mathlib.LinearAlgebra.Matrix.NonsingularInverse
import Mathlib.Algebra.BigOperators.Field
import Mathlib.Tactic.Linarith
import Mathlib.Tactic.FieldSimp

namespace QM.DCT

theorem ker_zero (n j : Nat) : ker n 0 j = 1 := by simp [ker]

/-- The sum of the kernel over one period vanishes except at frequency 0. -/
theorem sum_ker {n a : Nat} (h0 : 0 < a) (h1 : a < 2 * n) : ∑ j ∈ Finset.range n, ker n a j = 0 := by
  have hn : (0 : ℝ) < n := by exact_mod_cast (show 0 < n by omega)
  have ha : (0 : ℝ) < a := by exact_mod_cast h0
  have hlt : (a : ℝ) < 2 * n := by exact_mod_cast h1
  have hs : Real.sin (Real.pi * a / (2 * n)) ≠ 0 := by
    apply ne_of_gt
    apply Real.sin_pos_of_pos_of_lt_pi
    · exact div_pos (mul_pos Real.pi_pos ha) (by linarith)
    · rw [div_lt_iff₀ (by linarith)]
      exact mul_lt_mul_of_pos_left hlt Real.pi_pos
  have key : ∀ m : Nat, 2 * Real.sin (Real.pi * a / (2 * n)) * ∑ j ∈ Finset.range m, ker n a j =
      Real.sin (Real.pi * a * m / n) := by
    intro m
    induction m with
    | zero => simp
    | succ m ih =>
      rw [Finset.sum_range_succ, mul_add, ih, ker]
      have e1 : Real.pi * a * ((m + 1 : Nat) : ℝ) / n =
          Real.pi * a * (2 * m + 1) / (2 * n) + Real.pi * a / (2 * n) := by
        push_cast; field_simp; ring
      have e2 : Real.pi * a * (m : ℝ) / n =
          Real.pi * a * (2 * m + 1) / (2 * n) - Real.pi * a / (2 * n) := by
        field_simp; ring
      rw [e1, e2, Real.sin_add, Real.sin_sub]
      ring
  have := key n
  rw [mul_div_cancel_right₀ _ (ne_of_gt hn), mul_comm Real.pi (a : ℝ), Real.sin_nat_mul_pi] at this
  rcases mul_eq_zero.mp this with h | h
  · exfalso; rw [mul_comm Real.pi (a : ℝ)] at hs; apply hs; linarith
  · exact h

theorem ker_mul (n k l j : Nat) (h : l ≤ k) : ker n k j * ker n l j = (ker n (k + l) j + ker n (k - l) j) / 2 := by
  unfold ker
  have e1 : Real.pi * ((k + l : Nat) : ℝ) * (2 * j + 1) / (2 * n) =
      Real.pi * k * (2 * j + 1) / (2 * n) + Real.pi * l * (2 * j + 1) / (2 * n) := by push_cast; ring
  have e2 : Real.pi * ((k - l : Nat) : ℝ) * (2 * j + 1) / (2 * n) =
      Real.pi * k * (2 * j + 1) / (2 * n) - Real.pi * l * (2 * j + 1) / (2 * n) := by
    rw [Nat.cast_sub h]; ring
  rw [e1, e2, Real.cos_add, Real.cos_sub]
  ring

/-- Orthogonality of the rows of the DCT-II. -/
theorem ker_orth {n k l : Nat} (hk : k < n) (hl : l < n) :
    ∑ j ∈ Finset.range n, ker n k j * ker n l j = if k = l then (if k = 0 then (n : ℝ) else n / 2) else 0 := by
  wlog h : l ≤ k generalizing k l with H
  · have := H hl hk (by omega)
    simp only [mul_comm (ker n k _)]
    rw [this]
    rw [if_neg (by omega), if_neg (by omega)]
  rw [Finset.sum_congr rfl fun j _ => ker_mul n k l j h, ← Finset.sum_div, Finset.sum_add_distrib]
  by_cases e : k = l
  · subst e
    rw [if_pos rfl, Nat.sub_self]
    simp only [ker_zero, Finset.sum_const, Finset.card_range, nsmul_eq_mul, mul_one]
    by_cases e0 : k = 0
    · subst e0; simp [ker_zero]
    · rw [if_neg e0, sum_ker (by omega) (by omega)]; ring
  · rw [if_neg e, sum_ker (by omega) (by omega), sum_ker (by omega) (by omega)]; simp

/-- The scale of row `k` of the unitary transform. -/
noncomputable def rowScale (n k : Nat) : ℝ := if k = 0 then Real.sqrt (1 / n) else Real.sqrt (2 / n)

/-- The matrix of the unitary DCT. -/
noncomputable def U (n : Nat) : Matrix (Fin n) (Fin n) ℝ := fun k j => rowScale n k * ker n k j

theorem U_mul_transpose (n : Nat) : U n * (U n).transpose = 1 := by
  ext k l
  have hn : (0 : ℝ) < n := by exact_mod_cast (show 0 < n from lt_of_le_of_lt (Nat.zero_le _) k.2)
  rw [Matrix.mul_apply]
  have : ∀ j : Fin n, U n k j * (U n).transpose j l = (rowScale n k * rowScale n l) * (ker n k j * ker n l j) := by
    intro j; simp only [U, Matrix.transpose_apply]; ring
  rw [Finset.sum_congr rfl fun j _ => this j, ← Finset.mul_sum,
    ← Finset.sum_range (fun j => ker n k j * ker n l j), ker_orth k.2 l.2]
  by_cases e : k = l
  · subst e
    rw [if_pos rfl, Matrix.one_apply_eq]
    unfold rowScale
    by_cases e0 : (k : Nat) = 0
    · rw [if_pos e0, if_pos e0, Real.mul_self_sqrt (by positivity)]; field_simp
    · rw [if_neg e0, if_neg e0, Real.mul_self_sqrt (by positivity)]; field_simp
  · rw [if_neg (fun h => e (Fin.ext h)), Matrix.one_apply_ne e, mul_zero]

theorem U_transpose_mul (n : Nat) : (U n).transpose * U n = 1 := mul_eq_one_comm.mp (U_mul_transpose n)

/-- Columns of the unitary transform are orthonormal. -/
theorem col_orth {n : Nat} {i j : Nat} (hi : i < n) (hj : j < n) :
    ∑ k ∈ Finset.range n, rowScale n k * rowScale n k * (ker n k i * ker n k j) = if i = j then 1 else 0 := by
  have := congrFun (congrFun (U_transpose_mul n) ⟨i, hi⟩) ⟨j, hj⟩
  rw [Matrix.mul_apply, Matrix.one_apply] at this
  simp only [Fin.mk.injEq] at this
  rw [← this, Finset.sum_range]
  refine Finset.sum_congr rfl fun k _ => ?_
  simp only [U, Matrix.transpose_apply]
  ring

theorem dctU_eq (n : Nat) (x : Nat → ℝ) (k : Nat) : dctU n x k = rowScale n k * dct2 n x k := rfl

/-- Energy is preserved. -/
theorem dctU_energy (n : Nat) (x : Nat → ℝ) :
    ∑ k ∈ Finset.range n, dctU n x k ^ 2 = ∑ j ∈ Finset.range n, x j ^ 2 := by
  have h1 : ∀ k, dctU n x k ^ 2 = ∑ i ∈ Finset.range n, ∑ j ∈ Finset.range n,
      x i * x j * (rowScale n k * rowScale n k * (ker n k i * ker n k j)) := by
    intro k
    rw [dctU_eq, dct2, sq, mul_mul_mul_comm, Finset.sum_mul_sum, Finset.mul_sum]
    refine Finset.sum_congr rfl fun i _ => ?_
    rw [Finset.mul_sum]
    refine Finset.sum_congr rfl fun j _ => ?_
    ring
  rw [Finset.sum_congr rfl fun k _ => h1 k, Finset.sum_comm]
  refine Finset.sum_congr rfl fun i hi => ?_
  rw [Finset.sum_comm]
  rw [Finset.mem_range] at hi
  have : ∀ j ∈ Finset.range n, ∑ k ∈ Finset.range n, x i * x j * (rowScale n k * rowScale n k * (ker n k i * ker n k j)) =
      if i = j then x i * x j else 0 := by
    intro j hj
    rw [Finset.mem_range] at hj
    rw [← Finset.mul_sum, col_orth hi hj]
    split_ifs <;> simp
  rw [Finset.sum_congr rfl this, Finset.sum_ite_eq, if_pos (Finset.mem_range.mpr hi)]
  ring

theorem rowScale_sq (n : Nat) (k : Nat) : rowScale n k * rowScale n k = if k = 0 then 1 / (n : ℝ) else 2 / n := by
  unfold rowScale
  split_ifs
  · exact Real.mul_self_sqrt (by positivity)
  · exact Real.mul_self_sqrt (by positivity)

/-- The DCT-III undoes the DCT-II. -/
theorem dct3_dct2 {n m : Nat} (hm : m < n) (x : Nat → ℝ) : dct3 n (dct2 n x) m = n / 2 * x m := by
  have hn : (0 : ℝ) < n := by exact_mod_cast (show 0 < n by omega)
  have h1 : dct3 n (dct2 n x) m = n / 2 * ∑ k ∈ Finset.range n, rowScale n k * rowScale n k * (dct2 n x k * ker n k m) := by
    rw [dct3, Finset.range_eq_Ico, Finset.sum_eq_sum_Ico_succ_bot (show 0 < n by omega), mul_add, ker_zero, rowScale_sq, if_pos rfl,
      Finset.mul_sum]
    congr 1
    · field_simp
    · refine Finset.sum_congr rfl fun k hk => ?_
      rw [Finset.mem_Ico] at hk
      rw [rowScale_sq, if_neg (by omega)]
      field_simp
  rw [h1]
  congr 1
  have h2 : ∀ k, rowScale n k * rowScale n k * (dct2 n x k * ker n k m) =
      ∑ j ∈ Finset.range n, x j * (rowScale n k * rowScale n k * (ker n k j * ker n k m)) := by
    intro k
    rw [dct2, Finset.sum_mul, Finset.mul_sum]
    refine Finset.sum_congr rfl fun j _ => ?_
    ring
  rw [Finset.sum_congr rfl fun k _ => h2 k, Finset.sum_comm]
  have : ∀ j ∈ Finset.range n, ∑ k ∈ Finset.range n, x j * (rowScale n k * rowScale n k * (ker n k j * ker n k m)) =
      if j = m then x j else 0 := by
    intro j hj
    rw [Finset.mem_range] at hj
    rw [← Finset.mul_sum, col_orth hj hm]
    split_ifs <;> simp
  rw [Finset.sum_congr rfl this, Finset.sum_ite_eq', if_pos (Finset.mem_range.mpr hm)]

/-- The DCT-II undoes the DCT-III. -/
theorem dct2_dct3 {n k : Nat} (hk : k < n) (y : Nat → ℝ) : dct2 n (dct3 n y) k = n / 2 * y k := by
  have h1 : ∀ m, dct3 n y m * ker n k m =
      ∑ l ∈ Finset.range n, (if l = 0 then y 0 / 2 else y l) * (ker n k m * ker n l m) := by
    intro m
    rw [dct3, Finset.range_eq_Ico, Finset.sum_eq_sum_Ico_succ_bot (show 0 < n by omega), add_mul, ker_zero, if_pos rfl, Finset.sum_mul]
    congr 1
    · ring
    · refine Finset.sum_congr rfl fun l hl => ?_
      rw [Finset.mem_Ico] at hl
      rw [if_neg (by omega)]; ring
  rw [dct2, Finset.sum_congr rfl fun m _ => h1 m, Finset.sum_comm]
  have : ∀ l ∈ Finset.range n, ∑ m ∈ Finset.range n, (if l = 0 then y 0 / 2 else y l) * (ker n k m * ker n l m) =
      if k = l then n / 2 * y k else 0 := by
    intro l hl
    rw [Finset.mem_range] at hl
    rw [← Finset.mul_sum, ker_orth hk hl]
    by_cases e : k = l
    · subst e
      rw [if_pos rfl, if_pos rfl]
      split_ifs with h0
      · subst h0; ring
      · ring
    · rw [if_neg e, if_neg e, mul_zero]
  rw [Finset.sum_congr rfl this, Finset.sum_ite_eq, if_pos (Finset.mem_range.mpr hk)]

/-- A sum over an even period whose terms are symmetric or antisymmetric about the middle. -/
theorem sum_fold (m : Nat) (hm : 0 < m) (σ : ℝ) (G : Nat → ℝ) (h : ∀ k, 0 < k → k < m → G (2 * m - k) = σ * G k) :
    ∑ k ∈ Finset.range (2 * m), G k = G 0 + G m + (1 + σ) * ∑ k ∈ Finset.Ico 1 m, G k := by
  have e1 : ∑ k ∈ Finset.range (2 * m), G k = ∑ k ∈ Finset.range m, G k + ∑ k ∈ Finset.range m, G (m + k) := by
    rw [two_mul, Finset.sum_range_add]
  have e2 : ∑ k ∈ Finset.range m, G k = G 0 + ∑ k ∈ Finset.Ico 1 m, G k := by
    rw [Finset.range_eq_Ico, Finset.sum_eq_sum_Ico_succ_bot hm]
  have e3 : ∑ k ∈ Finset.range m, G (m + k) = G m + ∑ k ∈ Finset.Ico 1 m, G (m + k) := by
    rw [Finset.range_eq_Ico, Finset.sum_eq_sum_Ico_succ_bot hm]; rfl
  have e4 : ∑ k ∈ Finset.Ico 1 m, G (m + k) = σ * ∑ k ∈ Finset.Ico 1 m, G k := by
    rw [Finset.mul_sum]
    refine Finset.sum_nbij' (fun k => m - k) (fun k => m - k) ?_ ?_ ?_ ?_ ?_
    · intro k hk; rw [Finset.mem_Ico] at hk ⊢; omega
    · intro k hk; rw [Finset.mem_Ico] at hk ⊢; omega
    · intro k hk; rw [Finset.mem_Ico] at hk; omega
    · intro k hk; rw [Finset.mem_Ico] at hk; omega
    · intro k hk
      rw [Finset.mem_Ico] at hk
      rw [← h (m - k) (by omega) (by omega), show 2 * m - (m - k) = m + k by omega]
  rw [e1, e2, e3, e4]; ring

end QM.DCT
