import Verif.Common.DoubleOps
import Mathlib.Algebra.BigOperators.Group.Finset.Basic
import Mathlib.Algebra.Order.BigOperators.Group.Finset
import Mathlib.Tactic.Ring

/-!
# Sums computed in double precision
-/

namespace QM.Double

/-- A sum added up from the left in double precision. -/
noncomputable def flSum (fl : ℝ → ℝ) (t : ℕ → ℝ) : ℕ → ℝ
  | 0 => 0
  | n + 1 => fl (flSum fl t n + t n)

variable {fl : ℝ → ℝ} (hfl : Rounds fl) {M : ℝ} (hM : Scale M)

include hfl hM in
/-- Terms that are themselves `c` units off on average: the sum is off by three more units for each term. -/
theorem flSum_near (t e : ℕ → ℝ) (d : ℝ) (hd : 0 ≤ d) (hd' : d ≤ 2 ^ 5) (n : ℕ) (hn : (n : ℝ) ≤ 2 ^ 40) (ht : ∀ k < n, |e k - t k| ≤ d * (M / 2 ^ 53))
    (hs : ∀ m ≤ n, |∑ k ∈ Finset.range m, t k| ≤ M) :
    |flSum fl e n - ∑ k ∈ Finset.range n, t k| ≤ (d + 3) * n * (M / 2 ^ 53) := by
  have hw := unit_pos hM
  have hMp := hM.pos
  induction n with
  | zero => simp [flSum]
  | succ n ih =>
    push_cast at hn
    have h1 := ih (by linarith) (fun k hk => ht k (by omega)) (fun m hm => hs m (by omega))
    have h2 := ht n (by omega)
    have h3 := hs (n + 1) le_rfl
    rw [Finset.sum_range_succ] at h3 ⊢
    set S := ∑ k ∈ Finset.range n, t k with hS
    have hn0 : (0 : ℝ) ≤ n := Nat.cast_nonneg n
    have h4 : |flSum fl e n + e n - (S + t n)| ≤ ((d + 3) * n + d) * (M / 2 ^ 53) := by
      have := abs_add_le (flSum fl e n - S) (e n - t n)
      rw [show flSum fl e n + e n - (S + t n) = flSum fl e n - S + (e n - t n) by ring]
      calc _ ≤ _ := this
        _ ≤ (d + 3) * n * (M / 2 ^ 53) + d * (M / 2 ^ 53) := add_le_add h1 h2
        _ = _ := by ring
    have h5 : ((d + 3) * n + d) * (M / 2 ^ 53) ≤ M := by
      have : (d + 3) * n + d ≤ 2 ^ 46 := by nlinarith
      calc _ ≤ 2 ^ 46 * (M / 2 ^ 53) := mul_le_mul_of_nonneg_right this hw
        _ ≤ M := by
          rw [← mul_div_assoc, div_le_iff₀ (by norm_num)]
          nlinarith
    have h6 : |flSum fl e n + e n| ≤ 2 * M := by
      have := abs_le_of_sub _ _ _ _ h4 h3
      linarith
    have h7 := rnd hfl hM (flSum fl e n + e n) 2 (by norm_num) h6
    have h8 := abs_add_le (fl (flSum fl e n + e n) - (flSum fl e n + e n)) (flSum fl e n + e n - (S + t n))
    rw [flSum]
    rw [show fl (flSum fl e n + e n) - (flSum fl e n + e n) + (flSum fl e n + e n - (S + t n)) = fl (flSum fl e n + e n) - (S + t n) by ring] at h8
    push_cast
    calc _ ≤ _ := h8
      _ ≤ (2 + 1) * (M / 2 ^ 53) + ((d + 3) * n + d) * (M / 2 ^ 53) := add_le_add h7 h4
      _ = (d + 3) * (n + 1) * (M / 2 ^ 53) := by ring

theorem partial_abs_le (t : ℕ → ℝ) (n m : ℕ) (hm : m ≤ n) (h : ∑ k ∈ Finset.range n, |t k| ≤ M) : |∑ k ∈ Finset.range m, t k| ≤ M :=
  (Finset.abs_sum_le_sum_abs _ _).trans ((Finset.sum_le_sum_of_subset_of_nonneg (Finset.range_mono hm) (fun _ _ _ => abs_nonneg _)).trans h)

include hfl hM in
/-- The sum of exact terms. -/
theorem flSum_exact (t : ℕ → ℝ) (n : ℕ) (hn : (n : ℝ) ≤ 2 ^ 40) (hs : ∑ k ∈ Finset.range n, |t k| ≤ M) :
    |flSum fl t n - ∑ k ∈ Finset.range n, t k| ≤ 3 * n * (M / 2 ^ 53) := by
  have := flSum_near hfl hM t t 0 le_rfl (by norm_num) n hn (by intro k _; simp) (fun m hm => partial_abs_le t n m hm hs)
  simpa using this

include hfl hM in
/-- The sum of products, each of them rounded. -/
theorem flSum_rounded (t : ℕ → ℝ) (n : ℕ) (hn : (n : ℝ) ≤ 2 ^ 40) (hs : ∑ k ∈ Finset.range n, |t k| ≤ M) :
    |flSum fl (fun k => fl (t k)) n - ∑ k ∈ Finset.range n, t k| ≤ 5 * n * (M / 2 ^ 53) := by
  have := flSum_near hfl hM t (fun k => fl (t k)) 2 (by norm_num) (by norm_num) n hn (fun k hk => by
    have h1 : |t k| ≤ 1 * M := by
      rw [one_mul]
      exact (Finset.single_le_sum (f := fun k => |t k|) (fun _ _ => abs_nonneg _) (Finset.mem_range.2 hk)).trans hs
    have := rnd hfl hM (t k) 1 (by norm_num) h1
    linarith) (fun m hm => partial_abs_le t n m hm hs)
  calc _ ≤ _ := this
    _ = _ := by ring

end QM.Double
