import Verif.Kiss.Model
import Verif.Kiss.Spec
import Mathlib.RingTheory.RootsOfUnity.Complex
import Mathlib.Tactic.Linarith
import Mathlib.Tactic.FieldSimp

namespace QM.DFT

open Complex

theorem root_ne_zero (inv : Bool) (n : Nat) : root inv n ≠ 0 := Complex.exp_ne_zero _

theorem root_true (n : Nat) : root true n = Complex.exp (2 * Real.pi * I / n) := by simp [root]

theorem root_false (n : Nat) : root false n = (Complex.exp (2 * Real.pi * I / n))⁻¹ := by
  simp [root, Complex.exp_neg]

theorem root_primitive (inv : Bool) {n : Nat} (hn : n ≠ 0) : IsPrimitiveRoot (root inv n) n := by
  cases inv
  · rw [root_false]; exact (Complex.isPrimitiveRoot_exp n hn).inv
  · rw [root_true]; exact Complex.isPrimitiveRoot_exp n hn

theorem root_pow_self (inv : Bool) {n : Nat} (hn : n ≠ 0) : root inv n ^ n = 1 := (root_primitive inv hn).pow_eq_one

/-- A power of the kernel of a multiple is the kernel. -/
theorem root_pow_mul (inv : Bool) {a n : Nat} (ha : a ≠ 0) (hn : n ≠ 0) : root inv (a * n) ^ a = root inv n := by
  unfold root
  rw [← Complex.exp_nat_mul]
  congr 1
  have h1 : (a : ℂ) ≠ 0 := Nat.cast_ne_zero.mpr ha
  have h2 : (n : ℂ) ≠ 0 := Nat.cast_ne_zero.mpr hn
  push_cast
  field_simp

theorem conj_root (inv : Bool) (n : Nat) : (starRingEnd ℂ) (root inv n) = (root inv n)⁻¹ := by
  have h : ‖root inv n‖ = 1 := by
    unfold root
    have : ((if inv then 1 else -1 : ℂ) * (2 * Real.pi * I / n)) =
        (((if inv then 1 else -1 : ℝ) * (2 * Real.pi / n) : ℝ) : ℂ) * I := by
      cases inv <;> push_cast <;> simp <;> ring
    rw [this, Complex.norm_exp_ofReal_mul_I]
  rw [Complex.inv_def, Complex.normSq_eq_norm_sq, h]
  simp

theorem root_four (inv : Bool) : root inv 4 = if inv then I else -I := by
  unfold root
  cases inv
  · have : ((if false = true then 1 else -1 : ℂ) * (2 * Real.pi * I / (4 : ℕ))) =
      -(Real.pi / 2 * I) := by push_cast; simp; ring
    rw [this, Complex.exp_neg, Complex.exp_pi_div_two_mul_I]
    simp
  · have : ((if true = true then 1 else -1 : ℂ) * (2 * Real.pi * I / (4 : ℕ))) =
      (Real.pi / 2 * I) := by push_cast; simp; ring
    rw [this, Complex.exp_pi_div_two_mul_I]
    simp

theorem root_two (inv : Bool) : root inv 2 = -1 := by
  have h := root_primitive inv (n := 2) (by norm_num)
  exact h.eq_neg_one_of_two_right

theorem root_one (inv : Bool) : root inv 1 = 1 := by
  have := root_pow_self inv (n := 1) (by norm_num)
  simpa using this

/-- The DFT through powers of the kernel. -/
theorem dft_eq (inv : Bool) (n : Nat) (x : Nat → ℂ) (k : Nat) :
    dft inv n x k = ∑ j ∈ Finset.range n, x j * root inv n ^ (j * k) := by
  unfold dft root
  refine Finset.sum_congr rfl fun j _ => ?_
  rw [← Complex.exp_nat_mul]
  congr 2
  push_cast
  ring

/-- Orthogonality of the kernels. -/
theorem sum_root (inv : Bool) {n : Nat} (hn : n ≠ 0) (d : Nat) :
    ∑ k ∈ Finset.range n, (root inv n ^ d) ^ k = if n ∣ d then (n : ℂ) else 0 := by
  have hp := root_primitive inv hn
  split_ifs with h
  · rw [(hp.pow_eq_one_iff_dvd d).mpr h]; simp
  · have h1 : root inv n ^ d ≠ 1 := fun he => h ((hp.pow_eq_one_iff_dvd d).mp he)
    have h2 : (∑ k ∈ Finset.range n, (root inv n ^ d) ^ k) * (root inv n ^ d - 1) = 0 := by
      rw [geom_sum_mul, ← pow_mul, mul_comm, pow_mul, root_pow_self inv hn]; simp
    rcases mul_eq_zero.mp h2 with h3 | h3
    · exact h3
    · exact absurd (sub_eq_zero.mp h3) h1

theorem root_not (inv : Bool) (n : Nat) : root (!inv) n = (root inv n)⁻¹ := by
  cases inv
  · simp [root_false, root_true]
  · simp [root_false, root_true]

/-- The inverse transform of the transform, before scaling. -/
theorem dft_dft (inv : Bool) {n : Nat} (x : Nat → ℂ) (l : Nat) (hl : l < n) :
    dft (!inv) n (dft inv n x) l = n * x l := by
  have hn : n ≠ 0 := by omega
  have hr := root_ne_zero inv n
  rw [dft_eq]
  have h1 : ∀ k ∈ Finset.range n, dft inv n x k * root (!inv) n ^ (k * l) =
      ∑ j ∈ Finset.range n, x j * (root inv n ^ (j + (n - l))) ^ k := by
    intro k _
    rw [dft_eq, Finset.sum_mul]
    refine Finset.sum_congr rfl fun j _ => ?_
    rw [root_not, mul_assoc]
    congr 1
    have e : root inv n ^ (n - l) = (root inv n ^ l)⁻¹ := by
      have h0 : root inv n ^ l ≠ 0 := pow_ne_zero _ hr
      have h : root inv n ^ (n - l) * root inv n ^ l = 1 := by
        rw [← pow_add, Nat.sub_add_cancel hl.le, root_pow_self inv hn]
      exact eq_inv_of_mul_eq_one_left h
    rw [pow_add, e, mul_pow, ← pow_mul, inv_pow, inv_pow, ← pow_mul, mul_comm l k]
  rw [Finset.sum_congr rfl h1, Finset.sum_comm]
  have h2 : ∀ j ∈ Finset.range n, ∑ k ∈ Finset.range n, x j * (root inv n ^ (j + (n - l))) ^ k =
      if j = l then n * x l else 0 := by
    intro j hj
    rw [Finset.mem_range] at hj
    rw [← Finset.mul_sum, sum_root inv hn]
    by_cases h : j = l
    · subst h
      rw [if_pos rfl, if_pos ⟨1, by omega⟩]; ring
    · rw [if_neg h, if_neg]
      · simp
      · rintro ⟨c, hc⟩
        have hc1 : c = 1 := by
          have h3 : 0 < c := by
            rcases Nat.eq_zero_or_pos c with h | h
            · subst h; omega
            · exact h
          have h4 : c < 2 := by
            by_contra hge
            have : n * 2 ≤ n * c := Nat.mul_le_mul_left n (by omega)
            omega
          omega
        subst hc1
        omega
  rw [Finset.sum_congr rfl h2, Finset.sum_ite_eq' (Finset.range n) l]
  rw [if_pos (Finset.mem_range.mpr hl)]

end QM.DFT

namespace QM.Kiss

open Complex

theorem kfCexp_eq (ph : ℝ) : kfCexp ph = Complex.exp (ph * I) := by
  rw [Complex.exp_mul_I]
  apply Complex.ext
  · simp [kfCexp, Complex.cos_ofReal_re]
  · simp [kfCexp, Complex.sin_ofReal_re]

/-- The twiddles are the powers of the kernel. -/
theorem twiddle_eq (n : Nat) (inv : Bool) (i : Nat) : kfCexp (phase n inv i) = QM.DFT.root inv n ^ i := by
  rw [kfCexp_eq, QM.DFT.root, ← Complex.exp_nat_mul]
  congr 1
  unfold phase
  cases inv
  · simp; ring
  · simp; ring

end QM.Kiss
