import Verif.FFT.RealProps

/-!
# Energies, rotations, convolutions and tones under the discrete Fourier transform
-/

namespace QM.FFT

open Complex QM.DFT QM.Kiss Finset

theorem conj_dft (inv : Bool) (n : Nat) (x : Nat → ℂ) (k : Nat) :
    (starRingEnd ℂ) (dft inv n x k) = ∑ j ∈ range n, (starRingEnd ℂ) (x j) * root (!inv) n ^ (k * j) := by
  rw [dft_eq, map_sum]
  refine sum_congr rfl fun j _ => ?_
  rw [map_mul, map_pow, conj_root, ← root_not, Nat.mul_comm]

/-- Parseval's identity. -/
theorem dft_energy (inv : Bool) (n : Nat) (x : Nat → ℂ) : ∑ k ∈ range n, ‖dft inv n x k‖ ^ 2 = n * ∑ j ∈ range n, ‖x j‖ ^ 2 := by
  have h : ((∑ k ∈ range n, ‖dft inv n x k‖ ^ 2 : ℝ) : ℂ) = ((n * ∑ j ∈ range n, ‖x j‖ ^ 2 : ℝ) : ℂ) := by
    push_cast
    calc ∑ k ∈ range n, (‖dft inv n x k‖ : ℂ) ^ 2 = ∑ k ∈ range n, ∑ j ∈ range n, (starRingEnd ℂ) (x j) * (dft inv n x k * root (!inv) n ^ (k * j)) := by
          refine sum_congr rfl fun k _ => ?_
          rw [← Complex.mul_conj', conj_dft, mul_sum]
          exact sum_congr rfl fun j _ => by ring
      _ = ∑ j ∈ range n, (starRingEnd ℂ) (x j) * dft (!inv) n (dft inv n x) j := by
          rw [sum_comm]
          refine sum_congr rfl fun j _ => ?_
          rw [dft_eq (!inv), mul_sum]
      _ = n * ∑ j ∈ range n, (‖x j‖ : ℂ) ^ 2 := by
          rw [mul_sum]
          refine sum_congr rfl fun j hj => ?_
          rw [dft_dft inv x j (mem_range.mp hj), ← Complex.mul_conj']
          ring
  exact_mod_cast h

/-- A sum over a rotation. -/
theorem sum_rotate {M : Type} [AddCommMonoid M] (n : Nat) (f : Nat → M) (s : Nat) : ∑ j ∈ range n, f ((j + s) % n) = ∑ j ∈ range n, f j := by
  induction s with
  | zero => exact sum_congr rfl fun j hj => by rw [Nat.add_zero, Nat.mod_eq_of_lt (mem_range.mp hj)]
  | succ s ih =>
    rw [← ih]
    cases n with
    | zero => rfl
    | succ m =>
      rw [sum_range_succ, sum_range_succ']
      congr 1
      · exact sum_congr rfl fun j _ => by rw [Nat.add_assoc, Nat.add_comm s 1]
      · rw [show m + (s + 1) = s + (m + 1) by omega, Nat.add_mod_right, Nat.zero_add]

theorem root_mod (inv : Bool) {n : Nat} (hn : n ≠ 0) (a k : Nat) : root inv n ^ (a % n * k) = root inv n ^ (a * k) := by
  conv_rhs => rw [← Nat.div_add_mod a n, Nat.add_mul, pow_add, Nat.mul_assoc, pow_mul, root_pow_self inv hn, one_pow, one_mul]

theorem dft_rotate (inv : Bool) {n : Nat} (hn : n ≠ 0) (x : Nat → ℂ) (s k : Nat) :
    root inv n ^ (s * k) * dft inv n (fun j => x ((j + s) % n)) k = dft inv n x k := by
  rw [dft_eq, dft_eq, ← sum_rotate n (fun j => x j * root inv n ^ (j * k)) s, mul_sum]
  refine sum_congr rfl fun j _ => ?_
  rw [root_mod inv hn, Nat.add_mul, pow_add]
  ring

/-- Circular convolution. -/
def circular (n : Nat) (x y : Nat → ℂ) (l : Nat) : ℂ := ∑ j ∈ range n, x j * y ((l + (n - j)) % n)

theorem dft_circular (inv : Bool) {n : Nat} (hn : n ≠ 0) (x y : Nat → ℂ) (k : Nat) : dft inv n (circular n x y) k = dft inv n x k * dft inv n y k := by
  have h1 : dft inv n (circular n x y) k = ∑ j ∈ range n, ∑ l ∈ range n, x j * root inv n ^ (j * k) * (y ((l + (n - j)) % n) * root inv n ^ ((l + (n - j)) % n * k)) := by
    rw [dft_eq, sum_comm]
    refine sum_congr rfl fun l _ => ?_
    unfold circular
    rw [sum_mul]
    refine sum_congr rfl fun j hj => ?_
    have hj := mem_range.mp hj
    have h2 : root inv n ^ (j * k) * root inv n ^ ((l + (n - j)) % n * k) = root inv n ^ (l * k) := by
      rw [root_mod inv hn, ← pow_add, ← Nat.add_mul, show j + (l + (n - j)) = l + n by omega, Nat.add_mul, pow_add, pow_mul _ n, root_pow_self inv hn, one_pow, mul_one]
    rw [← h2]
    ring
  rw [h1, dft_eq inv n x, sum_mul]
  refine sum_congr rfl fun j _ => ?_
  rw [← mul_sum, sum_rotate n (fun l => y l * root inv n ^ (l * k)) (n - j), ← dft_eq]

/-- A sampled cosine that fits the frame, by two complex exponentials. -/
theorem tone_split {n m : Nat} (hn : n ≠ 0) (hm : m ≤ n) (A φ : ℝ) (j : Nat) : ((A * Real.cos (2 * Real.pi * m * j / n + φ) : ℝ) : ℂ) =
    A / 2 * Complex.exp (φ * I) * root false n ^ ((n - m) * j) + A / 2 * Complex.exp (-(φ * I)) * root false n ^ (m * j) := by
  have hn' : (n : ℂ) ≠ 0 := by exact_mod_cast hn
  have h1 : root false n ^ (m * j) = Complex.exp (-(2 * Real.pi * m * j / n * I)) := by
    unfold root
    rw [← Complex.exp_nat_mul]
    congr 1
    push_cast
    ring
  have h2 : root false n ^ ((n - m) * j) = Complex.exp (2 * Real.pi * m * j / n * I) := by
    have h3 : root false n ^ ((n - m) * j) * root false n ^ (m * j) = 1 := by
      rw [← pow_add, ← Nat.add_mul, Nat.sub_add_cancel hm, pow_mul, root_pow_self false hn, one_pow]
    rw [h1] at h3
    rw [eq_comm, ← inv_inv (Complex.exp _), ← Complex.exp_neg]
    exact (eq_inv_of_mul_eq_one_left h3).symm
  push_cast
  rw [h1, h2, Complex.cos, show (2 * (Real.pi : ℂ) * m * j / n + φ) * I = φ * I + 2 * Real.pi * m * j / n * I by ring,
    show -(2 * (Real.pi : ℂ) * m * j / n + φ) * I = -(φ * I) + -(2 * Real.pi * m * j / n * I) by ring, Complex.exp_add, Complex.exp_add]
  ring

theorem dft_tone {n m k : Nat} (h0 : 0 < m) (h1 : 2 * m < n) (hk : k < n) (A φ : ℝ) :
    dft false n (fun j => ((A * Real.cos (2 * Real.pi * m * j / n + φ) : ℝ) : ℂ)) k =
      if k = m then A * n / 2 * Complex.exp (φ * I) else if k = n - m then A * n / 2 * Complex.exp (-(φ * I)) else 0 := by
  have hn : n ≠ 0 := by omega
  have e1 : dft false n (fun j => ((A * Real.cos (2 * Real.pi * m * j / n + φ) : ℝ) : ℂ)) k =
      A / 2 * Complex.exp (φ * I) * ∑ j ∈ range n, (root false n ^ (n - m + k)) ^ j + A / 2 * Complex.exp (-(φ * I)) * ∑ j ∈ range n, (root false n ^ (m + k)) ^ j := by
    rw [dft_eq, mul_sum, mul_sum, ← sum_add_distrib]
    refine sum_congr rfl fun j _ => ?_
    rw [tone_split hn (by omega), add_mul]
    simp only [← pow_mul]
    rw [mul_assoc, ← pow_add, mul_assoc (_ * _), ← pow_add, show (n - m) * j + j * k = (n - m + k) * j by ring, show m * j + j * k = (m + k) * j by ring]
  rw [e1, sum_root false hn, sum_root false hn]
  by_cases a : k = m
  · rw [if_pos a, if_pos ⟨1, by omega⟩, if_neg, mul_zero, add_zero]
    · ring
    · rintro ⟨c, hc⟩
      have : c = 0 := by
        by_contra h
        have : n ≤ n * c := Nat.le_mul_of_pos_right n (by omega)
        omega
      subst this
      omega
  · have d1 : ¬ n ∣ n - m + k := by
      rintro ⟨c, hc⟩
      rcases (by omega : c = 0 ∨ c = 1 ∨ 2 ≤ c) with h | h | h
      · subst h; omega
      · subst h; omega
      · have : n * 2 ≤ n * c := Nat.mul_le_mul_left n h
        omega
    rw [if_neg a, if_neg d1, mul_zero, zero_add]
    by_cases b : k = n - m
    · rw [if_pos b, if_pos ⟨1, by omega⟩]
      ring
    · rw [if_neg b, if_neg, mul_zero]
      rintro ⟨c, hc⟩
      rcases (by omega : c = 0 ∨ c = 1 ∨ 2 ≤ c) with h | h | h
      · subst h; omega
      · subst h; omega
      · have : n * 2 ≤ n * c := Nat.mul_le_mul_left n h
        omega

/-- A sum over a symmetric spectrum, from its first half. -/
theorem sum_half {nc : Nat} (hn : 0 < nc) (f : Nat → ℝ) (hf : ∀ k, k ≤ 2 * nc → f (2 * nc - k) = f k) :
    ∑ k ∈ range (2 * nc), f k = f 0 + 2 * ∑ k ∈ range (nc - 1), f (k + 1) + f nc := by
  obtain ⟨m, rfl⟩ : ∃ m, nc = m + 1 := ⟨nc - 1, by omega⟩
  rw [show 2 * (m + 1) = (m + 1) + (m + 1) by ring, sum_range_add, sum_range_succ', sum_range_succ' (fun i => f (m + 1 + i)), Nat.add_sub_cancel, Nat.add_zero]
  have h1 : ∑ i ∈ range m, f (m + 1 + (i + 1)) = ∑ i ∈ range m, f (i + 1) := by
    rw [← sum_range_reflect (fun i => f (i + 1))]
    refine sum_congr rfl fun i hi => ?_
    have hi := mem_range.mp hi
    rw [← hf (m - 1 - i + 1) (by omega)]
    congr 1
    omega
  rw [h1]
  ring

end QM.FFT
