import Verif.Pca.Tred

/-! The mathematics of `tqli`: rotations of a tridiagonal matrix with a bulge. -/

namespace QM.Pca

open Finset

/-- The columns of `Z` are orthonormal. -/
def Orthonormal (n : ℕ) (Z : ℕ → ℕ → ℝ) : Prop := ∀ a b, a < n → b < n → ∑ k ∈ range n, Z k a * Z k b = if a = b then 1 else 0

/-- Row `w` is the product of row `x` with the tridiagonal matrix with diagonal `D` and side diagonal `o`, which has another pair of elements `F` at `(b, b + 2)`. -/
def RelRow (n : ℕ) (o D : ℕ → ℝ) (b : ℕ) (F : ℝ) (x w : ℕ → ℝ) : Prop :=
  ∀ j, j < n → w j = (if j = 0 then 0 else o (j - 1) * x (j - 1)) + D j * x j + o j * x (j + 1) + (if j = b then F * x (b + 2) else 0) +
    (if j = b + 2 then F * x b else 0)

/-- `A Z` is `Z` times the tridiagonal matrix with a bulge. -/
def Rel (n : ℕ) (A Z : ℕ → ℕ → ℝ) (o D : ℕ → ℝ) (b : ℕ) (F : ℝ) : Prop := ∀ k, k < n → RelRow n o D b F (Z k) (fun j => ∑ q ∈ range n, A k q * Z q j)

/-- The rotation of the columns `i` and `i + 1`. -/
def rot (i : ℕ) (s c : ℝ) (x : ℕ → ℝ) (j : ℕ) : ℝ := if j = i + 1 then s * x i + c * x (i + 1) else if j = i then c * x i - s * x (i + 1) else x j

theorem rot_row {n i : ℕ} {o D x w : ℕ → ℝ} {F s c : ℝ} (h : RelRow n o D i F x w) (hi : i + 1 < n) (hsc : s * s + c * c = 1) (hF : c * F = s * o (i + 1)) :
    RelRow n
      (fun j => if j = i + 1 then s * F + c * o (i + 1) else if j = i then c * ((D i - D (i + 1)) * s + 2 * c * o i) - o i else if j + 1 = i then c * o j else o j)
      (fun j => if j = i + 1 then D (i + 1) + s * ((D i - D (i + 1)) * s + 2 * c * o i) else
        if j = i then D i - s * ((D i - D (i + 1)) * s + 2 * c * o i) else D j)
      (i - 1) (if i = 0 then 0 else s * o (i - 1)) (rot i s c x) (rot i s c w) := by
  have h0 := h i (by omega)
  have h1 := h (i + 1) hi
  simp only [if_true, show ¬ (i = i + 2) by omega, show i + 1 ≠ 0 by omega, show i + 1 ≠ i by omega, show i + 1 ≠ i + 2 by omega, if_false, Nat.add_sub_cancel,
    show i + 1 + 1 = i + 2 by omega] at h0 h1
  intro j hj
  by_cases e1 : j = i
  · subst e1
    by_cases z : j = 0
    · subst z
      simp [rot]
      rw [h0, h1]
      simp only [if_true]
      linear_combination (x 2) * hF - ((D 0 - D 1) * s + 2 * c * o 0) * x 1 * hsc
    · simp [rot, z, show ¬ (j - 1 = j + 1) by omega, show ¬ (j - 1 = j) by omega, show j - 1 + 1 = j by omega, show ¬ (j = j - 1) by omega,
        show ¬ (j = j - 1 + 2) by omega]
      rw [h0, h1]
      simp only [z, if_false]
      linear_combination (x (j + 2)) * hF - ((D j - D (j + 1)) * s + 2 * c * o j) * x (j + 1) * hsc
  by_cases e2 : j = i + 1
  · subst e2
    by_cases z : i = 0
    · subst z
      simp [rot]
      rw [h0, h1]
      simp only [if_true]
      linear_combination (-(((D 0 - D 1) * s + 2 * c * o 0) * x 0)) * hsc
    · obtain ⟨k, rfl⟩ : ∃ k, i = k + 1 := ⟨i - 1, by omega⟩
      simp only [rot, Nat.add_sub_cancel, if_true, if_false, z, show k + 1 + 1 ≠ 0 by omega, show k + 1 ≠ k + 1 + 1 by omega, show k + 1 + 1 ≠ k by omega,
        show k ≠ k + 1 + 1 by omega, show k ≠ k + 1 by omega, show k + 1 + 1 + 1 ≠ k + 1 + 1 by omega, show k + 1 + 1 + 1 ≠ k + 1 by omega,
        show k + 1 + 1 = k + 2 by omega, show k + 2 - 1 = k + 1 by omega, show k + 1 ≠ k + 2 by omega, show k + 2 + 1 = k + 1 + 2 by omega,
        show k + 1 + 2 ≠ k + 2 by omega, show k + 1 + 2 ≠ k + 1 by omega] at h0 h1 ⊢
      rw [h0, h1]
      linear_combination (-(((D (k + 1) - D (k + 2)) * s + 2 * c * o (k + 1)) * x (k + 1))) * hsc
  have hj' := h j hj
  have hw : rot i s c w j = w j := by simp [rot, e1, e2]
  have hx : rot i s c x j = x j := by simp [rot, e1, e2]
  rw [hw, hx, hj']
  by_cases e3 : j = i + 2
  · subst e3
    by_cases z : i = 0
    · subst z
      simp [rot]
      linear_combination (c * x 0 - s * x 1) * hF - (F * x 0 + o 1 * x 1) * hsc
    · simp [rot, z, show ¬ (i + 2 = i - 1) by omega, show ¬ (i + 2 = i - 1 + 2) by omega, show ¬ (i + 2 + 1 = i) by omega, show ¬ (i = i - 1) by omega]
      linear_combination (c * x i - s * x (i + 1)) * hF - (F * x i + o (i + 1) * x (i + 1)) * hsc
  by_cases e4 : j + 1 = i
  · subst e4
    by_cases z : j = 0
    · subst z
      simp [rot]
      linear_combination (-(o 0 * x 1)) * hsc
    · simp only [rot, z, if_true, if_false, Nat.add_sub_cancel, show ¬ (j = j + 1 + 1) by omega, show ¬ (j = j + 1) by omega, show ¬ (j = j + 1 + 2) by omega,
        show ¬ (j - 1 = j + 1 + 1) by omega, show ¬ (j - 1 = j + 1) by omega, show j - 1 + 1 ≠ j + 1 by omega, show j + 1 ≠ j + 1 + 1 by omega,
        show j + 2 = j + 1 + 1 by omega, show j + 1 ≠ 0 by omega]
      linear_combination (-(o j * x (j + 1))) * hsc
  · have t1 : rot i s c x (j + 1) = x (j + 1) := by simp [rot, e1, e4]
    have t2 : j ≠ 0 → rot i s c x (j - 1) = x (j - 1) := by
      intro z
      simp [rot, show ¬ (j - 1 = i + 1) by omega, show ¬ (j - 1 = i) by omega]
    rw [t1]
    by_cases z : j = 0
    · subst z
      simp [e1, e2, e4, show i ≠ 0 by omega, show ¬ (0 = i - 1) by omega]
    · rw [t2 z]
      have e5 : ¬ (j - 1 + 1 = i) := by omega
      have e6 : ¬ (j - 1 = i + 1) := by omega
      have e7 : ¬ (j - 1 = i) := by omega
      have e8 : i = 0 ∨ ¬ (j = i - 1) := by omega
      have e9 : i = 0 ∨ ¬ (j = i - 1 + 2) := by omega
      rcases e8 with e8 | e8
      · subst e8
        simp [z, e1, e2, e3, e4, e5, e6, e7]
      · rcases e9 with e9 | e9
        · subst e9
          simp [z, e1, e2, e3, e4, e5, e6, e7]
        · simp [z, e1, e2, e3, e4, e5, e6, e7, e8, e9]

theorem rot_rel {n i : ℕ} {A Z : ℕ → ℕ → ℝ} {o D : ℕ → ℝ} {F s c : ℝ} (h : Rel n A Z o D i F) (hi : i + 1 < n) (hsc : s * s + c * c = 1) (hF : c * F = s * o (i + 1)) :
    Rel n A (fun k => rot i s c (Z k))
      (fun j => if j = i + 1 then s * F + c * o (i + 1) else if j = i then c * ((D i - D (i + 1)) * s + 2 * c * o i) - o i else if j + 1 = i then c * o j else o j)
      (fun j => if j = i + 1 then D (i + 1) + s * ((D i - D (i + 1)) * s + 2 * c * o i) else
        if j = i then D i - s * ((D i - D (i + 1)) * s + 2 * c * o i) else D j)
      (i - 1) (if i = 0 then 0 else s * o (i - 1)) := by
  intro k hk j hj
  have := rot_row (h k hk) hi hsc hF j hj
  rw [← this]
  unfold rot
  by_cases e1 : j = i + 1
  · simp only [e1, if_true]
    rw [mul_sum, mul_sum, ← sum_add_distrib]
    exact sum_congr rfl fun q _ => by ring
  · by_cases e2 : j = i
    · simp only [e2, show i ≠ i + 1 by omega, if_true, if_false]
      rw [mul_sum, mul_sum, ← sum_sub_distrib]
      exact sum_congr rfl fun q _ => by ring
    · simp only [e1, e2, if_false]

/-- A rotation keeps scalar products. -/
theorem rot_orth {n i : ℕ} {Z : ℕ → ℕ → ℝ} {s c : ℝ} (h : Orthonormal n Z) (hi : i + 1 < n) (hsc : s * s + c * c = 1) :
    Orthonormal n (fun k => rot i s c (Z k)) := by
  have key : ∀ a, a < n → (∑ k ∈ range n, rot i s c (Z k) i * Z k a = if a = i then c else if a = i + 1 then -s else 0) ∧
      ∑ k ∈ range n, rot i s c (Z k) (i + 1) * Z k a = if a = i then s else if a = i + 1 then c else 0 := by
    intro a ha
    have h0 := h i a (by omega) ha
    have h1 := h (i + 1) a hi ha
    constructor
    · have : ∑ k ∈ range n, rot i s c (Z k) i * Z k a = c * (∑ k ∈ range n, Z k i * Z k a) - s * ∑ k ∈ range n, Z k (i + 1) * Z k a := by
        rw [mul_sum, mul_sum, ← sum_sub_distrib]
        exact sum_congr rfl fun q _ => by simp [rot]; ring
      rw [this, h0, h1]
      by_cases e1 : a = i
      · simp [e1]
      · by_cases e2 : a = i + 1
        · simp [e2]
        · simp [e1, e2, Ne.symm e1, Ne.symm e2]
    · have : ∑ k ∈ range n, rot i s c (Z k) (i + 1) * Z k a = s * (∑ k ∈ range n, Z k i * Z k a) + c * ∑ k ∈ range n, Z k (i + 1) * Z k a := by
        rw [mul_sum, mul_sum, ← sum_add_distrib]
        exact sum_congr rfl fun q _ => by simp [rot]; ring
      rw [this, h0, h1]
      by_cases e1 : a = i
      · simp [e1]
      · by_cases e2 : a = i + 1
        · simp [e2]
        · simp [e1, e2, Ne.symm e1, Ne.symm e2]
  have comb : ∀ f : ℕ → ℝ, (∑ k ∈ range n, f k * rot i s c (Z k) i = c * (∑ k ∈ range n, f k * Z k i) - s * ∑ k ∈ range n, f k * Z k (i + 1)) ∧
      ∑ k ∈ range n, f k * rot i s c (Z k) (i + 1) = s * (∑ k ∈ range n, f k * Z k i) + c * ∑ k ∈ range n, f k * Z k (i + 1) := by
    intro f
    constructor
    · rw [mul_sum, mul_sum, ← sum_sub_distrib]
      exact sum_congr rfl fun q _ => by simp [rot]; ring
    · rw [mul_sum, mul_sum, ← sum_add_distrib]
      exact sum_congr rfl fun q _ => by simp [rot]; ring
  have other : ∀ k a, a ≠ i → a ≠ i + 1 → rot i s c (Z k) a = Z k a := by
    intro k a h1 h2
    simp [rot, h1, h2]
  intro a b ha hb
  beta_reduce
  by_cases b1 : b = i
  · subst b1
    rw [(comb fun k => rot b s c (Z k) a).1]
    by_cases a1 : a = b
    · subst a1
      rw [(key a (by omega)).1, (key (a + 1) hi).1]
      simp
      linarith
    · by_cases a2 : a = b + 1
      · subst a2
        rw [(key b (by omega)).2, (key (b + 1) hi).2]
        simp
        ring
      · simp only [other _ a a1 a2]
        rw [h a b ha (by omega), h a (b + 1) ha hi]
        simp [a1, a2]
  · by_cases b2 : b = i + 1
    · subst b2
      rw [(comb fun k => rot i s c (Z k) a).2]
      by_cases a1 : a = i
      · subst a1
        rw [(key a (by omega)).1, (key (a + 1) hi).1]
        simp
        ring
      · by_cases a2 : a = i + 1
        · subst a2
          rw [(key i (by omega)).2, (key (i + 1) hi).2]
          simp
          linarith
        · simp only [other _ a a1 a2]
          rw [h a i ha (by omega), h a (i + 1) ha hi]
          simp [a1, a2]
    · simp only [other _ b b1 b2]
      by_cases a1 : a = i
      · subst a1
        rw [(key b hb).1]
        simp [b1, b2, Ne.symm b1]
      · by_cases a2 : a = i + 1
        · subst a2
          rw [(key b hb).2]
          simp [b1, b2, Ne.symm b2]
        · simp only [other _ a a1 a2]
          exact h a b ha hb

end QM.Pca
