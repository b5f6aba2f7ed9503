import Verif.Pca.QLRun
import Mathlib.LinearAlgebra.Matrix.NonsingularInverse
import Mathlib.Tactic.NormNum

/-! # C69: the eigenvectors of a symmetric matrix -/

namespace QM.Pca

open Finset

/-- Column `j` of `Z` is an eigenvector of `A` with eigenvalue `d j`. -/
def Eigenvectors (n : ℕ) (A Z : ℕ → ℕ → ℝ) (d : ℕ → ℝ) : Prop := ∀ k j, k < n → j < n → ∑ q ∈ range n, A k q * Z q j = d j * Z k j

/-- `A` is symmetric in its leading `n` rows and columns. -/
def Symm (n : ℕ) (A : ℕ → ℕ → ℝ) : Prop := ∀ k q, k < n → q < n → A k q = A q k

/-- The elements of `A` and `B` differ by at most `δ`. -/
def Close (n : ℕ) (δ : ℝ) (A B : ℕ → ℕ → ℝ) : Prop := ∀ k q, k < n → q < n → |A k q - B k q| ≤ δ

variable {n : ℕ} {A : ℕ → ℕ → ℝ} {sym : List (List ℝ)} {d e : List ℝ} {negl : ℝ → ℝ → Bool} {a ε : ℝ}

/-- **C69** `tred2` succeeds on every symmetric matrix and every contents of the two arrays, without dividing by zero, and leaves an orthonormal basis in which the
matrix is tridiagonal. -/
theorem C69_tridiagonal (hn : 1 ≤ n) (hs : Symm n A) (ha : Holds2 n n A sym) (hd : d.length = n) (he : e.length = n) :
    ∃ z' d' e' Z D E, tred2 n ⟨sym, d, e⟩ = some ⟨z', d', e'⟩ ∧ Holds2 n n Z z' ∧ Holds n D d' ∧ Holds n E e' ∧ Orthonormal n Z ∧
      ∀ k j, k < n → j < n → ∑ q ∈ range n, A k q * Z q j =
        (if j = 0 then 0 else E j * Z k (j - 1)) + D j * Z k j + (if j + 1 < n then E (j + 1) * Z k (j + 1) else 0) := by
  obtain ⟨z', d', e', h1, h2, h3, h4⟩ := tred2_ok hn ha hd he hs
  refine ⟨z', d', e', _, _, _, h1, h2, h3, h4, ?_, ?_⟩
  · intro x y hx hy
    have := orth_orthonormal (A := A) n (n - 1) x y (by omega) (by omega)
    rwa [show n - 1 + 1 = n by omega] at this
  · intro k j hk hj
    have := tri (A := A) n hs (n - 1) (by omega) k j (by omega) (by omega)
    rw [show n - 1 + 1 = n by omega, show at' A n (n - 1) = A by unfold at'; rw [Nat.sub_self]; rfl] at this
    rw [this]
    by_cases h0 : j = 0
    · subst h0
      by_cases h1 : 0 + 1 < n
      · simp [h1, show 0 < n - 1 by omega]
      · simp [h1, show ¬ 0 < n - 1 by omega]
    · by_cases h1 : j + 1 < n
      · simp [h0, h1, show j < n - 1 by omega]
      · simp [h0, h1, show ¬ j < n - 1 by omega]

/-- **C69** `tred2` and `tqli` on a symmetric matrix, with any test for convergence that neglects at most the fraction `ε`: they do not leave their arrays or divide by zero,
and unless the program exits for want of convergence, the columns of the result are orthonormal and are exactly the eigenvectors, with the eigenvalues in the array, of
a symmetric matrix whose elements differ from the given ones by at most `a ((1 + 4nε)^(31n) - 1)`, where `a` bounds the elements. -/
theorem C69_eigen (ht : Test negl ε) (hε : 0 ≤ ε) (hn : 1 ≤ n) (hs : Symm n A) (hA : ∀ k q, k < n → q < n → |A k q| ≤ a) (ha : Holds2 n n A sym)
    (hd : d.length = n) (he : e.length = n) :
    ∃ s1 r, tred2 n ⟨sym, d, e⟩ = some s1 ∧ tqli negl n s1 = some r ∧ ∀ s', r = some s' →
      ∃ A' Z D, Holds2 n n Z s'.a ∧ Holds n D s'.d ∧ s'.e.length = n ∧ Orthonormal n Z ∧ Symm n A' ∧ Eigenvectors n A' Z D ∧
        Close n (a * ((1 + 4 * n * ε) ^ (31 * n) - 1)) A A' := by
  obtain ⟨z', d', e', Z, D, E, h1, h2, h3, h4, h5, h6⟩ := C69_tridiagonal hn hs ha hd he
  obtain ⟨r, k1, k2⟩ := tqli_ok ht hε hn hs hA h2 h3 h4 h5 (by
    intro k hk j hj
    dsimp only
    rw [h6 k j hk hj]
    by_cases h0 : j = 0
    · subst h0
      simp
    · simp [h0, show j - 1 + 1 < n by omega, show j - 1 + 1 = j by omega, show j < n by omega])
  refine ⟨_, r, h1, k1, fun s' hs' => ?_⟩
  obtain ⟨Z', D', E', g1, g2, g3, A', g4, g5, g6, g7⟩ := k2 s' hs'
  refine ⟨A', Z', D', g1, g2, g3.1, g6, fun k q hk hq => (g4 k q).resolve_right (by simp [hk, hq]), fun k j hk hj => ?_, g5⟩
  have := g7 k hk j hj
  dsimp only at this
  rw [this]
  simp

/-- **C69** With a test that neglects only zero, they are the eigenvectors of the matrix itself. -/
theorem C69_eigen_exact (ht : Test negl 0) (hn : 1 ≤ n) (hs : Symm n A) (ha : Holds2 n n A sym) (hd : d.length = n) (he : e.length = n) :
    ∃ s1 r, tred2 n ⟨sym, d, e⟩ = some s1 ∧ tqli negl n s1 = some r ∧ ∀ s', r = some s' →
      ∃ Z D, Holds2 n n Z s'.a ∧ Holds n D s'.d ∧ s'.e.length = n ∧ Orthonormal n Z ∧ Eigenvectors n A Z D := by
  obtain ⟨s1, r, h1, h2, h3⟩ := C69_eigen (a := ∑ k ∈ range n, ∑ q ∈ range n, |A k q|) ht le_rfl hn hs (by
    intro k q hk hq
    refine (single_le_sum (f := fun q => |A k q|) (fun _ _ => abs_nonneg _) (mem_range.mpr hq)).trans ?_
    exact single_le_sum (f := fun k => ∑ q ∈ range n, |A k q|) (fun _ _ => sum_nonneg fun _ _ => abs_nonneg _) (mem_range.mpr hk)) ha hd he
  refine ⟨s1, r, h1, h2, fun s' hs' => ?_⟩
  obtain ⟨A', Z, D, g1, g2, g3, g4, g5, g6, g7⟩ := h3 s' hs'
  refine ⟨Z, D, g1, g2, g3, g4, fun k j hk hj => ?_⟩
  rw [← g6 k j hk hj]
  refine sum_congr rfl fun q hq => ?_
  have := g7 k q hk (mem_range.mp hq)
  simp only [mul_zero, add_zero, one_pow, sub_self, abs_nonpos_iff] at this
  rw [sub_eq_zero.mp this]

/-- The rows of a square matrix with orthonormal columns are orthonormal. -/
theorem Orthonormal.rows {Z : ℕ → ℕ → ℝ} (h : Orthonormal n Z) {k q : ℕ} (hk : k < n) (hq : q < n) : ∑ j ∈ range n, Z k j * Z q j = if k = q then 1 else 0 := by
  let M : Matrix (Fin n) (Fin n) ℝ := fun i j => Z i j
  have h1 : M.transpose * M = 1 := by
    ext i j
    rw [Matrix.mul_apply, Matrix.one_apply]
    have := h i j i.2 j.2
    rw [← Fin.sum_univ_eq_sum_range (fun k => Z k i * Z k j)] at this
    simp only [Fin.ext_iff]
    exact this
  have h2 := mul_eq_one_comm.mp h1
  have h3 := congrFun (congrFun h2 ⟨k, hk⟩) ⟨q, hq⟩
  rw [Matrix.mul_apply, Matrix.one_apply] at h3
  rw [← Fin.sum_univ_eq_sum_range (fun j => Z k j * Z q j)]
  simp only [Fin.mk.injEq] at h3
  exact h3

/-- **C69** What the columns say about the matrix: it is the sum of the projections on them times the eigenvalues, so the eigenvalues add up to the trace. -/
theorem C69_spectral {Z : ℕ → ℕ → ℝ} {D : ℕ → ℝ} (hz : Orthonormal n Z) (he : Eigenvectors n A Z D) :
    (∀ k q, k < n → q < n → A k q = ∑ j ∈ range n, D j * (Z k j * Z q j)) ∧ ∑ j ∈ range n, D j = ∑ k ∈ range n, A k k := by
  have h1 : ∀ k q, k < n → q < n → A k q = ∑ j ∈ range n, D j * (Z k j * Z q j) := by
    intro k q hk hq
    have : ∑ j ∈ range n, D j * (Z k j * Z q j) = ∑ j ∈ range n, (∑ r ∈ range n, A k r * Z r j) * Z q j :=
      sum_congr rfl fun j hj => by rw [he k j hk (mem_range.mp hj)]; ring
    rw [this]
    simp only [sum_mul]
    rw [sum_comm]
    have : ∀ r ∈ range n, ∑ j ∈ range n, A k r * Z r j * Z q j = A k r * if r = q then 1 else 0 := by
      intro r hr
      rw [← hz.rows (mem_range.mp hr) hq, mul_sum]
      exact sum_congr rfl fun _ _ => by ring
    rw [sum_congr rfl this, Finset.sum_eq_single q]
    · simp
    · intro r _ hr
      simp [hr]
    · intro h
      exact absurd (mem_range.mpr hq) h
  refine ⟨h1, ?_⟩
  have h2 : ∀ k ∈ range n, A k k = ∑ j ∈ range n, D j * (Z k j * Z k j) := fun k hk => h1 k k (mem_range.mp hk) (mem_range.mp hk)
  rw [sum_congr rfl h2, sum_comm]
  refine sum_congr rfl fun j hj => ?_
  rw [← mul_sum, hz j j (mem_range.mp hj) (mem_range.mp hj)]
  simp

/-! ## When it converges -/

/-- Rows that need no rotation. -/
theorem qlRows_done {D E : ℕ → ℝ} {z : List (List ℝ)} (hz : ∀ x, 0 ≤ x → negl 0 x = true) (hd : Holds n D d) (he : Holds n E e) :
    ∀ k l, l + k = n → (∀ j, l ≤ j → j + 1 < n → E j = 0) → qlRows negl n k l ⟨z, d, e⟩ = some (some ⟨z, d, e⟩) := by
  intro k
  induction k with
  | zero => intro l _ _; rfl
  | succ k ih =>
    intro l hl hE
    have hsplit : split negl d e (n - 1 - l) l = some l := by
      cases h : n - 1 - l with
      | zero => rfl
      | succ f =>
        rw [split, bind_ok (hd.2 l (by omega)), bind_ok (hd.2 (l + 1) (by omega)), bind_ok (he.2 l (by omega)), hE l le_rfl (by omega), abs_zero, if_pos (hz _ (by positivity))]
    have hrow : qlRow negl n l 30 ⟨z, d, e⟩ = some (some ⟨z, d, e⟩) := by
      rw [qlRow, bind_ok hsplit, if_pos rfl]
    rw [qlRows, bind_ok hrow]
    exact ih (l + 1) (by omega) fun j h1 h2 => hE j (by omega) h2

/-- The shift that the iteration starts from removes the element at once. -/
theorem wilkinson {d0 d1 v : ℝ} (hv : v ≠ 0) {s c y g r : ℝ}
    (hg : g = d1 - d0 + v / ((d1 - d0) / (2 * v) + sign (Real.sqrt ((d1 - d0) / (2 * v) * ((d1 - d0) / (2 * v)) + 1)) ((d1 - d0) / (2 * v))))
    (h1 : s * y = v) (h2 : c * y = g) (h3 : s * s + c * c = 1) (hr : r = (d0 - d1) * s + 2 * c * v) : c * r - v = 0 := by
  set θ := (d1 - d0) / (2 * v) with hθ
  have hp : 0 < θ * θ + 1 := by have := mul_self_nonneg θ; linarith
  have hsq : Real.sqrt (θ * θ + 1) * Real.sqrt (θ * θ + 1) = θ * θ + 1 := Real.mul_self_sqrt hp.le
  have hne := shift_ne θ
  set σ := sign (Real.sqrt (θ * θ + 1)) θ with hσ
  have hσ2 : σ * σ = θ * θ + 1 := by
    rw [hσ]
    unfold sign
    rw [abs_of_nonneg (Real.sqrt_nonneg _)]
    split_ifs
    · rw [neg_mul_neg, hsq]
    · exact hsq
  have hd : d1 - d0 = 2 * v * θ := by rw [hθ]; field_simp
  have hτ : ∃ τ, τ * (θ + σ) = 1 ∧ g = 2 * v * θ + v * τ := by
    refine ⟨1 / (θ + σ), by field_simp, ?_⟩
    rw [hg, hd]
    ring
  obtain ⟨τ, t1, t2⟩ := hτ
  have t3 : τ * τ + 2 * θ * τ - 1 = 0 := by
    have : (θ + σ) * (τ * τ + 2 * θ * τ - 1) = 0 := by
      have e1 : (θ + σ) * (τ * τ + 2 * θ * τ - 1) = (τ * (θ + σ)) * τ + 2 * θ * (τ * (θ + σ)) - θ - σ := by ring
      have e2 : (θ + σ) * (τ + θ - σ) = 0 := by
        have : (θ + σ) * (τ + θ - σ) = τ * (θ + σ) + θ * θ - σ * σ := by ring
        rw [this, t1, hσ2]
        ring
      have e3 := (mul_eq_zero.mp e2).resolve_left hne
      rw [e1, t1]
      linarith
    exact (mul_eq_zero.mp this).resolve_left hne
  have hy : y ≠ 0 := by
    rintro rfl
    rw [mul_zero] at h1
    exact hv h1.symm
  have hyy : y * y = v * v + g * g := by
    have : y * y = (s * y) * (s * y) + (c * y) * (c * y) := by linear_combination (-(y * y)) * h3
    rw [this, h1, h2]
  have : y * y * (c * r - v) = 0 := by
    have e1 : y * y * (c * r) = (c * y) * ((d0 - d1) * (s * y) + 2 * (c * y) * v) := by rw [hr]; ring
    rw [mul_sub, e1, h1, h2, hyy]
    have e2 : g * ((d0 - d1) * v + 2 * g * v) - (v * v + g * g) * v = v * (g * (g - (d1 - d0)) - v * v) := by ring
    rw [e2, hd, t2]
    linear_combination (v * v * v) * t3
  exact (mul_eq_zero.mp this).resolve_left (mul_ne_zero hy hy)

/-- **C69** A symmetric matrix with two rows is always finished, after at most one iteration. -/
theorem C69_two (hz : ∀ x, 0 ≤ x → negl 0 x = true) (hs : Symm 2 A) (ha : Holds2 2 2 A sym) (hd : d.length = 2) (he : e.length = 2) :
    ∃ s1 s', tred2 2 ⟨sym, d, e⟩ = some s1 ∧ tqli negl 2 s1 = some (some s') := by
  obtain ⟨z1, d1, e1, Z, D, E, h1, h2, h3, h4, -, -⟩ := C69_tridiagonal (by omega) hs ha hd he
  refine ⟨⟨z1, d1, e1⟩, ?_⟩
  obtain ⟨e2, w1, w2⟩ := Holds.put h4 (show 0 < 2 by omega) (E 1)
  obtain ⟨e3, w3, w4⟩ := Holds.put w2 (show 1 < 2 by omega) 0
  have hpre : ∀ r, qlRows negl 2 2 0 ⟨z1, d1, e3⟩ = r → tqli negl 2 ⟨z1, d1, e1⟩ = r := by
    rintro r rfl
    unfold tqli
    have : loop (2 - 1) (fun i (e : List ℝ) => do
      let v ← e[i + 1]?
      wr e i v) e1 = some e2 := by
      show loop 1 _ e1 = _
      rw [loop, loop, Option.bind_some]
      beta_reduce
      rw [bind_ok (h4.2 1 (by omega))]
      exact w1
    rw [bind_ok this]
    have : wrI e2 (((2 : ℕ) : Int) - 1) 0 = some e3 := by
      rw [show ((2 : ℕ) : Int) - 1 = ((1 : Nat) : Int) by omega, wrI_natCast]
      exact w3
    rw [bind_ok this]
  have w5 : Holds 2 (fun j => if j = 1 then 0 else E 1) e3 := w4.congr fun j hj => by
    have : j = 0 ∨ j = 1 := by omega
    rcases this with rfl | rfl <;> simp
  have r0 := w5.2 0 (by omega)
  simp only [show ¬ (0 = 1) by omega, if_false] at r0
  by_cases hn : negl |E 1| (|D 0| + |D (0 + 1)|) = true
  · -- no iteration
    refine ⟨⟨z1, d1, e3⟩, h1, hpre _ ?_⟩
    have hsplit : split negl d1 e3 1 0 = some 0 := by
      rw [split, bind_ok (h3.2 0 (by omega)), bind_ok (h3.2 1 (by omega)), bind_ok r0, if_pos hn]
    have hrow : qlRow negl 2 0 30 ⟨z1, d1, e3⟩ = some (some ⟨z1, d1, e3⟩) := by
      rw [qlRow, bind_ok hsplit, if_pos rfl]
    rw [qlRows, bind_ok hrow]
    exact qlRows_done hz h3 w5 1 1 rfl (by intro j h1 h2; omega)
  · have hv : E 1 ≠ 0 := by
      intro h0
      rw [h0, abs_zero] at hn
      exact hn (hz _ (by positivity))
    have hsplit : split negl d1 e3 1 0 = some 1 := by
      rw [split, bind_ok (h3.2 0 (by omega)), bind_ok (h3.2 1 (by omega)), bind_ok r0, if_neg hn]
      rfl
    have hv2 : (2 : ℝ) * E 1 ≠ 0 := mul_ne_zero two_ne_zero hv
    obtain ⟨g, hg⟩ : ∃ g, g = D 1 - D 0 + E 1 / ((D 1 - D 0) / (2 * E 1) + sign (Real.sqrt ((D 1 - D 0) / (2 * E 1) * ((D 1 - D 0) / (2 * E 1)) + 1))
      ((D 1 - D 0) / (2 * E 1))) := ⟨_, rfl⟩
    obtain ⟨s, c, y, q1, q2, q3, q4, q5⟩ := rotation_ok g (show (1 : ℝ) * E 1 ≠ 0 by rw [one_mul]; exact hv)
    rw [one_mul] at q2
    obtain ⟨r, hr⟩ : ∃ r, r = (D 0 - D 1) * s + 2 * c * E 1 := ⟨_, rfl⟩
    have hzero := wilkinson hv hg q2 q3 q4 hr
    obtain ⟨e4, a1, a2⟩ := Holds.put w5 (show 1 < 2 by omega) y
    obtain ⟨d4, a3, a4⟩ := Holds.put h3 (show 1 < 2 by omega) (D 1 - 0 + s * r)
    obtain ⟨z4, a5, a6⟩ := rotate_ok (show 0 + 1 < 2 by omega) h2 s c
    obtain ⟨d5, a7, a8⟩ := Holds.put a4 (show 0 < 2 by omega) (D 0 - s * r)
    obtain ⟨e5, a9, a10⟩ := Holds.put a2 (show 0 < 2 by omega) 0
    obtain ⟨e6, a11, a12⟩ := Holds.put a10 (show 1 < 2 by omega) 0
    have hstep : qlStep 2 0 ⟨z1, d1, e3, g, 1, 1, 0⟩ = some ⟨z4, d4, e4, 0, s, c, s * r⟩ := by
      unfold qlStep
      dsimp only
      rw [bind_ok r0, bind_ok q1]
      dsimp only
      rw [bind_ok a1, bind_ok (h3.2 1 (by omega)), bind_ok (h3.2 0 (by omega))]
      rw [show (D 0 - (D 1 - 0)) * s + 2 * c * (1 * E 1) = r by rw [hr]; ring, show c * r - 1 * E 1 = 0 by rw [one_mul]; exact hzero]
      rw [bind_ok a3, bind_ok a5]
      rfl
    have hsweep : qlSweep 2 0 1 ⟨z1, d1, e3⟩ = some ⟨z4, d5, e6⟩ := by
      unfold qlSweep
      dsimp only
      rw [bind_ok (h3.2 (0 + 1) (by omega)), bind_ok (h3.2 0 (by omega)), bind_ok r0, bind_ok (div_ok hv2), bind_ok (h3.2 1 (by omega)), bind_ok (div_ok (shift_ne _))]
      have : loop (1 - 0) (fun t (q : Ql) => qlStep 2 (1 - 1 - t) q) ⟨z1, d1, e3, g, 1, 1, 0⟩ = some ⟨z4, d4, e4, 0, s, c, s * r⟩ := by
        show loop 1 _ _ = _
        rw [loop, loop, Option.bind_some]
        exact hstep
      rw [hg] at this
      rw [bind_ok this]
      dsimp only
      have y0 := a4.2 0 (by omega)
      simp only [show ¬ (0 = 1) by omega, if_false] at y0
      rw [bind_ok y0, bind_ok a7, bind_ok a9, bind_ok a11]
      rfl
    refine ⟨⟨z4, d5, e6⟩, h1, hpre _ ?_⟩
    have y0 := a12.2 0 (by omega)
    simp at y0
    have hsplit2 : split negl d5 e6 1 0 = some 0 := by
      rw [split, bind_ok (a8.2 0 (by omega)), bind_ok (a8.2 1 (by omega)), bind_ok y0, abs_zero, if_pos (hz _ (by positivity))]
    have hrow : ∀ f, qlRow negl 2 0 (f + 1) ⟨z1, d1, e3⟩ = some (some ⟨z4, d5, e6⟩) := by
      intro f
      rw [qlRow, bind_ok hsplit, if_neg (by omega)]
      dsimp only
      rw [bind_ok hsweep, qlRow, bind_ok hsplit2, if_pos rfl]
    rw [qlRows, bind_ok (hrow 29)]
    exact qlRows_done hz a8 a12 1 1 rfl (by intro j h1 h2; omega)

/-- A matrix without elements off the diagonal stays as it is through the reduction. -/
theorem stage_diagonal (h : ∀ k q, k < n → q < n → k ≠ q → A k q = 0) : ∀ t, t < n → (∀ i, n - 1 - t < i → i < n → ¬ Active (at' A n i) i) ∧ stage A n t = A := by
  intro t
  have hact : ∀ i, i < n → ¬ Active A i := by
    intro i hi hact
    apply hact.2
    unfold rowAbs
    exact sum_eq_zero fun k hk => by rw [h i k hi (by have := mem_range.mp hk; omega) (by have := mem_range.mp hk; omega), abs_zero]
  induction t with
  | zero => intro _; exact ⟨fun i h1 h2 => by omega, rfl⟩
  | succ t ih =>
    intro ht
    obtain ⟨h1, h2⟩ := ih (by omega)
    have h3 : at' A n (n - 1 - t) = A := by
      unfold at'
      rw [show n - 1 - (n - 1 - t) = t by omega, h2]
    refine ⟨fun i hi1 hi2 => ?_, ?_⟩
    · by_cases e : i = n - 1 - t
      · rw [e, h3]
        exact hact _ (by omega)
      · exact h1 i (by omega) hi2
    · rw [stage, h2]
      funext r c
      unfold next
      rw [if_neg (hact _ (by omega))]

theorem at_diagonal (h : ∀ k q, k < n → q < n → k ≠ q → A k q = 0) {i : ℕ} (hi : i < n) : at' A n i = A ∧ ¬ Active A i := by
  have h1 : at' A n i = A := (stage_diagonal h (n - 1 - i) (by omega)).2
  refine ⟨h1, ?_⟩
  by_cases h0 : i = 0
  · intro ha
    have := ha.1
    omega
  · have := (stage_diagonal h (n - i) (by omega)).1 i (by omega) hi
    rwa [h1] at this

theorem orth_diagonal (h : ∀ k q, k < n → q < n → k ≠ q → A k q = 0) : ∀ i, i < n → ∀ r c, r ≤ i → c ≤ i → orth A n i r c = if r = c then 1 else 0 := by
  intro i
  induction i with
  | zero =>
    intro _ r c hr hc
    obtain rfl : r = 0 := by omega
    obtain rfl : c = 0 := by omega
    simp [orth]
  | succ i ih =>
    intro hi r c hr hc
    by_cases e1 : r = i + 1
    · subst e1
      rw [orth_row n (i + 1) hc]
      by_cases e2 : c = i + 1 <;> simp [e2, eq_comm]
    · by_cases e2 : c = i + 1
      · subst e2
        rw [orth_col n (i + 1) hr]
      · simp only [orth, e1, e2, if_false]
        obtain ⟨h1, h2⟩ := at_diagonal h hi
        rw [h1, refl, if_neg h2]
        exact ih (by omega) r c (by omega) (by omega)

/-- **C69** A diagonal matrix is finished without iteration: the eigenvectors are the unit vectors and the eigenvalues are the diagonal, in the given order. So the
eigenvalues are not sorted. -/
theorem C69_diagonal (hz : ∀ x, 0 ≤ x → negl 0 x = true) (hn : 1 ≤ n) (h : ∀ k q, k < n → q < n → k ≠ q → A k q = 0) (ha : Holds2 n n A sym) (hd : d.length = n)
    (he : e.length = n) :
    ∃ s1 s', tred2 n ⟨sym, d, e⟩ = some s1 ∧ tqli negl n s1 = some (some s') ∧ Holds2 n n (fun k j => if k = j then 1 else 0) s'.a ∧ Holds n (fun j => A j j) s'.d ∧
      s'.e.length = n := by
  have hs : Symm n A := by
    intro k q hk hq
    by_cases e : k = q
    · rw [e]
    · rw [h k q hk hq e, h q k hq hk (Ne.symm e)]
  obtain ⟨z', d', e', h1, h2, h3, h4⟩ := tred2_ok hn ha hd he hs
  have hE : ∀ r, r < n → (if r = 0 then 0 else off A n r) = 0 := by
    intro r hr
    by_cases e : r = 0
    · simp [e]
    · rw [if_neg e]
      obtain ⟨g1, g2⟩ := at_diagonal h hr
      unfold off
      rw [g1, side, if_neg g2]
      exact h r (r - 1) hr (by omega) (by omega)
  have h5 : Holds n (fun _ => (0 : ℝ)) e' := h4.congr fun r hr => hE r hr
  obtain ⟨e1, w1, w2⟩ := loop_inv (n := n - 1) (s := e') (f := fun i (e : List ℝ) => do
      let v ← e[i + 1]?
      wr e i v)
    (P := fun _ e => Holds n (fun _ => (0 : ℝ)) e) h5 (by
      intro i e hi h
      obtain ⟨e', w1, w2⟩ := Holds.put h (show i < n by omega) 0
      exact ⟨e', by rw [bind_ok (h.2 (i + 1) (by omega))]; exact w1, w2.congr fun j _ => by simp⟩)
  obtain ⟨e2, w3, w4⟩ := Holds.put w2 (show n - 1 < n by omega) 0
  have hw : wrI e1 ((n : Int) - 1) 0 = some e2 := by
    rw [show (n : Int) - 1 = ((n - 1 : Nat) : Int) by omega, wrI_natCast]
    exact w3
  have h6 : Holds n (diag A n) d' := h3
  refine ⟨_, ⟨z', d', e2⟩, h1, ?_, h2.congr fun k j hk hj => ?_, h3.congr fun j hj => ?_, w4.1⟩
  · unfold tqli
    rw [bind_ok w1, bind_ok hw]
    exact qlRows_done hz h6 w4 n 0 (by omega) (by intro j _ _; simp)
  · exact orth_diagonal h (n - 1) (by omega) k j (by omega) (by omega)
  · unfold diag
    rw [(at_diagonal h hj).1]

/-- **C69** Without rows `tred2` writes outside its arrays. -/
theorem C69_empty : tred2 0 ⟨sym, [], []⟩ = none := rfl

/-! ## Examples -/

/-- The test that neglects only zero. -/
noncomputable def exactTest : ℝ → ℝ → Bool := fun v _ => @decide (v ≤ 0) (Classical.propDecidable _)

theorem exactTest_test : Test exactTest 0 := ⟨fun x _ => by simp [exactTest], fun v x h => by simpa [exactTest] using h⟩

/-- A test like that of the doubles. -/
noncomputable def relativeTest (ε : ℝ) : ℝ → ℝ → Bool := fun v x => @decide (v ≤ ε * x) (Classical.propDecidable _)

theorem relativeTest_test {ε : ℝ} (h : 0 ≤ ε) : Test (relativeTest ε) ε :=
  ⟨fun x hx => by simp [relativeTest]; exact mul_nonneg h hx, fun v x h => by simpa [relativeTest] using h⟩

/-- `[[2, 1], [1, 2]]` is finished, with orthonormal eigenvectors. -/
example : ∃ s1 s' Z D, tred2 2 ⟨[[2, 1], [1, 2]], [7, 7], [8, 9]⟩ = some s1 ∧ tqli exactTest 2 s1 = some (some s') ∧ Holds2 2 2 Z s'.a ∧ Holds 2 D s'.d ∧
    Orthonormal 2 Z ∧ D 0 + D 1 = 4 ∧ Eigenvectors 2 (fun k q => if k = q then 2 else 1) Z D := by
  have ha : Holds2 2 2 (fun k q => if k = q then (2 : ℝ) else 1) [[2, 1], [1, 2]] := by
    refine ⟨rfl, fun i hi => ?_⟩
    have : i = 0 ∨ i = 1 := by omega
    rcases this with rfl | rfl
    · refine ⟨_, rfl, rfl, fun j hj => ?_⟩
      have : j = 0 ∨ j = 1 := by omega
      rcases this with rfl | rfl <;> simp
    · refine ⟨_, rfl, rfl, fun j hj => ?_⟩
      have : j = 0 ∨ j = 1 := by omega
      rcases this with rfl | rfl <;> simp
  have hs : Symm 2 (fun k q => if k = q then (2 : ℝ) else 1) := by
    intro k q _ _
    by_cases e : k = q
    · simp [e]
    · simp [e, Ne.symm e]
  obtain ⟨s1, s', h1, h2⟩ := C69_two (negl := exactTest) (d := [7, 7]) (e := [8, 9]) exactTest_test.zero hs ha rfl rfl
  obtain ⟨s1', r, g1, g2, g3⟩ := C69_eigen_exact (d := [7, 7]) (e := [8, 9]) exactTest_test (by omega) hs ha rfl rfl
  rw [h1] at g1
  cases g1
  rw [h2] at g2
  cases g2
  obtain ⟨Z, D, k1, k2, _, k3, k4⟩ := g3 s' rfl
  refine ⟨s1, s', Z, D, h1, h2, k1, k2, k3, ?_, k4⟩
  have := (C69_spectral k3 k4).2
  simp [sum_range_succ] at this
  linarith

end QM.Pca
