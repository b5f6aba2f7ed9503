import Verif.Lapack.Getrf
import Verif.Lapack.Getri
import Verif.Lapack.Spec
import Mathlib.LinearAlgebra.Matrix.NonsingularInverse
import Mathlib.LinearAlgebra.Matrix.Block
import Mathlib.Tactic.NormNum

/-!
# C81: the bundled LAPACK factors and inverts
-/

namespace QM.Lapack

open Finset Equiv

variable {K : Type} [Field K] {L : Nat}

/-- The function of indices that a matrix is. -/
def ofMat (M : Matrix (Fin L) (Fin L) K) (i j : Nat) : K := if h : i < L ∧ j < L then M ⟨i, h.1⟩ ⟨j, h.2⟩ else 0

theorem ofMat_fin (M : Matrix (Fin L) (Fin L) K) (i j : Fin L) : ofMat M i j = M i j := by
  unfold ofMat
  rw [dif_pos ⟨i.2, j.2⟩]

theorem InArray.cols {M : Matrix (Fin L) (Fin L) K} {a : List K} (h : InArray M a) : Cols L (ofMat M) a := by
  refine ⟨h.1, fun i j hi hj => ?_⟩
  rw [ofMat_fin M ⟨i, hi⟩ ⟨j, hj⟩]
  exact h.2 ⟨i, hi⟩ ⟨j, hj⟩

theorem Cols.inArray {g : Nat → Nat → K} {a : List K} (h : Cols L g a) : InArray (Matrix.of fun i j : Fin L => g i j) a :=
  ⟨h.1, fun i j => h.2 i j i.2 j.2⟩

theorem pivPerm_rowNow (P : Nat → Nat) (n i : Nat) : pivPerm P 0 n i = rowNow P n i := by
  induction n generalizing i with
  | zero => rfl
  | succ n ih => rw [pivPerm, Perm.mul_apply, ih, Nat.zero_add]; rfl

/-- A permutation of rows as one of the indices of a matrix. -/
def finPerm (t : Perm Nat) (h : ∀ x, x < L ↔ t x < L) : Perm (Fin L) where
  toFun i := ⟨t i, (h i).mp i.2⟩
  invFun i := ⟨t⁻¹ i, (h _).mpr (by rw [show t (t⁻¹ i) = i from t.apply_symm_apply i]; exact i.2)⟩
  left_inv i := by simp
  right_inv i := by simp

theorem pivPerm_lt {P : Nat → Nat} (hP : ∀ i < L, i ≤ P i ∧ P i < L) (x : Nat) : x < L ↔ pivPerm P 0 L x < L := by
  have h : ∀ i < L, 0 + i ≤ P (0 + i) ∧ P (0 + i) < L := by simpa using hP
  constructor
  · intro hx
    exact (pivPerm_mem h (Nat.zero_le x) hx).2
  · intro hx
    by_contra hc
    rw [pivPerm_fix h (Or.inr (by omega))] at hx
    exact hc hx

theorem unitLower_of (g : Nat → Nat → K) (i j : Fin L) : unitLower (Matrix.of fun i j : Fin L => g i j) i j = lo g i j := by
  unfold unitLower lo
  simp only [Fin.ext_iff, Fin.lt_def, Matrix.of_apply]

theorem upper_of (g : Nat → Nat → K) (i j : Fin L) : upper (Matrix.of fun i j : Fin L => g i j) i j = up g i j := by
  unfold upper up
  simp only [Fin.le_def, Matrix.of_apply]

theorem unitLower_det (F : Matrix (Fin L) (Fin L) K) : (unitLower F).det = 1 := by
  rw [Matrix.det_of_lowerTriangular _ (fun i j hij => by
    have hij : i < j := hij
    unfold unitLower
    rw [if_neg hij.ne, if_neg hij.asymm])]
  exact prod_eq_one fun i _ => by unfold unitLower; rw [if_pos rfl]

theorem upper_det (F : Matrix (Fin L) (Fin L) K) : (upper F).det = ∏ i, F i i := by
  rw [Matrix.det_of_upperTriangular (fun i j (hij : j < i) => by unfold upper; rw [if_neg (not_le.mpr hij)])]
  exact prod_congr rfl fun i _ => by unfold upper; rw [if_pos le_rfl]

variable [LinearOrder K] [IsStrictOrderedRing K]

/-- The factors as matrices, with what `dgetri_` needs. -/
theorem factors (nb : Nat) (sfmin : K) {M : Matrix (Fin L) (Fin L) K} {a : List K} (h : InArray M a) {piv : List Nat} (hp : L ≤ piv.length) :
    ∃ s g P, ∃ σ : Perm (Fin L), dgetrf nb sfmin L L L a piv = some s ∧ Cols L g s.a ∧ (∀ i < L, i ≤ P i ∧ P i < L) ∧
      (∀ i < L, s.piv[i]? = some (P i + 1)) ∧ (∀ i, ((σ i : Fin L) : ℕ) = pivPerm P 0 L i) ∧
      M.submatrix σ id = unitLower (Matrix.of fun i j : Fin L => g i j) * upper (Matrix.of fun i j : Fin L => g i j) ∧
      (∀ i l, l < i → i < L → |g i l| ≤ 1) ∧ FirstZero L (fun i => g i i) s.info ∧ s.piv.length = piv.length := by
  obtain ⟨s, g, P, h1, h2, h3⟩ := dgetrf_ok nb sfmin h.cols hp
  refine ⟨s, g, P, finPerm (pivPerm P 0 L) (pivPerm_lt h3.rows), h1, h2, h3.rows, h3.piv, fun _ => rfl, ?_, fun i l hli hi => h3.small i l (by omega) hli hi,
    h3.info, h3.len⟩
  ext i j
  have h4 := h3.elim i j i.2 j.2
  beta_reduce at h4
  rw [if_neg (by have := i.2; omega), add_zero] at h4
  refine Eq.trans ?_ (h4.trans ?_)
  · exact (ofMat_fin M (finPerm (pivPerm P 0 L) (pivPerm_lt h3.rows) i) j).symm
  · rw [Matrix.mul_apply, ← Fin.sum_univ_eq_sum_range (fun l => lo g i l * up g l j)]
    exact sum_congr rfl fun l _ => by rw [unitLower_of, upper_of]

omit [LinearOrder K] [IsStrictOrderedRing K] in
theorem det_factors {M F : Matrix (Fin L) (Fin L) K} {σ : Perm (Fin L)} (h : M.submatrix σ id = unitLower F * upper F) :
    ((Perm.sign σ : ℤ) : K) * M.det = ∏ i, F i i := by
  have := congrArg Matrix.det h
  rwa [Matrix.det_permute, Matrix.det_mul, unitLower_det, one_mul, upper_det] at this

omit [LinearOrder K] [IsStrictOrderedRing K] in
theorem det_factors_ne {M F : Matrix (Fin L) (Fin L) K} {σ : Perm (Fin L)} (h : M.submatrix σ id = unitLower F * upper F) :
    M.det ≠ 0 ↔ ∀ i, F i i ≠ 0 := by
  have h1 := det_factors h
  have h2 : (∀ i, F i i ≠ 0) ↔ ∏ i, F i i ≠ 0 := by
    rw [prod_ne_zero_iff]
    simp
  rw [h2, ← h1]
  rcases Int.units_eq_one_or (Perm.sign σ) with h | h <;> rw [h] <;> simp

/-- **C81** `dgetrf_` of the bundled LAPACK, with any block size and any value for the smallest safe number, factors every square matrix: with
the exchanges of rows that the pivots state, the matrix is the product of the unit lower and the upper triangle that the array holds, no
multiplier is larger than 1, the determinant is the product of the diagonal up to sign, and `*info` is 0 exactly for nonsingular matrices
and otherwise the number, counted from 1, of the first zero on the diagonal of the upper triangle. -/
theorem C81_factors (nb : Nat) (sfmin : K) {M : Matrix (Fin L) (Fin L) K} {a : List K} (h : InArray M a) {piv : List Nat} (hp : L ≤ piv.length) :
    ∃ s F P, ∃ σ : Perm (Fin L), dgetrf nb sfmin L L L a piv = some s ∧ InArray F s.a ∧ M.submatrix σ id = unitLower F * upper F ∧
      (∀ i < L, s.piv[i]? = some (P i + 1) ∧ i ≤ P i ∧ P i < L) ∧ (∀ i, ((σ i : Fin L) : ℕ) = rowNow P L i) ∧
      (∀ i j, j < i → |F i j| ≤ 1) ∧ |∏ i, F i i| = |M.det| ∧ (s.info = 0 ↔ M.det ≠ 0) ∧
      s.info ≤ L ∧ ∀ i : Fin L, s.info = i + 1 → F i i = 0 ∧ ∀ j < i, F j j ≠ 0 := by
  obtain ⟨s, g, P, σ, h1, h2, h3, h4, h5, h6, h7, h8, _⟩ := factors nb sfmin h hp
  refine ⟨s, _, P, σ, h1, h2.inArray, h6, fun i hi => ⟨h4 i hi, h3 i hi⟩, fun i => by rw [h5, pivPerm_rowNow], fun i j hij => h7 i j hij i.2, ?_, ?_, ?_, ?_⟩
  · rw [← det_factors h6, abs_mul]
    rcases Int.units_eq_one_or (Perm.sign σ) with h | h <;> rw [h] <;> simp
  · rw [h8.iff, det_factors_ne h6]
    exact ⟨fun h i => h i i.2, fun h i hi => h ⟨i, hi⟩⟩
  · rcases h8 with ⟨e1, _⟩ | ⟨_, e2, _, _⟩ <;> omega
  · intro i hi
    rcases h8 with ⟨e1, _⟩ | ⟨_, _, e3, e4⟩
    · omega
    · rw [hi, Nat.add_sub_cancel] at e3 e4
      exact ⟨e3, fun j hj => e4 j hj⟩

/-- **C81** `dgetri_` after `dgetrf_`: the array holds the inverse of every nonsingular matrix, for any block sizes, any work array that is
large enough for unblocked code, and whatever it holds. -/
theorem C81_inverse (nb nbi nbt : Nat) (sfmin : K) {M : Matrix (Fin L) (Fin L) K} {a work : List K} {lwork : Nat} (h : InArray M a) {piv : List Nat}
    (hL : 0 < L) (hp : L ≤ piv.length) (hl : L ≤ lwork) (hw : work.length = lwork) (hM : M.det ≠ 0) :
    ∃ s a', dgetrf nb sfmin L L L a piv = some s ∧ dgetri nbi nbt L L lwork s.a s.piv work = some (a', 0) ∧ InArray M⁻¹ a' := by
  obtain ⟨s, g, P, σ, h1, h2, h3, h4, h5, h6, _, h8, _⟩ := factors nb sfmin h hp
  have hd : ∀ i < L, g i i ≠ 0 := fun i hi => (det_factors_ne h6).mp hM ⟨i, hi⟩
  obtain ⟨a', V, X, h9, h10, ⟨h11, h12⟩, ⟨_, h13⟩⟩ := dgetri_ok (nb := nbi) (nbt := nbt) h2 hL hl hw.symm (fun i hi => ⟨h4 i hi, (h3 i hi).2⟩)
    (fun i hi => by have := h3 i (by omega); omega) hd
  refine ⟨s, a', h1, h9, ?_⟩
  simp only [Nat.zero_add, Nat.zero_le, true_and] at h11 h12 h13
  -- the inverse of U
  have hV : upper (Matrix.of fun i j : Fin L => V i j) * upper (Matrix.of fun i j : Fin L => g i j) = 1 := by
    ext i j
    rw [Matrix.mul_apply]
    have e1 : ∑ l, upper (Matrix.of fun i j : Fin L => V i j) i l * upper (Matrix.of fun i j : Fin L => g i j) l j =
        ∑ l ∈ range L, up V i l * up g l j := by
      rw [← Fin.sum_univ_eq_sum_range (fun l => up V i l * up g l j)]
      exact sum_congr rfl fun l _ => by rw [upper_of, upper_of]
    rw [e1]
    by_cases hij : (i : ℕ) ≤ j
    · have h14 := h12 i j hij j.2
      have e2 : ∑ l ∈ range L, up V i l * up g l j = ∑ l ∈ Ico (i : ℕ) (j + 1), V i l * g l j := by
        rw [range_eq_Ico, ← sum_Ico_consecutive _ (Nat.zero_le i) (show (i : ℕ) ≤ L from i.2.le),
          ← sum_Ico_consecutive _ (show (i : ℕ) ≤ j + 1 by omega) (show (j : ℕ) + 1 ≤ L from j.2)]
        have z1 : ∑ l ∈ Ico 0 (i : ℕ), up V i l * up g l j = 0 := sum_eq_zero fun l hl => by
          rw [mem_Ico] at hl
          unfold up
          rw [if_neg (by omega), zero_mul]
        have z2 : ∑ l ∈ Ico ((j : ℕ) + 1) L, up V i l * up g l j = 0 := sum_eq_zero fun l hl => by
          rw [mem_Ico] at hl
          unfold up
          rw [if_neg (show ¬ l ≤ (j : ℕ) by omega), mul_zero]
        rw [z1, z2, zero_add, add_zero]
        refine sum_congr rfl fun l hl => ?_
        rw [mem_Ico] at hl
        unfold up
        rw [if_pos (by omega), if_pos (by omega)]
      rw [e2, h14, Matrix.one_apply]
      simp only [Fin.ext_iff]
    · rw [Matrix.one_apply_ne (by intro h; exact hij (by rw [h]))]
      refine sum_eq_zero fun l _ => ?_
      unfold up
      by_cases hl : (i : ℕ) ≤ l
      · rw [if_neg (show ¬ l ≤ (j : ℕ) by omega), mul_zero]
      · rw [if_neg hl, zero_mul]
  -- times the inverse of L
  have hX : (Matrix.of fun i j : Fin L => X i j) * unitLower (Matrix.of fun i j : Fin L => g i j) = upper (Matrix.of fun i j : Fin L => V i j) := by
    ext x y
    rw [Matrix.mul_apply, upper_of]
    have e1 : ∑ l, (Matrix.of fun i j : Fin L => X i j) x l * unitLower (Matrix.of fun i j : Fin L => g i j) l y = ∑ l ∈ range L, X x l * lo g l y := by
      rw [← Fin.sum_univ_eq_sum_range (fun l => X x l * lo g l y)]
      exact sum_congr rfl fun l _ => by rw [unitLower_of, Matrix.of_apply]
    rw [e1, ← h13 x y x.2 trivial y.2, range_eq_Ico, ← sum_Ico_consecutive _ (Nat.zero_le y) (show (y : ℕ) ≤ L from y.2.le), sum_eq_sum_Ico_succ_bot y.2]
    have z1 : ∑ l ∈ Ico 0 (y : ℕ), X x l * lo g l y = 0 := sum_eq_zero fun l hl => by
      rw [mem_Ico] at hl
      unfold lo
      rw [if_neg (by omega), if_neg (by omega), mul_zero]
    rw [z1, zero_add]
    congr 1
    · unfold lo
      rw [if_pos rfl, mul_one]
    · refine sum_congr rfl fun l hl => ?_
      rw [mem_Ico] at hl
      unfold lo
      rw [if_neg (by omega), if_pos (by omega), h11 l y (by omega)]
  have hinv : M⁻¹ = (Matrix.of fun i j : Fin L => X i j).submatrix id σ.symm := by
    refine Matrix.inv_eq_left_inv ?_
    have e1 : M = (M.submatrix σ id).submatrix σ.symm id := by
      ext i j
      simp
    rw [e1, Matrix.submatrix_mul_equiv, h6, ← Matrix.mul_assoc, hX, hV]
    ext i j
    simp [Matrix.one_apply]
  rw [hinv]
  refine ⟨h10.1, fun i j => ?_⟩
  rw [h10.2 i j i.2 j.2, Matrix.submatrix_apply, Matrix.of_apply]
  have e : ((σ.symm j : Fin L) : ℕ) = (pivPerm P 0 L)⁻¹ j := by
    have := h5 (σ.symm j)
    rw [apply_symm_apply] at this
    rw [this]; exact ((pivPerm P 0 L).symm_apply_apply _).symm
  rw [id, e]

/-- **C81** For a singular matrix `dgetri_` reports it in `*info`, as `dgetrf_` did, and leaves the factors in the array: what the array then holds is not an
inverse. -/
theorem C81_singular (nb nbi nbt : Nat) (sfmin : K) {M : Matrix (Fin L) (Fin L) K} {a work : List K} {lwork : Nat} (h : InArray M a) {piv : List Nat}
    (hp : L ≤ piv.length) (hl : L ≤ lwork) (hw : work.length = lwork) (hM : M.det = 0) :
    ∃ s, dgetrf nb sfmin L L L a piv = some s ∧ 0 < s.info ∧ dgetri nbi nbt L L lwork s.a s.piv work = some (s.a, s.info) := by
  obtain ⟨s, g, P, σ, h1, h2, _, _, _, h6, _, h8, _⟩ := factors nb sfmin h hp
  have hd : ∃ i, i < L ∧ g i i = 0 := by
    by_contra hc
    exact (det_factors_ne h6).mpr (fun i hi => hc ⟨i, i.2, hi⟩) hM
  obtain ⟨i, hi, hz⟩ := hd
  obtain ⟨info, h9, h11, h10⟩ := dgetri_singular (piv := s.piv) (nb := nbi) (nbt := nbt) h2 hl hw.symm hi hz
  obtain rfl := h8.unique h11
  exact ⟨s, h1, h9, h10⟩

theorem inArray_example : InArray !![0, 2, 1; 4, 1, 0; 2, 1, (3 : ℚ)] [0, 4, 2, 2, 1, 1, 1, 0, 3] := ⟨rfl, by decide⟩

/-- A matrix that needs an exchange, in blocks of two columns and with arrays full of old values. -/
example : ∃ s a', dgetrf 2 (1 / 1000 : ℚ) 3 3 3 [0, 4, 2, 2, 1, 1, 1, 0, 3] [7, 7, 7] = some s ∧
    dgetri 2 2 3 3 6 s.a s.piv [7, 7, 7, 7, 7, 7] = some (a', 0) ∧ InArray !![0, 2, 1; 4, 1, 0; 2, 1, (3 : ℚ)]⁻¹ a' :=
  C81_inverse 2 2 2 _ inArray_example (by norm_num) (by simp) (by norm_num) (by simp) (by
    rw [Matrix.det_fin_three]
    simp
    norm_num)

/-- The same numbers, computed. -/
example : ((dgetrf 2 (1 / 1000 : ℚ) 3 3 3 [0, 4, 2, 2, 1, 1, 1, 0, 3] [7, 7, 7]).bind fun s => dgetri 2 2 3 3 6 s.a s.piv [7, 7, 7, 7, 7, 7]) =
    some ([-3 / 22, 6 / 11, -1 / 11, 5 / 22, 1 / 11, -2 / 11, 1 / 22, -2 / 11, 4 / 11], 0) := by
  decide +kernel

/-- A singular matrix: two by two, second row twice the first. -/
example : ∃ s, dgetrf 64 (1 / 1000 : ℚ) 2 2 2 [1, 2, 2, 4] [7, 7] = some s ∧ 0 < s.info ∧
    dgetri 64 64 2 2 128 s.a s.piv (List.replicate 128 7) = some (s.a, s.info) :=
  C81_singular 64 64 64 _ (M := !![1, 2; 2, 4]) ⟨rfl, by decide⟩ (by simp) (by norm_num) (by simp) (by
    rw [Matrix.det_fin_two]
    simp
    norm_num)

end QM.Lapack
