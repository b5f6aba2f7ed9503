import Verif.Hmm.TrainProps
import Mathlib.Analysis.Matrix.PosDef
import Mathlib.Analysis.Matrix.Order
import Mathlib.Analysis.SpecialFunctions.Log.Basic

/-!
# The inequalities behind expectation maximisation
-/

namespace QM.Hmm

open Finset

/-- Gibbs' inequality for weights. -/
theorem gibbs {ι : Type} (s : Finset ι) (p q : ι → ℝ) (hp : ∀ i ∈ s, 0 < p i) (hq : ∀ i ∈ s, 0 < q i) (h : ∑ i ∈ s, q i ≤ ∑ i ∈ s, p i) :
    ∑ i ∈ s, p i * Real.log (q i) ≤ ∑ i ∈ s, p i * Real.log (p i) := by
  have : ∑ i ∈ s, p i * (Real.log (q i) - Real.log (p i)) ≤ ∑ i ∈ s, (q i - p i) := by
    refine sum_le_sum fun i hi => ?_
    have h1 := hp i hi
    have h2 := hq i hi
    rw [← Real.log_div h2.ne' h1.ne']
    have := Real.log_le_sub_one_of_pos (div_pos h2 h1)
    calc p i * Real.log (q i / p i) ≤ p i * (q i / p i - 1) := mul_le_mul_of_nonneg_left this h1.le
      _ = q i - p i := by field_simp
  rw [sum_sub_distrib] at this
  simp only [mul_sub, sum_sub_distrib] at this
  linarith

/-- The step of expectation maximisation: if the expected log-probability of the hidden variable does not fall, the likelihood does not. -/
theorem em {ι : Type} (s : Finset ι) (hs : s.Nonempty) (w v : ι → ℝ) (hw : ∀ i ∈ s, 0 < w i) (hv : ∀ i ∈ s, 0 < v i)
    (h : ∑ i ∈ s, w i * Real.log (w i) ≤ ∑ i ∈ s, w i * Real.log (v i)) : ∑ i ∈ s, w i ≤ ∑ i ∈ s, v i := by
  have hW : 0 < ∑ i ∈ s, w i := sum_pos hw hs
  have hV : 0 < ∑ i ∈ s, v i := sum_pos hv hs
  set W := ∑ i ∈ s, w i with hWd
  set V := ∑ i ∈ s, v i with hVd
  have hg := gibbs s w (fun i => v i * (W / V)) hw (fun i hi => mul_pos (hv i hi) (div_pos hW hV)) (by
    rw [← sum_mul, ← hVd, mul_div_cancel₀ _ hV.ne'])
  have : ∑ i ∈ s, w i * Real.log (v i * (W / V)) = ∑ i ∈ s, w i * Real.log (v i) + W * Real.log (W / V) := by
    rw [hWd, sum_mul, ← sum_add_distrib]
    refine sum_congr rfl fun i hi => ?_
    rw [← hWd, Real.log_mul (hv i hi).ne' (div_pos hW hV).ne', mul_add]
  rw [this] at hg
  have h1 : Real.log (W / V) ≤ 0 := by
    by_contra hc
    have := mul_pos hW (not_le.mp hc)
    linarith
  have h2 : W / V ≤ 1 := (Real.log_nonpos_iff (div_pos hW hV).le).mp h1
  exact (div_le_one hV).mp h2

section Mat
variable {n : Nat}

open scoped MatrixOrder in
/-- `n + log det (A S) ≤ trace (A S)` for positive definite matrices. -/
theorem log_det_le_trace (A S : Matrix (Fin n) (Fin n) ℝ) (hA : A.PosDef) (hS : S.PosDef) :
    (n : ℝ) + Real.log A.det + Real.log S.det ≤ (A * S).trace := by
  obtain ⟨C, hC⟩ := CStarAlgebra.nonneg_iff_eq_star_mul_self.mp hA.posSemidef.nonneg
  rw [Matrix.star_eq_conjTranspose] at hC
  have hdetA : 0 < A.det := hA.det_pos
  have hdetS : 0 < S.det := hS.det_pos
  have hCu : IsUnit C := by
    rw [Matrix.isUnit_iff_isUnit_det, isUnit_iff_ne_zero]
    intro h0
    rw [hC, Matrix.det_mul, h0, mul_zero] at hdetA
    exact lt_irrefl _ hdetA
  have hH : (C * S * Matrix.conjTranspose C).PosDef := by
    have := (Matrix.IsUnit.posDef_star_right_conjugate_iff (x := S) hCu).mpr hS
    rwa [Matrix.star_eq_conjTranspose] at this
  have htr : (A * S).trace = (C * S * Matrix.conjTranspose C).trace := by
    rw [hC, Matrix.mul_assoc, Matrix.trace_mul_comm]
  have hdet : A.det * S.det = (C * S * Matrix.conjTranspose C).det := by
    rw [hC, Matrix.det_mul, Matrix.det_mul, Matrix.det_mul]
    ring
  rw [htr, add_assoc, ← Real.log_mul hdetA.ne' hdetS.ne', hdet, hH.1.trace_eq_sum_eigenvalues, hH.1.det_eq_prod_eigenvalues]
  simp only [RCLike.ofReal_real_eq_id, id_eq]
  rw [Real.log_prod (fun i _ => (hH.eigenvalues_pos i).ne')]
  have : ∀ i, 1 + Real.log (hH.1.eigenvalues i) ≤ hH.1.eigenvalues i := fun i => by
    have := Real.log_le_sub_one_of_pos (hH.eigenvalues_pos i)
    linarith
  calc (n : ℝ) + ∑ i, Real.log (hH.1.eigenvalues i) = ∑ i, (1 + Real.log (hH.1.eigenvalues i)) := by
        rw [sum_add_distrib]
        simp
    _ ≤ _ := sum_le_sum fun i _ => this i

end Mat

variable {N T : Nat} {P P' : Nat → ℝ} {A B A' B' : Nat → Nat → ℝ}

theorem log_pathProb (h : Positive N T P A B) (hT : 0 < T) (q : Fin T → Fin N) : Real.log (pathProb P A B q) =
    Real.log (P (at' q 0)) + ∑ t ∈ range (T - 1), Real.log (A (at' q t) (at' q (t + 1))) + ∑ t ∈ range T, Real.log (B t (at' q t)) := by
  have ha : ∀ t ∈ range (T - 1), A (at' q t) (at' q (t + 1)) ≠ 0 := fun t ht => by
    have := mem_range.mp ht
    exact (h.a _ _ (at'_lt (by omega)) (at'_lt (by omega))).ne'
  have hb : ∀ t ∈ range T, B t (at' q t) ≠ 0 := fun t ht => (h.b _ _ (mem_range.mp ht) (at'_lt (mem_range.mp ht))).ne'
  unfold pathProb
  rw [Real.log_mul (mul_ne_zero (h.p0 _ (at'_lt hT)).ne' (prod_ne_zero_iff.mpr ha)) (prod_ne_zero_iff.mpr hb),
    Real.log_mul (h.p0 _ (at'_lt hT)).ne' (prod_ne_zero_iff.mpr ha), Real.log_prod ha, Real.log_prod hb]

theorem expect_state (hL : likelihood N T P A B ≠ 0) (f : Nat → ℝ) {t : Nat} (ht : t < T) :
    ∑ q : Fin T → Fin N, pathProb P A B q * f (at' q t) = likelihood N T P A B * ∑ i ∈ range N, statePosterior N T P A B t i * f i := by
  unfold statePosterior
  simp only [div_mul_eq_mul_div, ← sum_div]
  rw [mul_div_cancel₀ _ hL]
  simp only [sum_mul]
  rw [sum_comm]
  refine sum_congr rfl fun q _ => ?_
  rw [sum_eq_single (at' q t)]
  · simp
  · intro i _ hi
    rw [if_neg (Ne.symm hi)]
    ring
  · intro h
    exact absurd (mem_range.mpr (at'_lt ht)) h

theorem expect_step (hL : likelihood N T P A B ≠ 0) (f : Nat → Nat → ℝ) {t : Nat} (ht : t + 1 < T) :
    ∑ q : Fin T → Fin N, pathProb P A B q * f (at' q t) (at' q (t + 1)) =
      likelihood N T P A B * ∑ i ∈ range N, ∑ j ∈ range N, stepPosterior N T P A B t i j * f i j := by
  unfold stepPosterior
  simp only [div_mul_eq_mul_div, ← sum_div]
  rw [mul_div_cancel₀ _ hL]
  simp only [sum_mul]
  rw [sum_congr rfl (fun i _ => sum_comm), sum_comm]
  refine sum_congr rfl fun q _ => ?_
  rw [sum_eq_single (at' q t), sum_eq_single (at' q (t + 1))]
  · simp
  · intro j _ hj
    rw [if_neg (fun h => hj h.2.symm)]
    ring
  · intro h
    exact absurd (mem_range.mpr (at'_lt ht)) h
  · intro i _ hi
    refine sum_eq_zero fun j _ => ?_
    rw [if_neg (fun h => hi h.1.symm)]
    ring
  · intro h
    exact absurd (mem_range.mpr (at'_lt (by omega))) h

/-- The expected log-probability of the path under new parameters. -/
theorem expected_log (hL : likelihood N T P A B ≠ 0) (h : Positive N T P' A' B') (hT : 0 < T) :
    ∑ q : Fin T → Fin N, pathProb P A B q * Real.log (pathProb P' A' B' q) = likelihood N T P A B *
      (∑ i ∈ range N, statePosterior N T P A B 0 i * Real.log (P' i)
        + ∑ i ∈ range N, ∑ j ∈ range N, (∑ t ∈ range (T - 1), stepPosterior N T P A B t i j) * Real.log (A' i j)
        + ∑ t ∈ range T, ∑ i ∈ range N, statePosterior N T P A B t i * Real.log (B' t i)) := by
  simp only [log_pathProb h hT, mul_add, sum_add_distrib]
  congr 1
  · congr 1
    · exact expect_state hL (fun i => Real.log (P' i)) hT
    · simp only [mul_sum]
      rw [sum_comm, sum_congr rfl (fun t ht => expect_step hL (fun i j => Real.log (A' i j)) (by have := mem_range.mp ht; omega))]
      simp only [mul_sum, sum_mul]
      rw [sum_comm]
      refine sum_congr rfl fun i _ => ?_
      rw [sum_comm]
  · simp only [mul_sum]
    rw [sum_comm, sum_congr rfl (fun t ht => expect_state hL (fun i => Real.log (B' t i)) (mem_range.mp ht))]
    simp only [mul_sum]

/-- New initial and transition probabilities from the posteriors, and observation probabilities with a larger expected logarithm, do not
lower the likelihood. -/
theorem likelihood_le (hT : 2 ≤ T) (hN : 0 < N) (h : Positive N T P A B) (hP : ∑ i ∈ range N, P i = 1) (hA : ∀ i, i < N → ∑ j ∈ range N, A i j = 1)
    (hB' : ∀ t i, t < T → i < N → 0 < B' t i)
    (hB : ∑ t ∈ range T, ∑ i ∈ range N, statePosterior N T P A B t i * Real.log (B t i) ≤
      ∑ t ∈ range T, ∑ i ∈ range N, statePosterior N T P A B t i * Real.log (B' t i)) :
    likelihood N T P A B ≤ likelihood N T (statePosterior N T P A B 0) (newA T (statePosterior N T P A B) (stepPosterior N T P A B)) B' := by
  have hT0 : 0 < T := by omega
  have hL := likelihood_pos h hT0 hN
  obtain ⟨-, d2, -, d4, -⟩ := C32_distributions hT0 h.nonneg hL
  have hG : ∀ i, i < N → 0 < ∑ t ∈ range (T - 1), statePosterior N T P A B t i := fun i hi =>
    sum_pos (fun t ht => statePosterior_pos h hT0 (by have := mem_range.mp ht; omega) hi) ⟨0, mem_range.mpr (by omega)⟩
  have hX : ∀ i j, i < N → j < N → 0 < ∑ t ∈ range (T - 1), stepPosterior N T P A B t i j := fun i j hi hj =>
    sum_pos (fun t ht => stepPosterior_pos h hT0 (by have := mem_range.mp ht; omega) hi hj) ⟨0, mem_range.mpr (by omega)⟩
  have hA' : ∀ i j, i < N → newA T (statePosterior N T P A B) (stepPosterior N T P A B) i j =
      (∑ t ∈ range (T - 1), stepPosterior N T P A B t i j) / ∑ t ∈ range (T - 1), statePosterior N T P A B t i := fun i j hi => by
    unfold newA
    rw [if_neg (hG i hi).ne']
  have hpos' : Positive N T (statePosterior N T P A B 0) (newA T (statePosterior N T P A B) (stepPosterior N T P A B)) B' :=
    ⟨fun i hi => statePosterior_pos h hT0 hT0 hi, fun i j hi hj => by rw [hA' i j hi]; exact div_pos (hX i j hi hj) (hG i hi), hB'⟩
  unfold likelihood
  refine em univ ⟨fun _ => ⟨0, hN⟩, mem_univ _⟩ _ _ (fun q _ => pathProb_pos h hT0 q) (fun q _ => pathProb_pos hpos' hT0 q) ?_
  rw [expected_log hL.ne' h hT0, expected_log hL.ne' hpos' hT0]
  refine mul_le_mul_of_nonneg_left (add_le_add (add_le_add ?_ ?_) hB) hL.le
  · exact gibbs (range N) _ P (fun i hi => statePosterior_pos h hT0 hT0 (mem_range.mp hi)) (fun i hi => h.p0 i (mem_range.mp hi)) (by rw [hP, d2 0 hT0])
  · refine sum_le_sum fun i hi => ?_
    have hi := mem_range.mp hi
    have hn : ∑ j ∈ range N, newA T (statePosterior N T P A B) (stepPosterior N T P A B) i j = 1 := by
      rw [newA_eq hT0 h.nonneg hL hi]
      exact if_neg (hG i hi).ne'
    have := gibbs (range N) (newA T (statePosterior N T P A B) (stepPosterior N T P A B) i) (A i) (fun j hj => hpos'.a i j hi (mem_range.mp hj))
      (fun j hj => h.a i j hi (mem_range.mp hj)) (by rw [hA i hi, hn])
    have h2 := mul_le_mul_of_nonneg_left this (hG i hi).le
    rw [mul_sum, mul_sum] at h2
    have hc : ∀ (g : Nat → ℝ), ∑ j ∈ range N, (∑ t ∈ range (T - 1), statePosterior N T P A B t i) *
        (newA T (statePosterior N T P A B) (stepPosterior N T P A B) i j * g j) = ∑ j ∈ range N, (∑ t ∈ range (T - 1), stepPosterior N T P A B t i j) * g j := by
      intro g
      refine sum_congr rfl fun j _ => ?_
      rw [hA' i j hi, ← mul_assoc, mul_div_cancel₀ _ (hG i hi).ne']
    rw [hc, hc] at h2
    exact h2

/-! ### The Gaussian part -/

variable {L : Nat}

/-- The matrix of the first `L` rows and columns. -/
def mat (L : Nat) (C : Nat → Nat → ℝ) : Matrix (Fin L) (Fin L) ℝ := Matrix.of fun i j => C i j

/-- The vector of the first `L` entries. -/
def vec (L : Nat) (v : Nat → ℝ) : Fin L → ℝ := fun i => v i

/-- The density at `x` of the Gaussian with mean `m` and covariance matrix `C`. -/
noncomputable def gaussDensity (L : Nat) (C : Nat → Nat → ℝ) (m x : Nat → ℝ) : ℝ :=
  Real.exp (-(1 / 2) * (vec L (fun d => x d - m d) ⬝ᵥ ((mat L C)⁻¹.mulVec (vec L fun d => x d - m d)))) / Real.sqrt ((2 * Real.pi) ^ L * (mat L C).det)

theorem gaussDensity_pos {C : Nat → Nat → ℝ} (hC : (mat L C).PosDef) (m x : Nat → ℝ) : 0 < gaussDensity L C m x := by
  have := hC.det_pos
  unfold gaussDensity
  positivity

theorem log_gaussDensity {C : Nat → Nat → ℝ} (hC : (mat L C).PosDef) (m x : Nat → ℝ) : Real.log (gaussDensity L C m x) =
    -(1 / 2) * (vec L (fun d => x d - m d) ⬝ᵥ ((mat L C)⁻¹.mulVec (vec L fun d => x d - m d)) + (L : ℝ) * Real.log (2 * Real.pi) + Real.log (mat L C).det) := by
  have hd := hC.det_pos
  have hpi : (0 : ℝ) < (2 * Real.pi) ^ L := by positivity
  unfold gaussDensity
  rw [Real.log_div (Real.exp_pos _).ne' (Real.sqrt_pos.mpr (mul_pos hpi hd)).ne', Real.log_exp, Real.log_sqrt (mul_pos hpi hd).le, Real.log_mul hpi.ne' hd.ne',
    Real.log_pow]
  ring

theorem quad_eq (ic : Nat → Nat → ℝ) (y : Nat → ℝ) :
    vec L y ⬝ᵥ ((mat L ic).mulVec (vec L y)) = ∑ i ∈ range L, (∑ j ∈ range L, ic i j * y j) * y i := by
  simp only [dotProduct, Matrix.mulVec, mat, vec, Matrix.of_apply]
  rw [Finset.sum_range]
  refine sum_congr rfl fun i _ => ?_
  rw [Finset.sum_range]
  ring

/-- What the C code computes is the Gaussian density if the inverse and determinant are right. -/
theorem density_eq {C ic : Nat → Nat → ℝ} {det : ℝ} (hC : (mat L C).PosDef) (hi : mat L ic = (mat L C)⁻¹) (hd : det = (mat L C).det) (m x : Nat → ℝ) :
    Real.exp (logDensity L x m ic det) = gaussDensity L C m x := by
  rw [← Real.exp_log (gaussDensity_pos hC m x), log_gaussDensity hC, ← hi, quad_eq, hd]
  rfl

theorem quad_sum (hT : 0 < T) (M : Matrix (Fin L) (Fin L) ℝ) (G X Mu : Nat → Nat → ℝ) :
    ∑ t ∈ range T, ∑ j ∈ range N, G t j * (vec L (fun d => X t d - Mu j d) ⬝ᵥ (M.mulVec (vec L fun d => X t d - Mu j d))) =
      (T : ℝ) * (M * mat L (newCov N T G X Mu)).trace := by
  have hT' : (T : ℝ) ≠ 0 := by exact_mod_cast hT.ne'
  have h1 : (T : ℝ) * (M * mat L (newCov N T G X Mu)).trace = ∑ i : Fin L, ∑ k : Fin L, M i k * ∑ j ∈ range N, covTerm T G X Mu j k i := by
    simp only [Matrix.trace, Matrix.diag, Matrix.mul_apply, mat, Matrix.of_apply, newCov, mul_sum (a := (T : ℝ))]
    refine sum_congr rfl fun i _ => sum_congr rfl fun k _ => ?_
    field_simp
  rw [h1]
  simp only [dotProduct, Matrix.mulVec, vec, covTerm, mul_sum]
  rw [sum_comm' (s := range T) (t := fun _ => range N) (t' := range N) (s' := fun _ => range T) (by simp)]
  rw [sum_congr rfl (fun j _ => sum_comm), sum_comm]
  refine sum_congr rfl fun i _ => ?_
  rw [sum_congr rfl (fun j _ => (sum_congr rfl fun t _ => rfl).trans sum_comm), sum_comm]
  refine sum_congr rfl fun k _ => sum_congr rfl fun j _ => sum_congr rfl fun t _ => ?_
  ring

/-- The weighted mean minimises the weighted sum of a positive semidefinite quadratic form. -/
theorem mean_step {M : Matrix (Fin L) (Fin L) ℝ} (hM : M.PosSemidef) (g : Nat → ℝ) (X : Nat → Nat → ℝ) (m : Nat → ℝ)
    (hg : ∀ t, t < T → 0 ≤ g t) (hs : ∑ t ∈ range T, g t ≠ 0) :
    ∑ t ∈ range T, g t * (vec L (fun d => X t d - (∑ t ∈ range T, g t * X t d) / ∑ t ∈ range T, g t) ⬝ᵥ
        (M.mulVec (vec L fun d => X t d - (∑ t ∈ range T, g t * X t d) / ∑ t ∈ range T, g t))) ≤
      ∑ t ∈ range T, g t * (vec L (fun d => X t d - m d) ⬝ᵥ (M.mulVec (vec L fun d => X t d - m d))) := by
  set S := ∑ t ∈ range T, g t with hS
  set m' : Nat → ℝ := fun d => (∑ t ∈ range T, g t * X t d) / S with hm'
  have hy : ∀ d, ∑ t ∈ range T, g t * X t d = S * m' d := fun d => by rw [hm']; field_simp
  have hq : ∀ y : Nat → ℝ, ∑ t ∈ range T, g t * (vec L (fun d => X t d - y d) ⬝ᵥ (M.mulVec (vec L fun d => X t d - y d))) =
      ∑ i : Fin L, ∑ k : Fin L, M i k * ∑ t ∈ range T, g t * ((X t i - y i) * (X t k - y k)) := by
    intro y
    simp only [dotProduct, Matrix.mulVec, vec, mul_sum]
    rw [sum_comm]
    refine sum_congr rfl fun i _ => ?_
    rw [sum_comm]
    refine sum_congr rfl fun k _ => sum_congr rfl fun t _ => ?_
    ring
  have hc : ∀ (y : Nat → ℝ) (i k : Nat), ∑ t ∈ range T, g t * ((X t i - y i) * (X t k - y k)) =
      (∑ t ∈ range T, g t * (X t i * X t k)) - S * m' i * y k - S * m' k * y i + S * (y i * y k) := by
    intro y i k
    have : ∀ t, g t * ((X t i - y i) * (X t k - y k)) = g t * (X t i * X t k) - g t * X t i * y k - g t * X t k * y i + g t * (y i * y k) := fun t => by ring
    simp only [this, sum_add_distrib, sum_sub_distrib, ← sum_mul, hy, hS]
  have hd : ∑ t ∈ range T, g t * (vec L (fun d => X t d - m d) ⬝ᵥ (M.mulVec (vec L fun d => X t d - m d))) =
      ∑ t ∈ range T, g t * (vec L (fun d => X t d - m' d) ⬝ᵥ (M.mulVec (vec L fun d => X t d - m' d))) +
        S * (vec L (fun d => m' d - m d) ⬝ᵥ (M.mulVec (vec L fun d => m' d - m d))) := by
    rw [hq m, hq m']
    simp only [dotProduct, Matrix.mulVec, vec, mul_sum (s := (univ : Finset (Fin L)))]
    rw [← sum_add_distrib]
    refine sum_congr rfl fun i _ => ?_
    rw [← sum_add_distrib]
    refine sum_congr rfl fun k _ => ?_
    rw [hc m, hc m']
    ring
  have h1 := hM.dotProduct_mulVec_nonneg (vec L fun d => m' d - m d)
  rw [star_trivial] at h1
  have h2 : 0 ≤ S := sum_nonneg fun t ht => hg t (mem_range.mp ht)
  rw [hd]
  exact le_add_of_nonneg_right (mul_nonneg h2 h1)

/-- There is no direction in which all observations agree. -/
def Spread (T L : Nat) (X : Nat → Nat → ℝ) : Prop :=
  ∀ v : Nat → ℝ, (∃ d, d < L ∧ v d ≠ 0) → ∃ s t, s < T ∧ t < T ∧ ∑ d ∈ range L, v d * X s d ≠ ∑ d ∈ range L, v d * X t d

theorem newCov_posDef (hT : 0 < T) (hN : 0 < N) {G X : Nat → Nat → ℝ} (Mu : Nat → Nat → ℝ) (hG : ∀ t j, t < T → j < N → 0 < G t j) (hX : Spread T L X) :
    (mat L (newCov N T G X Mu)).PosDef := by
  have hsym : ∀ d e, newCov N T G X Mu d e = newCov N T G X Mu e d := fun d e => by
    unfold newCov covTerm
    congr 1
    exact sum_congr rfl fun j _ => sum_congr rfl fun t _ => by ring
  refine Matrix.PosDef.of_dotProduct_mulVec_pos (Matrix.IsHermitian.ext fun i j => ?_) fun v hv => ?_
  · simp only [mat, Matrix.of_apply, star_trivial]
    exact hsym _ _
  · rw [star_trivial]
    have h1 := quad_sum (N := N) hT (Matrix.vecMulVec v v) G X Mu
    have h2 : (Matrix.vecMulVec v v * mat L (newCov N T G X Mu)).trace = v ⬝ᵥ ((mat L (newCov N T G X Mu)).mulVec v) := by
      simp only [Matrix.trace, Matrix.diag, Matrix.mul_apply, Matrix.vecMulVec_apply, dotProduct, Matrix.mulVec, mul_sum]
      refine sum_congr rfl fun i _ => sum_congr rfl fun k _ => ?_
      simp only [mat, Matrix.of_apply]
      rw [hsym i k]
      ring
    have h3 : ∀ y : Fin L → ℝ, y ⬝ᵥ ((Matrix.vecMulVec v v).mulVec y) = (v ⬝ᵥ y) ^ 2 := fun y => by
      rw [pow_two]
      unfold dotProduct
      rw [sum_mul_sum]
      simp only [dotProduct, Matrix.mulVec, Matrix.vecMulVec_apply, mul_sum]
      refine sum_congr rfl fun i _ => sum_congr rfl fun k _ => ?_
      ring
    rw [h2] at h1
    simp only [h3] at h1
    have hT' : (0 : ℝ) < T := by exact_mod_cast hT
    suffices h : 0 < (T : ℝ) * (v ⬝ᵥ ((mat L (newCov N T G X Mu)).mulVec v)) from (pos_iff_pos_of_mul_pos h).mp hT'
    rw [← h1]
    have hterm : ∀ t, t < T → ∀ j, j < N → 0 ≤ G t j * (v ⬝ᵥ vec L fun d => X t d - Mu j d) ^ 2 := fun t ht j hj => mul_nonneg (hG t j ht hj).le (sq_nonneg _)
    by_contra hc
    have h0 : ∑ t ∈ range T, ∑ j ∈ range N, G t j * (v ⬝ᵥ vec L fun d => X t d - Mu j d) ^ 2 = 0 :=
      le_antisymm (not_lt.mp hc) (sum_nonneg fun t ht => sum_nonneg fun j hj => hterm t (mem_range.mp ht) j (mem_range.mp hj))
    have hz : ∀ t, t < T → (v ⬝ᵥ vec L fun d => X t d - Mu 0 d) = 0 := fun t ht => by
      have e1 := (sum_eq_zero_iff_of_nonneg (fun t ht => sum_nonneg fun j hj => hterm t (mem_range.mp ht) j (mem_range.mp hj))).mp h0 t (mem_range.mpr ht)
      have e2 := (sum_eq_zero_iff_of_nonneg (fun j hj => hterm t ht j (mem_range.mp hj))).mp e1 0 (mem_range.mpr hN)
      rcases mul_eq_zero.mp e2 with h | h
      · exact absurd h (hG t 0 ht hN).ne'
      · exact pow_eq_zero_iff (two_ne_zero) |>.mp h
    obtain ⟨d0, hd0⟩ : ∃ i, v i ≠ 0 := by
      by_contra hn
      push Not at hn
      exact hv (funext hn)
    let w : Nat → ℝ := fun d => if h : d < L then v ⟨d, h⟩ else 0
    have hw : ∀ y : Nat → ℝ, ∑ d ∈ range L, w d * y d = v ⬝ᵥ vec L y := fun y => by
      rw [Finset.sum_range]
      simp only [dotProduct, vec, w]
      exact sum_congr rfl fun i _ => by rw [dif_pos i.2]
    obtain ⟨a, b, ha, hb, hab⟩ := hX w ⟨d0.1, d0.2, by simpa [w] using hd0⟩
    apply hab
    have hsub : ∀ t, v ⬝ᵥ (vec L fun d => X t d - Mu 0 d) = v ⬝ᵥ vec L (X t) - v ⬝ᵥ vec L (Mu 0) := fun t => by
      rw [← dotProduct_sub]
      rfl
    have e1 := hz a ha
    have e2 := hz b hb
    rw [hsub] at e1 e2
    rw [hw, hw]
    linarith

/-- The expected log-density of the observations does not fall when the covariance is re-estimated with the old means and then the means
are re-estimated. -/
theorem gauss_step (hT : 0 < T) {G X Mu C : Nat → Nat → ℝ} (hC : (mat L C).PosDef) (hS : (mat L (newCov N T G X Mu)).PosDef)
    (hG : ∀ t j, t < T → j < N → 0 < G t j) (hG1 : ∀ t, t < T → ∑ j ∈ range N, G t j = 1) :
    ∑ t ∈ range T, ∑ j ∈ range N, G t j * Real.log (gaussDensity L C (Mu j) (X t)) ≤
      ∑ t ∈ range T, ∑ j ∈ range N, G t j * Real.log (gaussDensity L (newCov N T G X Mu)
        (fun d => (∑ t ∈ range T, G t j * X t d) / ∑ t ∈ range T, G t j) (X t)) := by
  have hT' : (0 : ℝ) < T := by exact_mod_cast hT
  have hsum : ∀ (c : ℝ) (f : Nat → Nat → ℝ), ∑ t ∈ range T, ∑ j ∈ range N, G t j * (-(1 / 2) * (f t j + c)) =
      -(1 / 2) * ((∑ t ∈ range T, ∑ j ∈ range N, G t j * f t j) + T * c) := by
    intro c f
    have : ∀ t ∈ range T, ∑ j ∈ range N, G t j * (-(1 / 2) * (f t j + c)) = -(1 / 2) * (∑ j ∈ range N, G t j * f t j) - 1 / 2 * c := fun t ht => by
      have hc : ∀ j, G t j * (-(1 / 2) * (f t j + c)) = -(1 / 2) * (G t j * f t j) - G t j * (1 / 2 * c) := fun j => by ring
      simp only [hc]
      rw [sum_sub_distrib, ← sum_mul, hG1 t (mem_range.mp ht), mul_sum, one_mul]
    rw [sum_congr rfl this, sum_sub_distrib, ← mul_sum, sum_const, card_range, nsmul_eq_mul]
    ring
  simp only [log_gaussDensity hC, log_gaussDensity hS, add_assoc]
  rw [hsum, hsum, quad_sum hT]
  have h1 : ∑ t ∈ range T, ∑ j ∈ range N, G t j * (vec L (fun d => X t d - (∑ t ∈ range T, G t j * X t d) / ∑ t ∈ range T, G t j) ⬝ᵥ
      ((mat L (newCov N T G X Mu))⁻¹.mulVec (vec L fun d => X t d - (∑ t ∈ range T, G t j * X t d) / ∑ t ∈ range T, G t j))) ≤ T * (L : ℝ) := by
    calc _ ≤ ∑ t ∈ range T, ∑ j ∈ range N, G t j * (vec L (fun d => X t d - Mu j d) ⬝ᵥ ((mat L (newCov N T G X Mu))⁻¹.mulVec (vec L fun d => X t d - Mu j d))) := by
          rw [sum_comm, sum_comm (s := range T)]
          refine sum_le_sum fun j hj => ?_
          have hj := mem_range.mp hj
          exact mean_step hS.inv.posSemidef (fun t => G t j) X (Mu j) (fun t ht => (hG t j ht hj).le)
            (sum_pos (fun t ht => hG t j (mem_range.mp ht) hj) ⟨0, mem_range.mpr hT⟩).ne'
      _ = T * (L : ℝ) := by
          rw [quad_sum hT, Matrix.nonsing_inv_mul _ (isUnit_iff_ne_zero.mpr hS.det_pos.ne'), Matrix.trace_one, Fintype.card_fin]
  have h2 := log_det_le_trace (mat L C)⁻¹ (mat L (newCov N T G X Mu)) hC.inv hS
  rw [Matrix.det_nonsing_inv, Ring.inverse_eq_inv', Real.log_inv] at h2
  have h3 := mul_le_mul_of_nonneg_left h2 hT'.le
  nlinarith [h1, h3]

end QM.Hmm
