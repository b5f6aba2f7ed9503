import Verif.Tonal.ChangeProps
import Mathlib.Analysis.InnerProductSpace.PiL2

/-!
# Distances of chroma vectors and of tonal centroids, and lemmas for C136
-/

namespace QM.Tonal

open Finset

/-- Euclidean distance between two vectors of six elements. -/
noncomputable def dist6 (u v : List ℝ) : ℝ := Real.sqrt (∑ b ∈ range 6, (u.getD b 0 - v.getD b 0) ^ 2)

/-- Sum of the absolute differences of two chroma vectors. -/
noncomputable def chromaDist (c d : List ℝ) : ℝ := ∑ p ∈ range 12, |c.getD p 0 - d.getD p 0|

/-- Length of the three circles' radii taken together. -/
noncomputable def radius : ℝ := Real.sqrt (1 + (6 / 10) ^ 2 + (11 / 10) ^ 2)

/-! ## Helper lemmas -/

/-- Euclidean length of the first six values. -/
noncomputable def nm (f : Nat → ℝ) : ℝ := Real.sqrt (∑ b ∈ range 6, f b ^ 2)

theorem nm_eq (f : Nat → ℝ) : nm f = ‖(WithLp.toLp 2 (fun i : Fin 6 => f i) : EuclideanSpace ℝ (Fin 6))‖ := by
  rw [EuclideanSpace.norm_eq, nm, ← Fin.sum_univ_eq_sum_range (fun b => f b ^ 2)]
  simp

theorem nm_add (f g : Nat → ℝ) : nm (fun b => f b + g b) ≤ nm f + nm g := by
  rw [nm_eq, nm_eq, nm_eq]
  exact norm_add_le (WithLp.toLp 2 (fun i : Fin 6 => f i) : EuclideanSpace ℝ (Fin 6))
    (WithLp.toLp 2 (fun i : Fin 6 => g i))

theorem nm_mul (a : ℝ) (f : Nat → ℝ) : nm (fun b => a * f b) = |a| * nm f := by
  unfold nm
  simp only [mul_pow, ← mul_sum]
  rw [Real.sqrt_mul (sq_nonneg a), Real.sqrt_sq_eq_abs]

theorem nm_zero : nm (fun _ => 0) = 0 := by simp [nm]

theorem nm_nonneg (f : Nat → ℝ) : 0 ≤ nm f := Real.sqrt_nonneg _

theorem nm_sum (n : Nat) (f : Nat → Nat → ℝ) : nm (fun b => ∑ j ∈ range n, f j b) ≤ ∑ j ∈ range n, nm (f j) := by
  induction n with
  | zero => simp [nm]
  | succ n ih =>
    simp only [sum_range_succ]
    exact (nm_add _ _).trans (by gcongr)

theorem nm_sub_le (f g : Nat → ℝ) : |nm f - nm g| ≤ nm (fun b => f b - g b) := by
  have h1 : nm f ≤ nm (fun b => f b - g b) + nm g := by
    refine le_trans (le_of_eq ?_) (nm_add _ _)
    congr 1; funext b; ring
  have h2 : nm g ≤ nm (fun b => f b - g b) + nm f := by
    have e : nm (fun b => f b - g b) = nm (fun b => (-1) * (f b - g b)) := by rw [nm_mul]; simp
    rw [e]
    refine le_trans (le_of_eq ?_) (nm_add _ _)
    congr 1; funext b; ring
  rw [abs_le]
  constructor <;> linarith

theorem dist6_self (u : List ℝ) : dist6 u u = 0 := by simp [dist6]

theorem frame_near (vs ws : List (List ℝ)) (hl : vs.length = ws.length) (ε : ℝ) (h0 : 0 ≤ ε)
    (h : ∀ i, i < vs.length → dist6 (vs.getD i []) (ws.getD i []) ≤ ε) (t : Int) :
    nm (fun b => frame vs t b - frame ws t b) ≤ ε := by
  unfold frame
  rw [← hl]
  by_cases ht : 0 ≤ t ∧ t < vs.length
  · simp only [if_pos ht]
    exact h t.toNat (by omega)
  · simp only [if_neg ht, sub_self, nm_zero]
    exact h0

theorem smoothedAt_near (k : List ℝ) (vs ws : List (List ℝ)) (hl : vs.length = ws.length) (ε : ℝ) (h0 : 0 ≤ ε)
    (h : ∀ i, i < vs.length → dist6 (vs.getD i []) (ws.getD i []) ≤ ε) (t : Int) :
    nm (fun b => smoothedAt k vs t b - smoothedAt k ws t b) ≤ (∑ j ∈ range k.length, |k.getD j 0|) * ε := by
  have hK : 0 ≤ ∑ j ∈ range k.length, |k.getD j 0| := sum_nonneg fun _ _ => abs_nonneg _
  unfold smoothedAt
  rw [← hl]
  by_cases ht : 0 ≤ t ∧ t < vs.length
  · simp only [if_pos ht]
    unfold smoothed
    simp only [← sum_sub_distrib, ← mul_sub]
    refine (nm_sum _ _).trans ?_
    rw [sum_mul]
    refine sum_le_sum fun j _ => ?_
    rw [nm_mul]
    exact mul_le_mul_of_nonneg_left (frame_near vs ws hl ε h0 h _) (abs_nonneg _)
  · simp only [if_neg ht, sub_self, nm_zero]
    exact mul_nonneg hK h0

theorem change_near (k : List ℝ) (vs ws : List (List ℝ)) (hl : vs.length = ws.length) (ε : ℝ) (h0 : 0 ≤ ε)
    (h : ∀ i, i < vs.length → dist6 (vs.getD i []) (ws.getD i []) ≤ ε) (t : Nat) :
    |change k vs t - change k ws t| ≤ 2 * (∑ j ∈ range k.length, |k.getD j 0|) * ε := by
  have e : ∀ us : List (List ℝ), change k us t =
      nm (fun b => smoothedAt k us ((t : Int) + 1) b - smoothedAt k us ((t : Int) - 1) b) := fun _ => rfl
  rw [e, e]
  refine (nm_sub_le _ _).trans ?_
  have e2 : (fun b => smoothedAt k vs ((t : Int) + 1) b - smoothedAt k vs ((t : Int) - 1) b -
        (smoothedAt k ws ((t : Int) + 1) b - smoothedAt k ws ((t : Int) - 1) b)) =
      fun b => (smoothedAt k vs ((t : Int) + 1) b - smoothedAt k ws ((t : Int) + 1) b) +
        (-1) * (smoothedAt k vs ((t : Int) - 1) b - smoothedAt k ws ((t : Int) - 1) b) := by
    funext b; ring
  rw [e2]
  refine (nm_add _ _).trans ?_
  rw [nm_mul, abs_neg, abs_one, one_mul]
  have a1 := smoothedAt_near k vs ws hl ε h0 h ((t : Int) + 1)
  have a2 := smoothedAt_near k vs ws hl ε h0 h ((t : Int) - 1)
  linarith

theorem centroid_sub (θ : ℝ) (c d : List ℝ) : ‖centroid θ c - centroid θ d‖ ≤ chromaDist c d := by
  unfold centroid chromaDist
  rw [← sum_sub_distrib]
  refine (norm_sum_le _ _).trans (sum_le_sum fun p _ => ?_)
  rw [← sub_mul, norm_mul, norm_pow, Complex.norm_exp_ofReal_mul_I, one_pow, mul_one, ← Complex.ofReal_sub,
    Complex.norm_real, Real.norm_eq_abs]

theorem chromaDist_nonneg (c d : List ℝ) : 0 ≤ chromaDist c d := sum_nonneg fun _ _ => abs_nonneg _

theorem tcs_near (c d : List ℝ) : dist6 (tcs c) (tcs d) ≤ radius * chromaDist c d := by
  have hD := chromaDist_nonneg c d
  have b : ∀ θ, ‖centroid θ c - centroid θ d‖ ^ 2 ≤ chromaDist c d ^ 2 := fun θ =>
    pow_le_pow_left₀ (norm_nonneg _) (centroid_sub θ c d) 2
  have e : dist6 (tcs c) (tcs d) = Real.sqrt (‖centroid fifths c - centroid fifths d‖ ^ 2 +
      (6 / 10) ^ 2 * ‖centroid majorThirds c - centroid majorThirds d‖ ^ 2 +
      (11 / 10) ^ 2 * ‖centroid minorThirds c - centroid minorThirds d‖ ^ 2) := by
    rw [← norm_sq_im_re, ← norm_sq_im_re, ← norm_sq_im_re]
    unfold dist6
    congr 1
    simp only [sum_range_succ, sum_range_zero, Complex.sub_re, Complex.sub_im, tcs]
    simp
    ring
  rw [e, radius, ← Real.sqrt_sq hD, ← Real.sqrt_mul (by norm_num)]
  apply Real.sqrt_le_sqrt
  nlinarith [b fifths, b majorThirds, b minorThirds]

theorem mapM_tcs (cs : List (List ℝ)) (h : ∀ c ∈ cs, c.length = 12) : cs.mapM transform2TCS = some (cs.map tcs) := by
  induction cs with
  | nil => rfl
  | cons c cs ih =>
    rw [List.mapM_cons, C62_transform c (h c (by simp)), ih fun x hx => h x (by simp [hx])]
    rfl

end QM.Tonal
