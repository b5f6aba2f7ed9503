import Verif.Correlation.Props
import Verif.Common.DoubleSum
import Mathlib.Algebra.BigOperators.Field
import Mathlib.Algebra.Order.BigOperators.Group.Finset

/-!
# `maths/Correlation.cpp` in double precision

The statements of `Verif/Correlation/Model.lean` with a rounding `fl` after every operation. `EPS` is the double next to 2.2204e-016.
-/

namespace QM.Correlation

open QM.Double

/-- `Correlation::doAutoUnBiased`, maths/Correlation.cpp:34-56, in double precision. -/
noncomputable def doAutoUnBiasedF (fl : ℝ → ℝ) (src dst : List ℝ) (length : Nat) : Option (List ℝ) :=
  loop length (fun i (dst : List ℝ) => do
    let tmp ← loop (length - i) (fun t (tmp : ℝ) => do
      let a ← src[i + t - i]?
      let b ← src[i + t]?
      pure (fl (tmp + fl (a * b)))) 0
    let outVal := fl (tmp / ((length - i : Nat) : ℝ))
    if outVal ≤ 0 then wr dst i (fl eps) else wr dst i outVal) dst

/-! ## Without rounding -/

theorem doAutoUnBiasedF_id : doAutoUnBiasedF id = doAutoUnBiased := rfl

/-! ## Lemmas -/

/-- The energy of the block. -/
def energy (src : List ℝ) (n : Nat) : ℝ := ∑ j ∈ Finset.range n, src.getD j 0 ^ 2

theorem loop_flSum (fl : ℝ → ℝ) (n : Nat) (f : Nat → ℝ → Option ℝ) (g : Nat → ℝ) (hf : ∀ i s, i < n → f i s = some (fl (s + g i))) :
    loop n f 0 = some (flSum fl g n) := by
  induction n with
  | zero => simp [loop, flSum]
  | succ n ih =>
    rw [loop, ih (fun i s hi => hf i s (by omega)), Option.bind_some, hf n _ (by omega), flSum]

/-- The products of a block with itself, shifted, are no larger in total than its energy. -/
theorem products_le (src : List ℝ) {n i : Nat} (hi : i < n) : ∑ j ∈ Finset.range (n - i), |src.getD j 0 * src.getD (i + j) 0| ≤ energy src n := by
  have h1 : ∑ j ∈ Finset.range (n - i), src.getD j 0 ^ 2 ≤ energy src n :=
    Finset.sum_le_sum_of_subset_of_nonneg (Finset.range_mono (by omega)) (fun _ _ _ => sq_nonneg _)
  have h2 : ∑ j ∈ Finset.range (n - i), src.getD (i + j) 0 ^ 2 ≤ energy src n := by
    have e : energy src n = ∑ j ∈ Finset.range i, src.getD j 0 ^ 2 + ∑ j ∈ Finset.range (n - i), src.getD (i + j) 0 ^ 2 := by
      unfold energy
      rw [← Finset.sum_range_add, show i + (n - i) = n by omega]
    have : 0 ≤ ∑ j ∈ Finset.range i, src.getD j 0 ^ 2 := Finset.sum_nonneg fun _ _ => sq_nonneg _
    linarith
  have h3 : ∀ j ∈ Finset.range (n - i), |src.getD j 0 * src.getD (i + j) 0| ≤ src.getD j 0 ^ 2 / 2 + src.getD (i + j) 0 ^ 2 / 2 := by
    intro j _
    rw [abs_mul]
    nlinarith [sq_nonneg (|src.getD j 0| - |src.getD (i + j) 0|), sq_abs (src.getD j 0), sq_abs (src.getD (i + j) 0)]
  refine (Finset.sum_le_sum h3).trans ?_
  rw [Finset.sum_add_distrib, ← Finset.sum_div, ← Finset.sum_div]
  linarith

/-- The quotient at one lag. -/
theorem quotient_near {fl : ℝ → ℝ} (hfl : Rounds fl) (src : List ℝ) {n i : Nat} (hi : i < n) (hn : (n : ℝ) ≤ 2 ^ 40) (hM : Scale (energy src n)) :
    |fl (flSum fl (fun j => fl (src.getD j 0 * src.getD (i + j) 0)) (n - i) / ((n - i : Nat) : ℝ)) - overlap src n i / ((n - i : Nat) : ℝ)| ≤
      8 * (energy src n / 2 ^ 53) := by
  have hm1 : (1 : ℝ) ≤ ((n - i : Nat) : ℝ) := by exact_mod_cast (show 1 ≤ n - i by omega)
  have hm0 : (0 : ℝ) < ((n - i : Nat) : ℝ) := by linarith
  have hmn : ((n - i : Nat) : ℝ) ≤ 2 ^ 40 := le_trans (by exact_mod_cast Nat.sub_le n i) hn
  have hp := products_le src hi
  have h1 := flSum_rounded hfl hM (fun j => src.getD j 0 * src.getD (i + j) 0) (n - i) hmn hp
  have h2 : |overlap src n i| ≤ energy src n := partial_abs_le (fun j => src.getD j 0 * src.getD (i + j) 0) (n - i) (n - i) le_rfl hp
  change |flSum fl (fun j => fl (src.getD j 0 * src.getD (i + j) 0)) (n - i) - overlap src n i| ≤ _ at h1
  generalize flSum fl (fun j => fl (src.getD j 0 * src.getD (i + j) 0)) (n - i) = t at *
  generalize overlap src n i = o at *
  have hMp := hM.pos
  generalize energy src n = M at *
  generalize ((n - i : Nat) : ℝ) = m at *
  have h3 : |t / m - o / m| ≤ 5 * (M / 2 ^ 53) := by
    rw [← sub_div, abs_div, abs_of_pos hm0, div_le_iff₀ hm0]
    linarith
  have h4 : |o / m| ≤ M := by
    rw [abs_div, abs_of_pos hm0]
    exact (div_le_self (abs_nonneg _) hm1).trans h2
  have h5 : |t / m| ≤ 2 * M := by
    have : |t / m| ≤ |t / m - o / m| + |o / m| := by simpa using abs_add_le (t / m - o / m) (o / m)
    have : 5 * (M / 2 ^ 53) ≤ M := by
      rw [← mul_div_assoc, div_le_iff₀ (by norm_num)]; nlinarith
    linarith
  have h6 := rnd hfl hM (t / m) 2 (by norm_num) h5
  refine (abs_sub_le _ (t / m) _).trans ?_
  linarith

end QM.Correlation
