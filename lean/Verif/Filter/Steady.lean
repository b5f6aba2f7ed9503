import Verif.Filter.Decay
import Verif.Filter.SteadySpec
import Mathlib.Analysis.SpecificLimits.Normed

/-!
# The steady state of a recursive filter
-/

namespace QM.Filter

open Finset QM.Filter.Rounded

theorem Stable.imp_le {a : List ℝ} {D r : ℝ} (h : Stable a D r) (k : ℕ) : |imp a k| ≤ D * r ^ k := by
  have := h k _ (imp_diffEq a k) k le_rfl
  rwa [List.getD_eq_getElem?_getD, List.getElem?_map, List.getElem?_range (by omega)] at this

/-- The denominator at `w`. -/
noncomputable def denAt (a : List ℝ) (w : ℝ) : ℂ := 1 + ∑ j ∈ range (a.length - 1), a.getD (j + 1) 0 * Complex.exp (-(w * (j + 1 : ℕ)) * Complex.I)

theorem norm_unit (w : ℝ) (k : ℕ) : ‖Complex.exp (-(w * k) * Complex.I)‖ = 1 := by
  have := Complex.norm_exp_ofReal_mul_I (-(w * k))
  push_cast at this
  exact this

/-- The transform of the impulse response inverts the denominator. -/
theorem denAt_inv (a : List ℝ) (D r w : ℝ) (hr : 0 < r) (hr1 : r < 1) (hD : 0 ≤ D) (h : ∀ k, |imp a k| ≤ D * r ^ k) : ∃ T : ℂ, T * denAt a w = 1 ∧ ‖T‖ ≤ D / (1 - r) := by
  set z : ℕ → ℂ := fun k => Complex.exp (-(w * k) * Complex.I) with hz
  have hzadd : ∀ m n, z (m + n) = z m * z n := by
    intro m n
    rw [hz]
    dsimp only
    rw [← Complex.exp_add]
    congr 1
    push_cast
    ring
  have hz0 : z 0 = 1 := by simp [hz]
  set g : ℕ → ℂ := fun k => (imp a k : ℂ) * z k with hg
  have hgn : ∀ k, ‖g k‖ ≤ D * r ^ k := by
    intro k
    rw [hg]
    dsimp only
    rw [norm_mul, hz, norm_unit, mul_one, Complex.norm_real]
    exact h k
  have hgeo : HasSum (fun k => D * r ^ k) (D * (1 - r)⁻¹) := (hasSum_geometric_of_lt_one hr.le hr1).mul_left D
  have hsum : Summable g := Summable.of_norm_bounded hgeo.summable hgn
  refine ⟨∑' k, g k, ?_, ?_⟩
  · -- shifted copies
    have hshift : ∀ i : ℕ, HasSum (fun n => (dl (imp a) n i : ℂ) * z n) (z i * ∑' k, g k) := by
      intro i
      have e : HasSum (fun k => z i * g k) (z i * ∑' k, g k) := hsum.hasSum.mul_left _
      have hs := (hasSum_nat_add_iff (f := fun n => (dl (imp a) n i : ℂ) * z n) i (g := z i * ∑' k, g k)).1 ?_
      · have hz' : ∑ n ∈ range i, (dl (imp a) n i : ℂ) * z n = 0 := by
          refine sum_eq_zero fun n hn => ?_
          have := mem_range.1 hn
          rw [dl, if_neg (by omega)]
          simp
        rwa [hz', add_zero] at hs
      · have e' : (fun n => (dl (imp a) (n + i) i : ℂ) * z (n + i)) = fun k => z i * g k := by
          funext k
          rw [dl, if_pos (by omega), hzadd, Nat.add_sub_cancel]
          show _ = z i * ((imp a k : ℂ) * z k)
          ring
        show HasSum (fun n => (dl (imp a) (n + i) i : ℂ) * z (n + i)) _
        rw [e']
        exact e
    have hall : HasSum (fun n => g n + ∑ i ∈ range (a.length - 1), (a.getD (i + 1) 0 : ℂ) * ((dl (imp a) n (i + 1) : ℂ) * z n))
        (∑' k, g k + ∑ i ∈ range (a.length - 1), (a.getD (i + 1) 0 : ℂ) * (z (i + 1) * ∑' k, g k)) :=
      hsum.hasSum.add (hasSum_sum fun i _ => (hshift (i + 1)).mul_left _)
    have hone : HasSum (fun n => g n + ∑ i ∈ range (a.length - 1), (a.getD (i + 1) 0 : ℂ) * ((dl (imp a) n (i + 1) : ℂ) * z n)) 1 := by
      have e := hasSum_ite_eq (0 : ℕ) (1 : ℂ)
      convert e using 2 with n
      split
      · next hn =>
        subst hn
        have : ∑ i ∈ range (a.length - 1), (a.getD (i + 1) 0 : ℂ) * ((dl (imp a) 0 (i + 1) : ℂ) * z 0) = 0 := by
          refine sum_eq_zero fun i _ => ?_
          rw [dl, if_neg (by omega)]
          simp
        rw [this, add_zero, hg]
        dsimp only
        rw [imp_zero, hz0]
        simp
      · next hn =>
        have e1 := imp_rec a n (by omega)
        have e2 : (imp a n : ℂ) = -∑ i ∈ range (a.length - 1), (a.getD (i + 1) 0 : ℂ) * (dl (imp a) n (i + 1) : ℂ) := by
          rw [e1]
          push_cast
          rfl
        rw [hg]
        dsimp only
        rw [e2, neg_mul, sum_mul]
        simp only [mul_assoc]
        ring
    have := hall.unique hone
    rw [← this, denAt, mul_add, mul_one, mul_sum]
    congr 1
    refine sum_congr rfl fun i _ => ?_
    show (∑' k, g k) * (_ * z (i + 1)) = _
    ring
  · rw [div_eq_mul_inv]
    exact tsum_of_norm_bounded hgeo hgn

theorem denAt_ne_zero (a : List ℝ) (D r w : ℝ) (hr : 0 < r) (hr1 : r < 1) (hD : 0 ≤ D) (h : ∀ k, |imp a k| ≤ D * r ^ k) : denAt a w ≠ 0 := by
  obtain ⟨T, hT, _⟩ := denAt_inv a D r w hr hr1 hD h
  intro h0
  rw [h0, mul_zero] at hT
  exact zero_ne_one hT

theorem freqResponse_le (b a : List ℝ) (D r w B : ℝ) (hr : 0 < r) (hr1 : r < 1) (hD : 0 ≤ D) (h : ∀ k, |imp a k| ≤ D * r ^ k)
    (hB : ∑ i ∈ range b.length, |b.getD i 0| ≤ B) : ‖freqResponse b a w‖ ≤ B * (D / (1 - r)) := by
  obtain ⟨T, hT, hT2⟩ := denAt_inv a D r w hr hr1 hD h
  have h0 := denAt_ne_zero a D r w hr hr1 hD h
  have e : freqResponse b a w = (∑ j ∈ range b.length, b.getD j 0 * Complex.exp (-(w * j) * Complex.I)) * T := by
    show _ / denAt a w = _
    rw [div_eq_iff h0, mul_assoc, hT, mul_one]
  rw [e, norm_mul]
  refine mul_le_mul ?_ hT2 (norm_nonneg _) ((sum_nonneg fun _ _ => abs_nonneg _).trans hB)
  refine (norm_sum_le _ _).trans (le_trans (le_of_eq (sum_congr rfl fun i _ => ?_)) hB)
  rw [norm_mul, norm_unit, mul_one, Complex.norm_real, Real.norm_eq_abs]

/-- A sinusoid at `w` with complex amplitude `c`, at all times. -/
noncomputable def tone (w : ℝ) (c : ℂ) (j : ℤ) : ℝ := (c * Complex.exp ((w * j : ℝ) * Complex.I)).re

theorem tone_le (w : ℝ) (c : ℂ) (j : ℤ) : |tone w c j| ≤ ‖c‖ := by
  refine (Complex.abs_re_le_norm _).trans ?_
  rw [norm_mul, Complex.norm_exp_ofReal_mul_I, mul_one]

theorem tone_shift (w : ℝ) (c : ℂ) (j : ℤ) (i : ℕ) (x : ℝ) : x * tone w c (j - i) = ((x : ℂ) * Complex.exp (-(w * i) * Complex.I) * (c * Complex.exp ((w * j : ℝ) * Complex.I))).re := by
  have e : Complex.exp ((w * ((j - i : ℤ) : ℝ) : ℝ) * Complex.I) = Complex.exp (-(w * i) * Complex.I) * Complex.exp ((w * j : ℝ) * Complex.I) := by
    rw [← Complex.exp_add]
    congr 1
    push_cast
    ring
  rw [tone, e, mul_assoc, Complex.re_ofReal_mul]
  congr 2
  ring

theorem tone_sol (b a : List ℝ) (w : ℝ) (h0 : denAt a w ≠ 0) (c : ℂ) (L : ℕ) : Sol b a (tone w c) (tone w (freqResponse b a w * c)) L := by
  intro j _
  have key : freqResponse b a w * denAt a w = ∑ j ∈ range b.length, b.getD j 0 * Complex.exp (-(w * j) * Complex.I) := by
    show _ / denAt a w * denAt a w = _
    rw [div_mul_cancel₀ _ h0]
  simp only [tone_shift]
  rw [← Complex.re_sum, ← Complex.re_sum, ← sum_mul, ← key, ← sum_mul, ← Complex.sub_re, tone]
  congr 1
  have : ∑ i ∈ range (a.length - 1), (a.getD (i + 1) 0 : ℂ) * Complex.exp (-(w * (i + 1 : ℕ)) * Complex.I) = denAt a w - 1 := by
    rw [denAt]; ring
  rw [this]
  push_cast
  ring

theorem tone_reverse (w : ℝ) (c : ℂ) (L : ℤ) (j : ℤ) : tone w c (L - j) = tone w ((starRingEnd ℂ) (c * Complex.exp ((w * L : ℝ) * Complex.I))) j := by
  unfold tone
  rw [← Complex.conj_re]
  congr 1
  rw [map_mul, map_mul, mul_assoc, ← Complex.exp_conj, ← Complex.exp_conj, ← Complex.exp_add]
  congr 2
  simp
  ring

end QM.Filter
