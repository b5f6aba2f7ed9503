import Verif.Filter.Steady
import Verif.Filter.FirProps
import Verif.Filter.ZeroPhaseLemmas

/-!
# Filtering forwards and backwards
-/

namespace QM.Filter

open Finset QM.Filter.Rounded

/-- The constant of `Sol.profile`. -/
noncomputable def gainK (b a : List ℝ) (D r s : ℝ) : ℝ :=
  D * (∑ i ∈ range b.length, |b.getD i 0| + ∑ i ∈ range (a.length - 1), |a.getD (i + 1) 0|) / s ^ (b.length + a.length) / (1 - r / s)

theorem gainK_nonneg (b a : List ℝ) (D r s : ℝ) (hD : 0 ≤ D) (hr : 0 < r) (hrs : r < s) : 0 ≤ gainK b a D r s := by
  have hs0 : 0 < s := hr.trans hrs
  have : r / s < 1 := (div_lt_one hs0).2 hrs
  unfold gainK
  refine div_nonneg (div_nonneg (mul_nonneg hD (add_nonneg (sum_nonneg fun _ _ => abs_nonneg _) (sum_nonneg fun _ _ => abs_nonneg _))) (by positivity)) (by linarith)

theorem Sol.gain {b a : List ℝ} {u v : ℤ → ℝ} {L : ℕ} (h : Sol b a u v L) {D r s P W : ℝ} {e : ℕ → ℝ} (hr : 0 < r) (hrs : r < s) (hW : 0 ≤ W) (hD : 0 ≤ D)
    (himp : ∀ k, |imp a k| ≤ D * r ^ k) (he : Profile r s (b.length + a.length) L P W e)
    (hu0 : ∀ j : ℤ, j < 0 → |u j| ≤ P) (hv0 : ∀ j : ℤ, j < 0 → |v j| ≤ P) (hu : ∀ j : ℕ, j < L → |u j| ≤ W * e j) (j : ℕ) (hj : j < L) :
    |v j| ≤ gainK b a D r s * W * e j :=
  Sol.profile b a u v L h D r s P W _ _ e hr hrs hW hD himp le_rfl le_rfl he hu0 hv0 hu j hj

theorem zf_rev (y : List ℝ) (L : ℕ) (hL : y.length = L) (j : ℕ) (hj : j < L) : zf y.reverse 0 j = y.getD (L - 1 - j) 0 := by
  rw [zf_nat, Nat.zero_add, revget y j (by omega), hL]

theorem zf_past (y : List ℝ) (j : ℤ) (hj : j < 0) : zf y 0 j = 0 := by
  unfold zf
  rw [if_neg (by omega)]

theorem zf_append_past (xs y : List ℝ) (P : ℝ) (hP : 0 ≤ P) (h : ∀ v ∈ xs, |v| ≤ P) (j : ℤ) (hj : j < 0) : |zf (xs ++ y) xs.length j| ≤ P := by
  unfold zf
  split
  · next hc =>
    have hlt : ((xs.length : ℤ) + j).toNat < xs.length := by omega
    rw [List.getD_eq_getElem?_getD, List.getElem?_append_left hlt, List.getElem?_eq_getElem hlt]
    exact h _ (List.getElem_mem hlt)
  · rw [abs_zero]; exact hP

theorem zf_append_nat (xs y : List ℝ) (j : ℕ) : zf (xs ++ y) xs.length j = y.getD j 0 := by
  rw [zf_nat, List.getD_eq_getElem?_getD, List.getElem?_append_right (by omega), List.getD_eq_getElem?_getD]
  congr 2
  omega

/-- The constant of `twoPass`: `N` is the length of the margins. -/
noncomputable def passK (b a : List ℝ) (D r s : ℝ) (N : ℕ) : ℝ :=
  let K := gainK b a D r s
  let h := (∑ i ∈ range b.length, |b.getD i 0|) * (D / (1 - r))
  K * (K * ((5 + h) / s ^ N) + h + h * h)

theorem passK_nonneg (b a : List ℝ) (D r s : ℝ) (N : ℕ) (hD : 0 ≤ D) (hr : 0 < r) (hr1 : r < 1) (hrs : r < s) : 0 ≤ passK b a D r s N := by
  have hs0 : 0 < s := hr.trans hrs
  have hK := gainK_nonneg b a D r s hD hr hrs
  have hh : 0 ≤ (∑ i ∈ range b.length, |b.getD i 0|) * (D / (1 - r)) := mul_nonneg (sum_nonneg fun _ _ => abs_nonneg _) (div_nonneg hD (by linarith))
  unfold passK
  dsimp only
  generalize (∑ i ∈ range b.length, |b.getD i 0|) * (D / (1 - r)) = h at *
  positivity

/-- A sinusoid, disturbed in margins of `N` samples at both ends, filtered forwards by a filter with any past and backwards by one at rest. -/
theorem twoPass (b a : List ℝ) (D r s : ℝ) (hr : 0 < r) (hr1 : r < 1) (hrs : r < s) (hs : s < 1) (hD : 0 ≤ D) (himp : ∀ k, |imp a k| ≤ D * r ^ k)
    (xs ys ext y1 y2 : List ℝ) (N : ℕ) (P A w : ℝ) (c : ℂ) (hP : 0 ≤ P) (hA : ‖c‖ ≤ A) (hlen : xs.length = ys.length) (h1 : DiffEq b a (xs ++ ext) (ys ++ y1)) (h2 : DiffEq b a y1.reverse y2)
    (hxs : ∀ v ∈ xs, |v| ≤ P) (hys : ∀ v ∈ ys, |v| ≤ P) (hext : ∀ k < ext.length, |ext.getD k 0 - tone w c k| ≤ 4 * A)
    (hin : ∀ k, N ≤ k → k + N < ext.length → ext.getD k 0 = tone w c k) (k : ℕ) (hk : k < ext.length) :
    |y2.reverse.getD k 0 - ‖freqResponse b a w‖ ^ 2 * tone w c k| ≤ passK b a D r s N * (A + P) * env s ext.length k := by
  set L := ext.length with hL
  set H := freqResponse b a w with hH
  set h := (∑ i ∈ range b.length, |b.getD i 0|) * (D / (1 - r)) with hh
  set K := gainK b a D r s with hKdef
  have hs0 : 0 < s := hr.trans hrs
  have hA0 : 0 ≤ A := (norm_nonneg _).trans hA
  have hHle : ‖H‖ ≤ h := freqResponse_le b a D r w _ hr hr1 hD himp le_rfl
  have hh0 : 0 ≤ h := (norm_nonneg _).trans hHle
  have hK : 0 ≤ K := gainK_nonneg b a D r s hD hr hrs
  have hd0 := denAt_ne_zero a D r w hr hr1 hD himp
  have hsN : 0 < s ^ N := pow_pos hs0 N
  have hsN1 : s ^ N ≤ 1 := pow_le_one₀ hs0.le hs.le
  have hy1 : y1.length = L := by
    have := h1.1
    rw [List.length_append, List.length_append] at this
    omega
  have hy2 : y2.length = L := by rw [h2.1, List.length_reverse, hy1]
  -- forwards
  set W1 := (5 + h) / s ^ N * (A + P) with hW1
  have hW1' : (5 + h) * (A + P) ≤ W1 := by
    rw [hW1]
    refine mul_le_mul_of_nonneg_right ?_ (by linarith)
    rw [le_div_iff₀ hsN]
    nlinarith
  have hW10 : 0 ≤ W1 := le_trans (by positivity) hW1'
  have hHc : ‖H * c‖ ≤ h * A := by
    rw [norm_mul]
    exact mul_le_mul hHle hA (norm_nonneg _) hh0
  have f0 := (sol_of_diffEq b a _ _ xs.length L h1 (by rw [List.length_append])).sub (tone_sol b a w hd0 c L)
  have f1 := f0.gain hr hrs hW10 hD himp (profile_env r s _ L W1 hr hrs hs hW10)
    (fun j hj => by
      have e1 := zf_append_past xs ext P hP hxs j hj
      have e2 := tone_le w c j
      have := abs_sub (zf (xs ++ ext) xs.length j) (tone w c j)
      nlinarith [mul_nonneg hh0 hA0, mul_nonneg hh0 hP])
    (fun j hj => by
      have e1 := zf_append_past ys y1 P hP hys j hj
      rw [← hlen] at e1
      have e2 := tone_le w (H * c) j
      have := abs_sub (zf (ys ++ y1) xs.length j) (tone w (H * c) j)
      nlinarith [mul_nonneg hh0 hA0, mul_nonneg hh0 hP])
    (fun j hj => by
      rw [zf_append_nat]
      by_cases hc : N ≤ j ∧ j + N < L
      · rw [hin j hc.1 hc.2, sub_self, abs_zero]
        exact mul_nonneg hW10 (env_pos hs0 _ _).le
      · have he : s ^ N ≤ env s L j := by
          unfold env
          rcases Nat.lt_or_ge j N with hj' | hj'
          · have := pow_le_pow_of_le_one hs0.le hs.le hj'.le
            have : 0 < s ^ (L - 1 - j) := by positivity
            linarith
          · have := pow_le_pow_of_le_one hs0.le hs.le (show L - 1 - j ≤ N by omega)
            have : 0 < s ^ j := by positivity
            linarith
        refine (hext j hj).trans ?_
        calc 4 * A ≤ (5 + h) * (A + P) := by nlinarith [mul_nonneg hh0 hA0, mul_nonneg hh0 hP]
          _ = W1 * s ^ N := by rw [hW1]; field_simp
          _ ≤ _ := mul_le_mul_of_nonneg_left he hW10)
  -- backwards
  set c' := (starRingEnd ℂ) (H * c * Complex.exp ((w * ((L - 1 : ℕ) : ℤ) : ℝ) * Complex.I)) with hc'
  have hc'n : ‖c'‖ ≤ h * A := by
    rw [hc', RCLike.norm_conj, norm_mul, Complex.norm_exp_ofReal_mul_I, mul_one]
    exact hHc
  have hHc' : ‖H * c'‖ ≤ h * (h * A) := by
    rw [norm_mul]
    exact mul_le_mul hHle hc'n (norm_nonneg _) hh0
  set W2 := K * W1 + (h + h * h) * (A + P) with hW2
  have hKW : 0 ≤ K * W1 := mul_nonneg hK hW10
  have hW20 : 0 ≤ W2 := by positivity
  have g0 := (sol_of_diffEq b a _ _ 0 L h2 (by rw [List.length_reverse]; omega)).sub (tone_sol b a w hd0 c' L)
  have hrev : ∀ j : ℕ, j < L → tone w c' j = tone w (H * c) (L - 1 - j : ℕ) := by
    intro j hj
    rw [hc', ← tone_reverse, Nat.cast_sub (show j ≤ L - 1 by omega)]
  have g1 := g0.gain hr hrs hW20 hD himp (profile_env r s _ L W2 hr hrs hs hW20)
    (fun j hj => by
      rw [zf_past _ _ hj, zero_sub, abs_neg]
      have := tone_le w c' j
      nlinarith [mul_nonneg hh0 hA0, mul_nonneg hh0 hP, mul_nonneg hh0 (mul_nonneg hh0 hA0), mul_nonneg hh0 (mul_nonneg hh0 hP)])
    (fun j hj => by
      rw [zf_past _ _ hj, zero_sub, abs_neg]
      have := tone_le w (H * c') j
      nlinarith [mul_nonneg hh0 hA0, mul_nonneg hh0 hP, mul_nonneg hh0 (mul_nonneg hh0 hA0), mul_nonneg hh0 (mul_nonneg hh0 hP)])
    (fun j hj => by
      rw [zf_rev y1 L hy1 j hj, hrev j hj]
      have := f1 (L - 1 - j) (by omega)
      rw [hlen, zf_append_nat, env_reverse s L j hj] at this
      refine this.trans (mul_le_mul_of_nonneg_right ?_ (env_pos hs0 _ _).le)
      have : 0 ≤ (h + h * h) * (A + P) := by positivity
      linarith)
  have g2 := g1 (L - 1 - k) (by omega)
  rw [env_reverse s L k hk] at g2
  have e1 : zf y2 0 ((L - 1 - k : ℕ) : ℤ) = y2.reverse.getD k 0 := by
    rw [zf_nat, Nat.zero_add, revget y2 k (by omega), hy2]
  have e2 : tone w (H * c') ((L - 1 - k : ℕ) : ℤ) = ‖H‖ ^ 2 * tone w c k := by
    have e3 : H * c' = (starRingEnd ℂ) ((((‖H‖ ^ 2 : ℝ) : ℂ) * c) * Complex.exp ((w * ((L - 1 : ℕ) : ℤ) : ℝ) * Complex.I)) := by
      rw [hc', map_mul, map_mul, map_mul, map_mul, Complex.conj_ofReal, ← mul_assoc, ← mul_assoc, Complex.mul_conj, Complex.normSq_eq_norm_sq]
    rw [e3, Nat.cast_sub (show k ≤ L - 1 by omega), ← tone_reverse, sub_sub_cancel, tone, mul_assoc, Complex.re_ofReal_mul]
    rfl
  rw [e1, e2] at g2
  refine g2.trans (le_of_eq ?_)
  congr 1
  rw [hW2, hW1, passK]
  rw [← hh, ← hKdef]
  ring

/-- Two passes over the same block, from different pasts. -/
theorem twoPasts (b a : List ℝ) (D r s : ℝ) (hr : 0 < r) (hrs : r < s) (hs : s < 1) (hD : 0 ≤ D) (himp : ∀ k, |imp a k| ≤ D * r ^ k)
    (xs ys xs' ys' ext y1 y2 z1 z2 : List ℝ) (P : ℝ) (hP : 0 ≤ P) (hlen : xs.length = ys.length) (hlen' : xs'.length = ys'.length)
    (h1 : DiffEq b a (xs ++ ext) (ys ++ y1)) (h2 : DiffEq b a y1.reverse y2) (h1' : DiffEq b a (xs' ++ ext) (ys' ++ z1)) (h2' : DiffEq b a z1.reverse z2)
    (hxs : ∀ v ∈ xs, |v| ≤ P) (hys : ∀ v ∈ ys, |v| ≤ P) (hxs' : ∀ v ∈ xs', |v| ≤ P) (hys' : ∀ v ∈ ys', |v| ≤ P) (k : ℕ) (hk : k < ext.length) :
    |y2.reverse.getD k 0 - z2.reverse.getD k 0| ≤ gainK b a D r s * (gainK b a D r s * (2 * P)) * s ^ k := by
  set L := ext.length with hL
  set K := gainK b a D r s with hKdef
  have hs0 : 0 < s := hr.trans hrs
  have hK : 0 ≤ K := gainK_nonneg b a D r s hD hr hrs
  have hy1 : y1.length = L := by
    have := h1.1
    rw [List.length_append, List.length_append] at this
    omega
  have hz1 : z1.length = L := by
    have := h1'.1
    rw [List.length_append, List.length_append] at this
    omega
  have hy2 : y2.length = L := by rw [h2.1, List.length_reverse, hy1]
  have hz2 : z2.length = L := by rw [h2'.1, List.length_reverse, hz1]
  have f0 := (sol_of_diffEq b a _ _ xs.length L h1 (by rw [List.length_append])).sub (sol_of_diffEq b a _ _ xs'.length L h1' (by rw [List.length_append]))
  have hW : 0 ≤ 2 * P := by linarith
  have f1 := f0.gain hr hrs hW hD himp (profile_start r s _ L (2 * P) hr hrs hs hW)
    (fun j hj => by
      have e1 := zf_append_past xs ext P hP hxs j hj
      have e2 := zf_append_past xs' ext P hP hxs' j hj
      have := abs_sub (zf (xs ++ ext) xs.length j) (zf (xs' ++ ext) xs'.length j)
      linarith)
    (fun j hj => by
      have e1 := zf_append_past ys y1 P hP hys j hj
      have e2 := zf_append_past ys' z1 P hP hys' j hj
      have := abs_sub (zf (ys ++ y1) ys.length j) (zf (ys' ++ z1) ys'.length j)
      rw [hlen, hlen']
      linarith)
    (fun j hj => by
      rw [zf_append_nat, zf_append_nat, sub_self, abs_zero]
      positivity)
  have hKW : 0 ≤ K * (2 * P) := mul_nonneg hK hW
  have g0 := (sol_of_diffEq b a _ _ 0 L h2 (by rw [List.length_reverse]; omega)).sub (sol_of_diffEq b a _ _ 0 L h2' (by rw [List.length_reverse]; omega))
  have g1 := g0.gain hr hrs hKW hD himp (profile_end r s _ L (K * (2 * P)) hr hrs hs hKW)
    (fun j hj => by
      rw [zf_past _ _ hj, zf_past _ _ hj, sub_self, abs_zero])
    (fun j hj => by
      rw [zf_past _ _ hj, zf_past _ _ hj, sub_self, abs_zero])
    (fun j hj => by
      rw [zf_rev y1 L hy1 j hj, zf_rev z1 L hz1 j hj]
      have := f1 (L - 1 - j) (by omega)
      rw [hlen, hlen', zf_append_nat, zf_append_nat] at this
      exact this)
  have g2 := g1 (L - 1 - k) (by omega)
  rw [show L - 1 - (L - 1 - k) = k by omega, zf_nat, zf_nat, Nat.zero_add] at g2
  rw [revget y2 k (by omega), revget z2 k (by omega), hy2, hz2]
  exact g2

end QM.Filter
