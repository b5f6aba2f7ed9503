import Verif.Filter.RoundedBound

/-!
# C92: filtering in double precision
-/

namespace QM.Filter.Rounded

open QM QM.Filter QM.Double Finset

variable (fl : ℝ → ℝ)

/-- **C92** Whatever the block lengths, a new filter object computes the difference equation, evaluated in double precision from the newest to the oldest sample. -/
theorem C92_difference_equation (b a : List ℝ) (s : State ℝ) (h : new b a = .ok s) (hord : a.length ≠ 1) (bs : List (List ℝ)) :
    ∃ s' outs, Rounded.run fl s (blocks bs) = some (s', outs) ∧ outs.map List.length = bs.map List.length ∧ DiffEqR fl b a bs.flatten outs.flatten := by
  obtain ⟨s', outs, h1, _, h3, h4⟩ := run_blocks_spec fl b a bs s [] [] (new_inv b a s h hord) ⟨rfl, by simp⟩
  exact ⟨s', outs, h1, h3, by simpa using h4⟩

/-- **C92** Two ways of cutting a stream into blocks give the same output, bit for bit, and so does a filter that has been used before and reset. -/
theorem C92_bit_for_bit (b a : List ℝ) (s : State ℝ) (h : new b a = .ok s) (hord : a.length ≠ 1) (ops : List (Op ℝ)) (bs cs : List (List ℝ))
    (hbc : bs.flatten = cs.flatten) :
    ∃ t os s1 o1 s2 o2, Rounded.run fl s ops = some (t, os) ∧ Rounded.run fl s (blocks bs) = some (s1, o1) ∧ Rounded.run fl t (.reset :: blocks cs) = some (s2, o2) ∧
      o1.flatten = o2.flatten := by
  obtain ⟨t, os, xs, ys, h1, h2, h3⟩ := run_inv fl b a ops s [] [] (new_inv b a s h hord) ⟨rfl, by simp⟩
  obtain ⟨s1, o1, h4, -, -, h5⟩ := run_blocks_spec fl b a bs s [] [] (new_inv b a s h hord) ⟨rfl, by simp⟩
  obtain ⟨s2, o2, h6, -, -, h7⟩ := run_blocks_spec fl b a cs (reset t) [] [] (reset_inv b a t xs ys h2) ⟨rfl, by simp⟩
  refine ⟨t, os, s1, o1, s2, o2, h1, h4, h6, ?_⟩
  simp only [List.nil_append] at h5 h7
  rw [← hbc] at h7
  exact diffEq_unique fl _ _ _ _ _ h5 h7

variable {fl}

/-- **C92** Rounding errors do not build up in a stable filter, however long the stream. With input up to `A`, `B` the sum of the absolute values of the coefficients of
the input, `Q` that of the coefficients fed back and `G` a bound on the sum of the absolute values of the response to an impulse, every sample is within
`G (5 m + 3)` units of `A B (1 + 2 G Q) / 2^53` of the exact response, `m` being the number of coefficients. -/
theorem C92_error (hfl : Rounds fl) (b a : List ℝ) (s : State ℝ) (h : new b a = .ok s) (hord : a.length ≠ 1) (A B Q G : ℝ)
    (hB : ∑ i ∈ range b.length, |b.getD i 0| ≤ B) (hQ : ∑ i ∈ range (a.length - 1), |a.getD (i + 1) 0| ≤ Q)
    (hG : ∀ N y, DiffEq [1] a (1 :: List.replicate N 0) y → (y.map (fun v => |v|)).sum ≤ G) (h1 : 1 / 2 ^ 1000 ≤ B * A) (h2 : B * A * (1 + 2 * G * Q) ≤ 2 ^ 1000)
    (hGQ : G * Q ≤ 2 ^ 20) (hl : b.length + a.length ≤ 2 ^ 20) (bs : List (List ℝ)) (hx : ∀ blk ∈ bs, ∀ v ∈ blk, |v| ≤ A) :
    ∃ s1 outs s2 outsR, Filter.run s (blocks bs) = some (s1, outs) ∧ Rounded.run fl s (blocks bs) = some (s2, outsR) ∧
      outsR.map List.length = outs.map List.length ∧
      ∀ (n : Nat) u v, outs.flatten[n]? = some u → outsR.flatten[n]? = some v →
        |v - u| ≤ G * ((5 * (b.length + a.length : ℕ) + 3) * (B * A * (1 + 2 * G * Q) / 2 ^ 53)) := by
  obtain ⟨s1, outs, e1, l1, d1⟩ := C10_difference_equation b a s h hord bs
  obtain ⟨s2, outsR, e2, l2, d2⟩ := C92_difference_equation fl b a s h hord bs
  refine ⟨s1, outs, s2, outsR, e1, e2, by rw [l1, l2], fun n u v hu hv => ?_⟩
  have hB0 : 0 ≤ B := (sum_nonneg fun _ _ => abs_nonneg _).trans hB
  have hQ0 : 0 ≤ Q := (sum_nonneg fun _ _ => abs_nonneg _).trans hQ
  have hG' := imp_sum_le a G hG
  have hG0 : 0 ≤ G := (sum_nonneg fun _ _ => abs_nonneg _).trans (hG' 0)
  have hp : 0 < B * A := lt_of_lt_of_le (by positivity) h1
  have hA : 0 ≤ A := by
    by_contra hc
    have : B * A ≤ 0 := mul_nonpos_of_nonneg_of_nonpos hB0 (not_le.1 hc).le
    linarith
  have hGQ0 : 0 ≤ G * Q := mul_nonneg hG0 hQ0
  have hM : Scale (B * A * (1 + 2 * G * Q)) := by
    refine scale_of _ (h1.trans ?_) h2
    calc B * A = B * A * 1 := (mul_one _).symm
      _ ≤ _ := mul_le_mul_of_nonneg_left (by linarith) hp.le
  have hn : n < bs.flatten.length := by
    rw [← d1.1]
    exact lt_of_getElem?_some hu
  have := global_error hfl b a bs.flatten outs.flatten outsR.flatten A B Q G hA hB hQ hG' hM hGQ hl (by
    intro v hv
    obtain ⟨blk, hb, hv⟩ := List.mem_flatten.1 hv
    exact hx blk hb v hv) d1 d2 n hn
  rw [List.getD_eq_getElem?_getD, List.getD_eq_getElem?_getD, hu, hv] at this
  exact this

/-- **C92** Filters whose coefficients fed back sum to `ρ < 1` in absolute value are stable, with `G = 1 / (1 - ρ)`. -/
theorem C92_stable (a : List ℝ) (ρ : ℝ) (hρ : ρ < 1) (h : ∑ i ∈ range (a.length - 1), |a.getD (i + 1) 0| ≤ ρ) (N : ℕ) (y : List ℝ)
    (hy : DiffEq [1] a (1 :: List.replicate N 0) y) : (y.map (fun v => |v|)).sum ≤ 1 / (1 - ρ) := by
  rw [Filter.diffEq_unique [1] a _ _ _ hy (imp_diffEq a N), List.map_map, sum_map_range]
  exact imp_small a ρ hρ h (N + 1)

/-- A filter without feedback has `Q = 0` and `G = 1`. -/
example (b : List ℝ) : ∑ i ∈ range (([] : List ℝ).length - 1), |([] : List ℝ).getD (i + 1) 0| ≤ 0 := by simp

/-- The second-order Butterworth filter used for onsets is accepted and meets the hypotheses with `B = 1`, `Q = 0.6` and `G = 2.5`. -/
example : (∃ s, new [(0.2066 : ℝ), 0.4131, 0.2066] [1, -0.3695, 0.1958] = .ok s) ∧ ∑ i ∈ range 3, |[(0.2066 : ℝ), 0.4131, 0.2066].getD i 0| ≤ 1 ∧
    ∑ i ∈ range ([(1 : ℝ), -0.3695, 0.1958].length - 1), |[(1 : ℝ), -0.3695, 0.1958].getD (i + 1) 0| ≤ 0.6 ∧ (1 : ℝ) / (1 - 0.6) = 2.5 := by
  refine ⟨⟨_, by simp [new]; rfl⟩, ?_, ?_, by norm_num⟩
  · norm_num [Finset.sum_range_succ, abs_of_pos]
  · norm_num [Finset.sum_range_succ, abs_of_pos, abs_of_neg]

end QM.Filter.Rounded
