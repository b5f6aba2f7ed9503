import Verif.Distance.Model
import Verif.Common.Sum
import Mathlib.Algebra.Order.BigOperators.Ring.Finset
import Mathlib.Tactic.FieldSimp
import Mathlib.Tactic.Linarith

namespace QM.Distance

/-! ## Specification -/

/-- The inner product of two vectors. -/
noncomputable def dot (v w : List ℝ) : ℝ := ∑ i ∈ Finset.range v.length, v.getD i 0 * w.getD i 0

/-- The Euclidean length of a vector. -/
noncomputable def norm (v : List ℝ) : ℝ := Real.sqrt (dot v v)

theorem small_pos : 0 < small := by unfold small; positivity

theorem loop_sum3 (n : Nat) (f : Nat → ℝ × ℝ × ℝ → Option (ℝ × ℝ × ℝ)) (g1 g2 g3 : Nat → ℝ)
    (hf : ∀ i s, i < n → f i s = some (s.1 + g1 i, s.2.1 + g2 i, s.2.2 + g3 i)) :
    loop n f (0, 0, 0) = some (∑ i ∈ Finset.range n, g1 i, ∑ i ∈ Finset.range n, g2 i, ∑ i ∈ Finset.range n, g3 i) := by
  induction n with
  | zero => simp [loop]
  | succ n ih =>
    rw [loop, ih (fun i acc hi => hf i acc (by omega))]
    simp only [Option.bind_some]
    rw [hf n _ (by omega)]
    simp only [Finset.sum_range_succ]

theorem dot_self_nonneg (v : List ℝ) : 0 ≤ dot v v := Finset.sum_nonneg fun _ _ => mul_self_nonneg _

theorem dot_comm (v w : List ℝ) (h : v.length = w.length) : dot v w = dot w v := by
  unfold dot; rw [h]; exact Finset.sum_congr rfl fun _ _ => mul_comm _ _

theorem abs_dot_le (v w : List ℝ) (h : v.length = w.length) : |dot v w| ≤ norm v * norm w := by
  unfold norm
  rw [← Real.sqrt_mul (dot_self_nonneg v)]
  apply Real.abs_le_sqrt
  have := Finset.sum_mul_sq_le_sq_mul_sq (Finset.range v.length) (fun i => v.getD i 0) (fun i => w.getD i 0)
  unfold dot
  rw [← h]
  simpa only [pow_two] using this

/-! ## C47 -/

/-- The distance is 1 minus the inner product over the product of the lengths plus 1e-20. -/
theorem C47_value (v w : List ℝ) (h : v.length = w.length) : cosine v w = some (1 - dot v w / (norm v * norm w + small)) := by
  unfold cosine
  rw [if_neg (by simp [h])]
  rw [loop_sum3 v.length _ (fun i => v.getD i 0 * w.getD i 0) (fun i => v.getD i 0 * v.getD i 0) (fun i => w.getD i 0 * w.getD i 0)
    (by
      intro i s hi
      rw [get_getD v i 0 hi, get_getD w i 0 (by omega)]
      rfl)]
  have e : ∑ i ∈ Finset.range v.length, w.getD i 0 * w.getD i 0 = dot w w := by unfold dot; rw [h]
  have e2 : norm v * norm w = Real.sqrt (dot v v * dot w w) := by unfold norm; rw [Real.sqrt_mul (dot_self_nonneg v)]
  rw [e2]
  simp only [Option.bind_eq_bind, Option.bind_some, e]
  show some (1 - dot v w / (Real.sqrt |dot v v * dot w w| + small)) = _
  rw [abs_of_nonneg (mul_nonneg (dot_self_nonneg v) (dot_self_nonneg w))]

/-- Vectors of different lengths are at distance 1. -/
theorem C47_lengths (v w : List ℝ) (h : v.length ≠ w.length) : cosine v w = some 1 := by
  unfold cosine; rw [if_pos h]

theorem C47_symmetric (v w : List ℝ) : cosine v w = cosine w v := by
  by_cases h : v.length = w.length
  · rw [C47_value v w h, C47_value w v h.symm, dot_comm v w h, mul_comm (norm v)]
  · rw [C47_lengths v w h, C47_lengths w v (Ne.symm h)]

/-- The distance lies strictly between 0 and 2. -/
theorem C47_range (v w : List ℝ) : ∃ d, cosine v w = some d ∧ 0 < d ∧ d < 2 := by
  by_cases h : v.length = w.length
  · refine ⟨_, C47_value v w h, ?_⟩
    have h1 := abs_le.mp (abs_dot_le v w h)
    have h2 : 0 ≤ norm v * norm w := mul_nonneg (Real.sqrt_nonneg _) (Real.sqrt_nonneg _)
    have h3 := small_pos
    have hp : 0 < norm v * norm w + small := by linarith
    have a1 : dot v w / (norm v * norm w + small) < 1 := by rw [div_lt_one hp]; linarith
    have a2 : -1 < dot v w / (norm v * norm w + small) := by rw [lt_div_iff₀ hp]; linarith
    exact ⟨by linarith, by linarith⟩
  · exact ⟨1, C47_lengths v w h, by norm_num, by norm_num⟩

/-- For vectors that are not zero the distance differs from 1 minus the cosine of the angle by at most 1e-20 over the product of the
lengths. -/
theorem C47_regularisation (v w : List ℝ) (h : v.length = w.length) (hv : 0 < norm v) (hw : 0 < norm w) :
    ∃ d, cosine v w = some d ∧ |d - (1 - dot v w / (norm v * norm w))| ≤ small / (norm v * norm w) := by
  refine ⟨_, C47_value v w h, ?_⟩
  have hN : 0 < norm v * norm w := mul_pos hv hw
  have hs := small_pos
  have hle := abs_dot_le v w h
  have e : 1 - dot v w / (norm v * norm w + small) - (1 - dot v w / (norm v * norm w)) =
      dot v w * small / ((norm v * norm w) * (norm v * norm w + small)) := by
    field_simp
    ring
  rw [e, abs_div, abs_mul, abs_of_pos hs, abs_of_pos (mul_pos hN (by linarith)), div_le_div_iff₀ (mul_pos hN (by linarith)) hN]
  nlinarith [mul_nonneg (sub_nonneg.mpr hle) hs.le, mul_pos hs hN, mul_pos hs hs, mul_nonneg (mul_nonneg (sub_nonneg.mpr hle) hs.le) hN.le,
    mul_nonneg hs.le hs.le, mul_nonneg (mul_nonneg hs.le hs.le) hN.le]

theorem dot_scale (a b : ℝ) (v w : List ℝ) : dot (v.map (a * ·)) (w.map (b * ·)) = a * b * dot v w := by
  unfold dot
  rw [List.length_map, Finset.mul_sum]
  refine Finset.sum_congr rfl fun i _ => ?_
  have : ∀ (c : ℝ) (u : List ℝ), (u.map (c * ·)).getD i 0 = c * u.getD i 0 := by
    intro c u
    simp only [List.getD_eq_getElem?_getD, List.getElem?_map]
    cases u[i]? <;> simp
  rw [this, this]; ring

theorem norm_scale (a : ℝ) (ha : 0 ≤ a) (v : List ℝ) : norm (v.map (a * ·)) = a * norm v := by
  unfold norm
  rw [dot_scale, Real.sqrt_mul (mul_self_nonneg a), Real.sqrt_mul_self ha]

/-- Scaling by positive factors has the effect of changing 1e-20 to 1e-20 over the product of the factors, and no other. -/
theorem C47_scaling (a b : ℝ) (ha : 0 < a) (hb : 0 < b) (v w : List ℝ) (h : v.length = w.length) :
    cosine (v.map (a * ·)) (w.map (b * ·)) = some (1 - dot v w / (norm v * norm w + small / (a * b))) := by
  rw [C47_value _ _ (by simp [h]), dot_scale, norm_scale a ha.le, norm_scale b hb.le]
  congr 2
  have hab := mul_pos ha hb
  rw [show a * norm v * (b * norm w) + small = a * b * (norm v * norm w + small / (a * b)) by field_simp]
  rw [mul_div_mul_left _ _ (ne_of_gt hab)]

/-- A positive multiple of the same vector is at distance `1e-20 / (c |v|² + 1e-20)`. -/
theorem C47_parallel (c : ℝ) (hc : 0 < c) (v : List ℝ) :
    cosine v (v.map (c * ·)) = some (small / (c * norm v ^ 2 + small)) := by
  rw [C47_value _ _ (by simp), norm_scale c hc.le]
  have e : dot v (v.map (c * ·)) = c * norm v ^ 2 := by
    have := dot_scale 1 c v v
    rw [show v.map (fun x : ℝ => 1 * x) = v by simp] at this
    rw [this]
    unfold norm
    rw [Real.sq_sqrt (dot_self_nonneg v)]; ring
  rw [e]
  congr 1
  have hp : 0 < c * norm v ^ 2 + small := by have := small_pos; positivity
  rw [show norm v * (c * norm v) = c * norm v ^ 2 by ring]
  field_simp
  ring

example : dot [3, 4] [3, 4] = 25 := by norm_num [dot, Finset.sum_range_succ]

/-! ## C48 -/

noncomputable def term (a b : ℝ) : ℝ := a * Real.logb 10 ((a + small) / (b + small))

theorem oneSided_ok (d1 d2 : List ℝ) (h : d1.length ≤ d2.length) :
    oneSided d1 d2 = some (∑ i ∈ Finset.range d1.length, term (d1.getD i 0) (d2.getD i 0)) := by
  unfold oneSided
  rw [loop_sum d1.length _ (fun i => term (d1.getD i 0) (d2.getD i 0)) 0, zero_add]
  intro i acc hi
  rw [get_getD d1 i 0 hi, get_getD d2 i 0 (by omega)]
  rfl

/-- The one-sided divergence is the sum of `p log10 ((p + 1e-20) / (q + 1e-20))`. -/
theorem C48_value (d1 d2 : List ℝ) (h : d1.length ≤ d2.length) : distribution d1 d2 false =
    some (∑ i ∈ Finset.range d1.length, d1.getD i 0 * Real.logb 10 ((d1.getD i 0 + small) / (d2.getD i 0 + small))) := by
  unfold distribution
  rw [bind_ok (oneSided_ok d1 d2 h)]
  rfl

/-- The symmetrised divergence does not depend on the order of the arguments. -/
theorem C48_symmetric (d1 d2 : List ℝ) (h : d1.length = d2.length) : distribution d1 d2 true = distribution d2 d1 true := by
  unfold distribution
  rw [bind_ok (oneSided_ok d1 d2 h.le), bind_ok (oneSided_ok d2 d1 h.ge)]
  simp only [if_true]
  rw [bind_ok (oneSided_ok d2 d1 h.ge), bind_ok (oneSided_ok d1 d2 h.le), add_comm]

theorem term_sum (a b : ℝ) (ha : 0 ≤ a) (hb : 0 ≤ b) : 0 ≤ term a b + term b a ∧ (term a b + term b a = 0 → a = b) := by
  have hs := small_pos
  have e : term a b + term b a = (a - b) * (Real.logb 10 (a + small) - Real.logb 10 (b + small)) := by
    unfold term
    rw [Real.logb_div (by linarith) (by linarith), Real.logb_div (by linarith) (by linarith)]
    ring
  rw [e]
  rcases lt_trichotomy a b with h | h | h
  · have : Real.logb 10 (a + small) < Real.logb 10 (b + small) := Real.logb_lt_logb (by norm_num) (by linarith) (by linarith)
    have hp := mul_pos_of_neg_of_neg (sub_neg.mpr h) (sub_neg.mpr this)
    exact ⟨hp.le, fun h0 => absurd h0 (ne_of_gt hp)⟩
  · subst h; simp
  · have : Real.logb 10 (b + small) < Real.logb 10 (a + small) := Real.logb_lt_logb (by norm_num) (by linarith) (by linarith)
    have hp := mul_pos (sub_pos.mpr h) (sub_pos.mpr this)
    exact ⟨hp.le, fun h0 => absurd h0 (ne_of_gt hp)⟩

/-- The symmetrised divergence of vectors with no negative entries is at least 0, and 0 only for equal vectors. -/
theorem C48_nonneg (d1 d2 : List ℝ) (h : d1.length = d2.length) (h1 : ∀ x ∈ d1, 0 ≤ x) (h2 : ∀ x ∈ d2, 0 ≤ x) :
    ∃ d, distribution d1 d2 true = some d ∧ 0 ≤ d ∧ (d = 0 ↔ d1 = d2) := by
  have nn : ∀ (l : List ℝ), (∀ x ∈ l, 0 ≤ x) → ∀ i, 0 ≤ l.getD i 0 := by
    intro l hl i
    by_cases hi : i < l.length
    · exact hl _ (List.mem_of_getElem? (get_getD l i 0 hi))
    · simp [List.getElem?_eq_none (show l.length ≤ i by omega)]
  have e : distribution d1 d2 true = some (∑ i ∈ Finset.range d1.length,
      (term (d1.getD i 0) (d2.getD i 0) + term (d2.getD i 0) (d1.getD i 0))) := by
    unfold distribution
    rw [bind_ok (oneSided_ok d1 d2 h.le)]
    simp only [if_true]
    rw [bind_ok (oneSided_ok d2 d1 h.ge), Finset.sum_add_distrib, h]
    rfl
  have hnn : ∀ i ∈ Finset.range d1.length, 0 ≤ term (d1.getD i 0) (d2.getD i 0) + term (d2.getD i 0) (d1.getD i 0) :=
    fun i _ => (term_sum _ _ (nn d1 h1 i) (nn d2 h2 i)).1
  refine ⟨_, e, Finset.sum_nonneg hnn, ?_, ?_⟩
  · intro h0
    rw [Finset.sum_eq_zero_iff_of_nonneg hnn] at h0
    apply List.ext_getElem?
    intro i
    by_cases hi : i < d1.length
    · rw [get_getD d1 i 0 hi, get_getD d2 i 0 (by omega), (term_sum _ _ (nn d1 h1 i) (nn d2 h2 i)).2 (h0 i (Finset.mem_range.mpr hi))]
    · rw [List.getElem?_eq_none (by omega), List.getElem?_eq_none (by omega)]
  · rintro rfl
    refine Finset.sum_eq_zero fun i _ => ?_
    have : term (d1.getD i 0) (d1.getD i 0) = 0 := by
      unfold term
      rw [div_self (by have := nn d1 h1 i; have := small_pos; linarith), Real.logb_one, mul_zero]
    rw [this, add_zero]

/-- The one-sided divergence of two probability vectors is at least -1e-20 n / ln 10: the regularisation can make it negative only by
that much. -/
theorem C48_one_sided_bound (d1 d2 : List ℝ) (h : d1.length = d2.length) (h1 : ∀ x ∈ d1, 0 ≤ x) (h2 : ∀ x ∈ d2, 0 ≤ x)
    (s1 : d1.sum = 1) (s2 : d2.sum = 1) :
    ∃ d, distribution d1 d2 false = some d ∧ -(small * d1.length / Real.log 10) ≤ d := by
  refine ⟨_, C48_value d1 d2 h.le, ?_⟩
  have nn : ∀ (l : List ℝ), (∀ x ∈ l, 0 ≤ x) → ∀ i, 0 ≤ l.getD i 0 := by
    intro l hl i
    by_cases hi : i < l.length
    · exact hl _ (List.mem_of_getElem? (get_getD l i 0 hi))
    · simp [List.getElem?_eq_none (show l.length ≤ i by omega)]
  have hl10 : 0 < Real.log 10 := Real.log_pos (by norm_num)
  have hs := small_pos
  have e1 : ∑ i ∈ Finset.range d1.length, d1.getD i 0 = 1 := by rw [← list_sum_holds (holds_getD d1 0), s1]
  have e2 : ∑ i ∈ Finset.range d1.length, d2.getD i 0 = 1 := by rw [h, ← list_sum_holds (holds_getD d2 0), s2]
  have key : ∀ i ∈ Finset.range d1.length, (d1.getD i 0 - d2.getD i 0 - small) / Real.log 10 ≤
      d1.getD i 0 * Real.logb 10 ((d1.getD i 0 + small) / (d2.getD i 0 + small)) := by
    intro i _
    have ha := nn d1 h1 i
    have hb := nn d2 h2 i
    generalize d1.getD i 0 = a at *
    generalize d2.getD i 0 = b at *
    have hlog := Real.log_le_sub_one_of_pos (show 0 < (b + small) / (a + small) by positivity)
    have hinv : Real.log ((a + small) / (b + small)) = -Real.log ((b + small) / (a + small)) := by
      rw [← Real.log_inv, inv_div]
    unfold Real.logb
    rw [mul_div_assoc', div_le_div_iff_of_pos_right hl10, hinv]
    have h3 : a * ((b + small) / (a + small)) ≤ b + small := by
      rw [mul_div_assoc', div_le_iff₀ (by linarith)]
      nlinarith
    nlinarith
  refine le_trans ?_ (Finset.sum_le_sum key)
  rw [← Finset.sum_div, Finset.sum_sub_distrib, Finset.sum_sub_distrib, e1, e2, Finset.sum_const, Finset.card_range, nsmul_eq_mul]
  rw [← neg_div]
  apply le_of_eq
  congr 1
  ring

/-- The Gaussian distance as a sum over the components. -/
theorem C48_gaussian_value (m1 v1 m2 v2 : List ℝ) (h1 : m1.length ≤ v1.length) (h2 : m1.length ≤ m2.length) (h3 : m1.length ≤ v2.length) :
    gaussian m1 v1 m2 v2 = some ((∑ k ∈ Finset.range m1.length, (
      (v1.getD k 0 + small) / (v2.getD k 0 + small) + (v2.getD k 0 + small) / (v1.getD k 0 + small) - 2 +
      (m1.getD k 0 - m2.getD k 0 + small) ^ 2 * (1 / (v1.getD k 0 + small) + 1 / (v2.getD k 0 + small)))) / 2) := by
  unfold gaussian
  rw [bind_ok (loop_sum m1.length _ (fun k => (v1.getD k 0 + small) / (v2.getD k 0 + small) + (v2.getD k 0 + small) / (v1.getD k 0 + small) +
      (m1.getD k 0 - m2.getD k 0 + small) ^ 2 * (1 / (v1.getD k 0 + small) + 1 / (v2.getD k 0 + small))) _
    (by
      intro i acc hi
      rw [get_getD v1 i 0 (by omega), get_getD v2 i 0 (by omega), get_getD m1 i 0 hi, get_getD m2 i 0 (by omega)]
      simp only [Option.bind_eq_bind, Option.bind_some, Option.pure_def, Option.some.injEq]
      ring))]
  simp only [Option.pure_def, Option.some.injEq]
  congr 1
  rw [show (-2 : ℝ) * (m1.length : ℝ) = ∑ k ∈ Finset.range m1.length, (-2 : ℝ) by
    rw [Finset.sum_const, Finset.card_range, nsmul_eq_mul]; ring, ← Finset.sum_add_distrib]
  exact Finset.sum_congr rfl fun k _ => by ring

/-- It is never negative for variances that are not negative. -/
theorem C48_gaussian_nonneg (m1 v1 m2 v2 : List ℝ) (h1 : m1.length = v1.length) (h2 : m1.length = m2.length) (h3 : m1.length = v2.length)
    (n1 : ∀ x ∈ v1, 0 ≤ x) (n2 : ∀ x ∈ v2, 0 ≤ x) : ∃ d, gaussian m1 v1 m2 v2 = some d ∧ 0 ≤ d := by
  refine ⟨_, C48_gaussian_value m1 v1 m2 v2 h1.le h2.le h3.le, ?_⟩
  apply div_nonneg _ (by norm_num)
  refine Finset.sum_nonneg fun k hk => ?_
  have hk' := Finset.mem_range.mp hk
  have ha := n1 _ (List.mem_of_getElem? (get_getD v1 k 0 (by omega)))
  have hb := n2 _ (List.mem_of_getElem? (get_getD v2 k 0 (by omega)))
  have hs := small_pos
  generalize v1.getD k 0 = a at *
  generalize v2.getD k 0 = b at *
  have hp : 0 < a + small := by linarith
  have hq : 0 < b + small := by linarith
  generalize a + small = p at *
  generalize b + small = q at *
  have e : p / q + q / p - 2 = (p - q) ^ 2 / (p * q) := by field_simp; ring
  rw [e]
  positivity

/-- It is not symmetric: the mean difference is shifted by 1e-20 before it is squared. Swapping the arguments changes the result by
exactly this amount. -/
theorem C48_gaussian_asymmetry (m1 v1 m2 v2 : List ℝ) (h1 : m1.length = v1.length) (h2 : m1.length = m2.length)
    (h3 : m1.length = v2.length) :
    ∃ d e, gaussian m1 v1 m2 v2 = some d ∧ gaussian m2 v2 m1 v1 = some e ∧
      d - e = 2 * small * ∑ k ∈ Finset.range m1.length, (m1.getD k 0 - m2.getD k 0) *
        (1 / (v1.getD k 0 + small) + 1 / (v2.getD k 0 + small)) := by
  refine ⟨_, _, C48_gaussian_value m1 v1 m2 v2 h1.le h2.le h3.le, C48_gaussian_value m2 v2 m1 v1 (by omega) (by omega) (by omega), ?_⟩
  rw [← h2, div_sub_div_same, ← Finset.sum_sub_distrib, Finset.mul_sum, Finset.sum_div]
  exact Finset.sum_congr rfl fun k _ => by ring

/-- A concrete pair for which the two orders differ. -/
theorem C48_gaussian_violation : gaussian [1] [1] [0] [1] ≠ gaussian [0] [1] [1] [1] := by
  intro h
  obtain ⟨d, e, h1, h2, h3⟩ := C48_gaussian_asymmetry [1] [1] [0] [1] rfl rfl rfl
  rw [h1, h2, Option.some.injEq] at h
  rw [h, sub_self] at h3
  have hs := small_pos
  simp at h3
  have : 0 < (1 + small)⁻¹ := by positivity
  rcases h3 with h3 | h3 <;> linarith

example : ∃ d, distribution [1/2, 1/2] [1/4, 3/4] true = some d ∧ 0 ≤ d ∧ (d = 0 ↔ ([1/2, 1/2] : List ℝ) = [1/4, 3/4]) :=
  C48_nonneg _ _ rfl (by simp) (by simp; norm_num)

end QM.Distance
