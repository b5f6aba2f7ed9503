import Verif.KeyMode.Props

/-! Geometry of the correlation coefficient: two profiles that differ cannot both be close to the same chroma, and frames close to a
profile have a mean close to it. -/

namespace QM.KeyMode

/-- The sum of products of deviations from the mean. -/
noncomputable def dev (x y : Nat → ℝ) : ℝ := ∑ i ∈ Finset.range 36, (x i - avg 36 x) * (y i - avg 36 y)

theorem pearson_dev (x y : Nat → ℝ) : pearson 36 x y = dev x y / Real.sqrt (dev x x * dev y y) := by
  unfold pearson dev
  simp only [pow_two]

theorem dev_nonneg (x : Nat → ℝ) : 0 ≤ dev x x := Finset.sum_nonneg fun i _ => mul_self_nonneg _

theorem dev_comm (x y : Nat → ℝ) : dev x y = dev y x := Finset.sum_congr rfl fun i _ => mul_comm _ _

theorem avg_add (x y : Nat → ℝ) : avg 36 (fun i => x i + y i) = avg 36 x + avg 36 y := by
  unfold avg
  rw [Finset.sum_add_distrib, add_div]

theorem dev_add (x y z : Nat → ℝ) : dev (fun i => x i + y i) z = dev x z + dev y z := by
  unfold dev
  rw [avg_add, ← Finset.sum_add_distrib]
  exact Finset.sum_congr rfl fun i _ => by ring

theorem dev_cs (x y : Nat → ℝ) : dev x y ^ 2 ≤ dev x x * dev y y := by
  have := Finset.sum_mul_sq_le_sq_mul_sq (Finset.range 36) (fun i => x i - avg 36 x) (fun i => y i - avg 36 y)
  simp only [pow_two] at *
  exact this

/-- A chroma close to one profile is less close to any profile that differs from it. -/
theorem closer (x p q : Nat → ℝ) (hp : 0 < dev p p) (hq : 0 < dev q q) (hpq : pearson 36 p q ≤ 9 / 10)
    (hx : 39 / 40 < pearson 36 x p) : pearson 36 x q < pearson 36 x p := by
  by_contra hn
  rw [not_lt] at hn
  have hx0 : 0 < dev x x := by
    rcases (dev_nonneg x).lt_or_eq with h | h
    · exact h
    · rw [pearson_dev, ← h, zero_mul, Real.sqrt_zero, div_zero] at hx
      norm_num at hx
  rw [pearson_dev, Real.sqrt_mul (dev_nonneg _)] at hpq
  rw [pearson_dev x p, Real.sqrt_mul (dev_nonneg _)] at hx hn
  rw [pearson_dev x q, Real.sqrt_mul (dev_nonneg _)] at hn
  have hP := Real.sqrt_pos.mpr hp
  have hQ := Real.sqrt_pos.mpr hq
  have hX := Real.sqrt_pos.mpr hx0
  have eP := Real.sq_sqrt (dev_nonneg p)
  have eQ := Real.sq_sqrt (dev_nonneg q)
  have eX := Real.sq_sqrt (dev_nonneg x)
  have hcs := Finset.sum_mul_sq_le_sq_mul_sq (Finset.range 36) (fun i => x i - avg 36 x)
    (fun i => (p i - avg 36 p) / Real.sqrt (dev p p) + (q i - avg 36 q) / Real.sqrt (dev q q))
  have e1 : ∑ i ∈ Finset.range 36, (x i - avg 36 x) *
      ((p i - avg 36 p) / Real.sqrt (dev p p) + (q i - avg 36 q) / Real.sqrt (dev q q)) =
      dev x p / Real.sqrt (dev p p) + dev x q / Real.sqrt (dev q q) := by
    unfold dev
    rw [Finset.sum_div, Finset.sum_div, ← Finset.sum_add_distrib]
    exact Finset.sum_congr rfl fun i _ => by ring
  have e2 : ∑ i ∈ Finset.range 36, ((p i - avg 36 p) / Real.sqrt (dev p p) + (q i - avg 36 q) / Real.sqrt (dev q q)) ^ 2 =
      dev p p / Real.sqrt (dev p p) ^ 2 + 2 * (dev p q / (Real.sqrt (dev p p) * Real.sqrt (dev q q))) +
        dev q q / Real.sqrt (dev q q) ^ 2 := by
    generalize Real.sqrt (dev p p) = a
    generalize Real.sqrt (dev q q) = b
    unfold dev
    rw [Finset.sum_div, Finset.sum_div, Finset.sum_div, Finset.mul_sum, ← Finset.sum_add_distrib, ← Finset.sum_add_distrib]
    refine Finset.sum_congr rfl fun i _ => ?_
    ring
  have e3 : ∑ i ∈ Finset.range 36, (x i - avg 36 x) ^ 2 = Real.sqrt (dev x x) ^ 2 := by
    rw [eX]; unfold dev; exact Finset.sum_congr rfl fun i _ => pow_two _
  rw [e1, e2, e3, eP, eQ, div_self (ne_of_gt hp), div_self (ne_of_gt hq)] at hcs
  have f1 : dev x p / Real.sqrt (dev p p) = Real.sqrt (dev x x) * (dev x p / (Real.sqrt (dev x x) * Real.sqrt (dev p p))) := by
    field_simp
  have f2 : dev x q / Real.sqrt (dev q q) = Real.sqrt (dev x x) * (dev x q / (Real.sqrt (dev x x) * Real.sqrt (dev q q))) := by
    field_simp
  rw [f1, f2] at hcs
  generalize dev x p / (Real.sqrt (dev x x) * Real.sqrt (dev p p)) = a at *
  generalize dev x q / (Real.sqrt (dev x x) * Real.sqrt (dev q q)) = b at *
  generalize dev p q / (Real.sqrt (dev p p) * Real.sqrt (dev q q)) = c at *
  have h1 : (a + b) ^ 2 ≤ 2 + 2 * c := by
    have : Real.sqrt (dev x x) ^ 2 * (a + b) ^ 2 ≤ Real.sqrt (dev x x) ^ 2 * (2 + 2 * c) := by
      calc _ = (Real.sqrt (dev x x) * a + Real.sqrt (dev x x) * b) ^ 2 := by ring
        _ ≤ _ := hcs
        _ = _ := by ring
    exact le_of_mul_le_mul_left this (by positivity)
  nlinarith

/-! Sums of frames close to a profile. -/

theorem close_iff (x p : Nat → ℝ) (r : ℝ) (hp : 0 < dev p p) (hr : 0 < r) :
    r < pearson 36 x p ↔ r * (Real.sqrt (dev x x) * Real.sqrt (dev p p)) < dev x p := by
  rw [pearson_dev, Real.sqrt_mul (dev_nonneg _)]
  rcases (dev_nonneg x).lt_or_eq with h | h
  · rw [lt_div_iff₀ (mul_pos (Real.sqrt_pos.mpr h) (Real.sqrt_pos.mpr hp))]
  · have := dev_cs x p
    rw [← h, zero_mul] at this
    have h0 : dev x p = 0 := by nlinarith [sq_nonneg (dev x p)]
    rw [← h, h0, Real.sqrt_zero]
    simp [hr.le]

theorem sqrt_dev_add (x y : Nat → ℝ) :
    Real.sqrt (dev (fun i => x i + y i) (fun i => x i + y i)) ≤ Real.sqrt (dev x x) + Real.sqrt (dev y y) := by
  apply Real.sqrt_le_iff.mpr
  refine ⟨by positivity, ?_⟩
  rw [dev_add, dev_comm x, dev_comm y, dev_add, dev_add, dev_comm y x]
  have hx := Real.sq_sqrt (dev_nonneg x)
  have hy := Real.sq_sqrt (dev_nonneg y)
  have h : dev x y ≤ Real.sqrt (dev x x) * Real.sqrt (dev y y) := by
    rw [← Real.sqrt_mul (dev_nonneg _)]
    exact Real.le_sqrt_of_sq_le (dev_cs x y)
  nlinarith

theorem close_add (x y p : Nat → ℝ) (r : ℝ) (hp : 0 < dev p p) (hr : 0 < r) (hx : r < pearson 36 x p) (hy : r < pearson 36 y p) :
    r < pearson 36 (fun i => x i + y i) p := by
  rw [close_iff _ _ _ hp hr] at *
  rw [dev_add x y p]
  have h := mul_le_mul_of_nonneg_left (mul_le_mul_of_nonneg_right (sqrt_dev_add x y) (Real.sqrt_nonneg (dev p p))) hr.le
  refine h.trans_lt ?_
  calc _ = r * (Real.sqrt (dev x x) * Real.sqrt (dev p p)) + r * (Real.sqrt (dev y y) * Real.sqrt (dev p p)) := by ring
    _ < _ := add_lt_add hx hy

theorem close_sum (l : List (List ℝ)) (p : Nat → ℝ) (r : ℝ) (hp : 0 < dev p p) (hr : 0 < r) (hl : l ≠ [])
    (h : ∀ f ∈ l, r < pearson 36 (fun i => f.getD i 0) p) : r < pearson 36 (fun i => (l.map fun f => f.getD i 0).sum) p := by
  induction l with
  | nil => exact absurd rfl hl
  | cons f l ih =>
    by_cases he : l = []
    · subst he
      have := h f (by simp)
      simpa only [List.map_cons, List.map_nil, List.sum_cons, List.sum_nil, add_zero] using this
    · simp only [List.map_cons, List.sum_cons]
      exact close_add _ _ p r hp hr (h f (by simp)) (ih he fun g hg => h g (by simp [hg]))

theorem close_mean (cs : Nat) (hcs : 0 < cs) (hist : List (List ℝ)) (hh : hist ≠ []) (p : Nat → ℝ) (r : ℝ) (hp : 0 < dev p p)
    (hr : 0 < r) (h : ∀ f ∈ hist.drop (hist.length - cs), r < pearson 36 (fun i => f.getD i 0) p) :
    r < pearson 36 (meanChroma cs hist) p := by
  have hl : 0 < hist.length := List.length_pos_iff.mpr hh
  have hne : hist.drop (hist.length - cs) ≠ [] := by
    rw [← List.length_pos_iff, List.length_drop]
    omega
  have hm : (0 : ℝ) < (min hist.length cs : Nat) := by exact_mod_cast (by omega : 0 < min hist.length cs)
  have := C31_affine 36 (fun i => ((hist.drop (hist.length - cs)).map fun f => f.getD i 0).sum) p ((min hist.length cs : Nat) : ℝ)⁻¹ 0
    (inv_pos.mpr hm)
  have e : meanChroma cs hist = fun i => ((min hist.length cs : Nat) : ℝ)⁻¹ *
      ((hist.drop (hist.length - cs)).map fun f => f.getD i 0).sum + 0 := by
    funext i
    unfold meanChroma
    rw [add_zero, div_eq_inv_mul]
  rw [e, this]
  exact close_sum _ p r hp hr hne h

/-! The tables. -/

theorem dev_profile (t1 : List Int) (k1 : Nat) (t2 : List Int) (k2 : Nat) :
    dev (keyProfile t1 k1) (keyProfile t2 k2) = (cov36 t1 k1 t2 k2 : ℝ) / (36 * 10000 ^ 2) := cov_eq t1 k1 t2 k2

theorem table_apart : ∀ k, k < 36 → ∀ k', k' < 36 →
    (k' ≠ k → 10 * cov36 majTab k majTab k' ≤ 9 * cov36 majTab 0 majTab 0 ∧ 10 * cov36 minTab k minTab k' ≤ 9 * cov36 minTab 0 minTab 0) ∧
    (0 < cov36 majTab k minTab k' → 100 * cov36 majTab k minTab k' ^ 2 ≤ 81 * (cov36 majTab 0 majTab 0 * cov36 minTab 0 minTab 0)) := by
  decide +kernel

theorem dev_pos (tab : List Int) (htab : tab = majTab ∨ tab = minTab) (k : Nat) (hk : k < 36) :
    0 < dev (keyProfile tab k) (keyProfile tab k) := by
  rw [dev_profile]
  have : (0 : ℝ) < cov36 tab k tab k := by
    rcases htab with rfl | rfl
    · exact_mod_cast (table_var k hk).1.1
    · exact_mod_cast (table_var k hk).2.1
  positivity

/-- Profiles of one mode at different tunings correlate by at most 9/10. -/
theorem apart_same (tab : List Int) (htab : tab = majTab ∨ tab = minTab) (k k' : Nat) (hk : k < 36) (hk' : k' < 36) (hne : k' ≠ k) :
    pearson 36 (keyProfile tab k) (keyProfile tab k') ≤ 9 / 10 := by
  have hv : ∀ k, k < 36 → 0 < cov36 tab k tab k ∧ cov36 tab k tab k = cov36 tab 0 tab 0 := by
    rcases htab with rfl | rfl
    · exact fun k hk => (table_var k hk).1
    · exact fun k hk => (table_var k hk).2
  have h0 : (0 : ℝ) < cov36 tab 0 tab 0 := by exact_mod_cast (hv 0 (by omega)).1
  have hc : 10 * cov36 tab k tab k' ≤ 9 * cov36 tab 0 tab 0 := by
    rcases htab with rfl | rfl
    · exact ((table_apart k hk k' hk').1 hne).1
    · exact ((table_apart k hk k' hk').1 hne).2
  rw [pearson_profile, (hv k hk).2, (hv k' hk').2, Real.sqrt_mul_self (le_of_lt h0), div_le_iff₀ h0]
  have : (10 : ℝ) * cov36 tab k tab k' ≤ 9 * cov36 tab 0 tab 0 := by exact_mod_cast hc
  linarith

/-- A major and a minor profile correlate by at most 9/10. -/
theorem apart_cross (k k' : Nat) (hk : k < 36) (hk' : k' < 36) : pearson 36 (keyProfile majTab k) (keyProfile minTab k') ≤ 9 / 10 := by
  rw [pearson_profile, (table_var k hk).1.2, (table_var k' hk').2.2]
  have h1 : (0 : ℝ) < cov36 majTab 0 majTab 0 := by exact_mod_cast (table_var 0 (by omega)).1.1
  have h2 : (0 : ℝ) < cov36 minTab 0 minTab 0 := by exact_mod_cast (table_var 0 (by omega)).2.1
  have hs := Real.sqrt_pos.mpr (mul_pos h1 h2)
  rw [div_le_iff₀ hs]
  by_cases hp : 0 < cov36 majTab k minTab k'
  · have h := (table_apart k hk k' hk').2 hp
    have h' : (100 : ℝ) * cov36 majTab k minTab k' ^ 2 ≤ 81 * (cov36 majTab 0 majTab 0 * cov36 minTab 0 minTab 0) := by exact_mod_cast h
    have e := Real.sq_sqrt (mul_pos h1 h2).le
    rw [← e] at h'
    have hpr : (0 : ℝ) < cov36 majTab k minTab k' := by exact_mod_cast hp
    nlinarith
  · have : (cov36 majTab k minTab k' : ℝ) ≤ 0 := by exact_mod_cast not_lt.mp hp
    nlinarith

/-! The lower median of a list in which one value has the majority. -/

theorem median_majority (l : List Nat) (key m : Nat) (hm : IsLowerMedian l m) (hc : l.length < 2 * l.count key) : m = key := by
  obtain ⟨s, h1, h2, h3⟩ := hm
  rw [← h1.count_eq, ← h1.length_eq] at *
  obtain ⟨hlt, hge⟩ := List.getElem?_eq_some_iff.mp h3
  have hsplit : s = s.take ((s.length + 1) / 2 - 1) ++ m :: s.drop ((s.length + 1) / 2 - 1 + 1) := by
    rw [← hge, List.getElem_cons_drop, List.take_append_drop]
  by_contra hne
  have hcount : s.count key = (s.take ((s.length + 1) / 2 - 1)).count key + (s.drop ((s.length + 1) / 2 - 1 + 1)).count key := by
    conv_lhs => rw [hsplit]
    rw [List.count_append, List.count_cons_of_ne hne]
  have hT := List.count_le_length (a := key) (l := s.take ((s.length + 1) / 2 - 1))
  have hD := List.count_le_length (a := key) (l := s.drop ((s.length + 1) / 2 - 1 + 1))
  rw [List.length_take] at hT
  rw [List.length_drop] at hD
  rw [hsplit, List.pairwise_append] at h2
  obtain ⟨p1, p2, p3⟩ := h2
  rw [List.pairwise_cons] at p2
  rcases Nat.lt_or_gt_of_ne hne with h | h
  · have : (s.take ((s.length + 1) / 2 - 1)).count key = 0 := by
      rw [List.count_eq_zero]
      intro hk
      have := p3 key hk m (by simp)
      omega
    omega
  · have : (s.drop ((s.length + 1) / 2 - 1 + 1)).count key = 0 := by
      rw [List.count_eq_zero]
      intro hk
      have := p2.1 key hk
      omega
    omega

end QM.KeyMode
