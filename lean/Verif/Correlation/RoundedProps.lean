import Verif.Correlation.Rounded

/-!
# C135: the autocorrelation in double precision
-/

namespace QM.Correlation

open QM.Double

variable {fl : ℝ → ℝ} (hfl : Rounds fl)

/-- The energies the theorems are about: anything but silence, and nothing that overflows. -/
def Audible (src : List ℝ) (n : Nat) : Prop := 1 / 2 ^ 1000 ≤ energy src n ∧ energy src n ≤ 2 ^ 1000

include hfl in
/-- **C135** In double precision too, `doAutoUnBiased` stays within its arrays, and every value is either positive and within `8 · 2^-53` times the energy of the block
of the mean product of the overlapping samples, or the floor, at a lag where that mean is not above this bound. The bound does not grow with the length. -/
theorem C135_value (src dst : List ℝ) (n : Nat) (hs : n ≤ src.length) (hd : dst.length = n) (hn : (n : ℝ) ≤ 2 ^ 40) (ha : Audible src n) :
    ∃ dst', doAutoUnBiasedF fl src dst n = some dst' ∧ dst'.length = n ∧ ∀ i : Nat, i < n → ∃ v, dst'[i]? = some v ∧
      ((0 < v ∧ |v - overlap src n i / ((n - i : Nat) : ℝ)| ≤ 8 * (energy src n / 2 ^ 53)) ∨
        (v = fl (22204 / 10 ^ 20) ∧ overlap src n i / ((n - i : Nat) : ℝ) ≤ 8 * (energy src n / 2 ^ 53))) := by
  obtain ⟨q, hq⟩ : ∃ q : Nat → ℝ, q = fun i => fl (flSum fl (fun j => fl (src.getD j 0 * src.getD (i + j) 0)) (n - i) / ((n - i : Nat) : ℝ)) := ⟨_, rfl⟩
  obtain ⟨d, h1, h2⟩ := fill_part (L := n) (new := fun i => if q i ≤ 0 then fl eps else q i)
    (holds_of_length hd 0) (f := fun i (dst : List ℝ) => do
      let tmp ← loop (n - i) (fun t (tmp : ℝ) => do
        let a ← src[i + t - i]?
        let b ← src[i + t]?
        pure (fl (tmp + fl (a * b)))) 0
      let outVal := fl (tmp / ((n - i : Nat) : ℝ))
      if outVal ≤ 0 then wr dst i (fl eps) else wr dst i outVal)
    (by
      intro i ys hi _
      rw [bind_ok (loop_flSum fl (n - i) _ (fun j => fl (src.getD j 0 * src.getD (i + j) 0))
        (by
          intro j acc hj
          rw [Nat.add_sub_cancel_left, get_getD src j 0 (by omega), get_getD src (i + j) 0 (by omega)]
          rfl))]
      rw [hq]
      dsimp only
      split_ifs <;> rfl)
  refine ⟨d, h1, h2.1, fun i hi => ⟨_, h2.2 i hi, ?_⟩⟩
  have h3 := quotient_near hfl src hi hn (scale_of _ ha.1 ha.2)
  have e : q i = fl (flSum fl (fun j => fl (src.getD j 0 * src.getD (i + j) 0)) (n - i) / ((n - i : Nat) : ℝ)) := by rw [hq]
  rw [← e] at h3
  dsimp only
  split_ifs with hc
  · refine Or.inr ⟨rfl, ?_⟩
    have := (abs_le.mp h3).1
    generalize 8 * (energy src n / 2 ^ 53) = E at *
    linarith
  · exact Or.inl ⟨not_le.mp hc, h3⟩

include hfl in
theorem floor_pos : 0 < fl (22204 / 10 ^ 20) := by
  have h := hfl (22204 / 10 ^ 20) (by
    rw [abs_of_pos (by norm_num)]
    exact le_trans (by norm_num : (22204 : ℝ) / 10 ^ 20 ≤ 1) (one_le_pow₀ (by norm_num)))
  rw [abs_of_pos (by norm_num : (0 : ℝ) < 22204 / 10 ^ 20)] at h
  have ht : (1 : ℝ) / 2 ^ 1075 ≤ 1 / 2 ^ 54 / 2 := by
    rw [div_div, show (2 : ℝ) ^ 54 * 2 = 2 ^ 55 by norm_num]
    exact one_div_le_one_div_of_le (by positivity) (pow_le_pow_right₀ (by norm_num) (by norm_num))
  have := (abs_le.mp h).1
  generalize (1 : ℝ) / 2 ^ 1075 = t at *
  norm_num at this ht ⊢
  linarith

include hfl in
/-- **C135** Every value is positive in double precision too. -/
theorem C135_positive (src dst : List ℝ) (n : Nat) (hs : n ≤ src.length) (hd : dst.length = n) (hn : (n : ℝ) ≤ 2 ^ 40) (ha : Audible src n) :
    ∃ dst', doAutoUnBiasedF fl src dst n = some dst' ∧ dst'.length = n ∧ ∀ x ∈ dst', 0 < x := by
  obtain ⟨d, h1, h2, h3⟩ := C135_value hfl src dst n hs hd hn ha
  refine ⟨d, h1, h2, fun x hx => ?_⟩
  obtain ⟨i, hi, e⟩ := List.getElem_of_mem hx
  obtain ⟨v, hv, hv'⟩ := h3 i (by omega)
  rw [List.getElem?_eq_getElem hi, e, Option.some.injEq] at hv
  rw [hv]
  rcases hv' with ⟨h, _⟩ | ⟨h, _⟩
  · exact h
  · rw [h]; exact floor_pos hfl

include hfl in
/-- **C135** At lag zero the value is the mean energy, off by at most `8 n` units in the last place of it; it is never the floor. -/
theorem C135_lag_zero (src dst : List ℝ) (n : Nat) (h1 : 1 ≤ n) (hs : n ≤ src.length) (hd : dst.length = n) (hn : (n : ℝ) ≤ 2 ^ 40) (ha : Audible src n) :
    ∃ dst' v, doAutoUnBiasedF fl src dst n = some dst' ∧ dst'[0]? = some v ∧ |v - energy src n / n| ≤ 8 * n / 2 ^ 53 * (energy src n / n) := by
  obtain ⟨d, e1, _, e3⟩ := C135_value hfl src dst n hs hd hn ha
  obtain ⟨v, hv, hv'⟩ := e3 0 (by omega)
  have hp : 0 < energy src n := lt_of_lt_of_le (by positivity) ha.1
  have hn0 : (0 : ℝ) < n := by exact_mod_cast h1
  have e : overlap src n 0 / ((n - 0 : Nat) : ℝ) = energy src n / n := by
    unfold overlap energy
    rw [Nat.sub_zero]
    congr 1
    exact Finset.sum_congr rfl fun j _ => by rw [Nat.zero_add, sq]
  rw [e] at hv'
  have e4 : 8 * (n : ℝ) / 2 ^ 53 * (energy src n / n) = 8 * (energy src n / 2 ^ 53) := by field_simp
  refine ⟨d, v, e1, hv, ?_⟩
  rw [e4]
  rcases hv' with ⟨_, h⟩ | ⟨_, h⟩
  · exact h
  · exfalso
    have hx : 0 < energy src n / n := by positivity
    have h5 : energy src n / 2 ^ 53 * 2 ^ 13 ≤ energy src n / n := by
      rw [le_div_iff₀ hn0]
      have : energy src n / 2 ^ 53 * 2 ^ 13 * n ≤ energy src n / 2 ^ 53 * 2 ^ 13 * 2 ^ 40 := mul_le_mul_of_nonneg_left hn (by positivity)
      refine this.trans (le_of_eq ?_)
      rw [mul_assoc, ← pow_add]
      exact div_mul_cancel₀ _ (by positivity)
    have h6 : 0 < energy src n / 2 ^ 53 := by positivity
    generalize energy src n / 2 ^ 53 = y at *
    norm_num at h5
    linarith

/-- The hypotheses are met, and the greatest value need not be at lag zero. -/
example : ∃ d v w, doAutoUnBiasedF rn [3, 0, 3] [0, 0, 0] 3 = some d ∧ d[0]? = some v ∧ d[2]? = some w ∧ |v - 6| ≤ 1 / 10 ^ 9 ∧ |w - 9| ≤ 1 / 10 ^ 9 := by
  have hE : energy [3, 0, 3] 3 = 18 := by norm_num [energy, Finset.sum_range_succ]
  have ha : Audible [3, 0, 3] 3 := by
    unfold Audible
    rw [hE]
    constructor
    · rw [div_le_iff₀ (by positivity)]
      have : (1 : ℝ) ≤ 2 ^ 1000 := one_le_pow₀ (by norm_num)
      generalize (2 : ℝ) ^ 1000 = P at *
      linarith
    · exact le_trans (by norm_num : (18 : ℝ) ≤ 2 ^ 5) (pow_le_pow_right₀ (by norm_num) (by norm_num))
  obtain ⟨d, e1, _, e3⟩ := C135_value rounds_rn [3, 0, 3] [0, 0, 0] 3 (by simp) (by simp) (by norm_num) ha
  obtain ⟨v, hv, hv'⟩ := e3 0 (by norm_num)
  obtain ⟨w, hw, hw'⟩ := e3 2 (by norm_num)
  have o0 : overlap ([3, 0, 3] : List ℝ) 3 0 = 18 := by norm_num [overlap, Finset.sum_range_succ]
  have o2 : overlap ([3, 0, 3] : List ℝ) 3 2 = 9 := by norm_num [overlap, Finset.sum_range_succ]
  rw [o0, hE] at hv'
  rw [o2, hE] at hw'
  refine ⟨d, v, w, e1, hv, hw, ?_, ?_⟩
  · rcases hv' with ⟨_, h⟩ | ⟨_, h⟩
    · norm_num at h ⊢; linarith
    · norm_num at h
  · rcases hw' with ⟨_, h⟩ | ⟨_, h⟩
    · norm_num at h ⊢; linarith
    · norm_num at h

end QM.Correlation
