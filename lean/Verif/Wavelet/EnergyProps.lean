import Verif.Wavelet.Energy

/-!
# C131: orthogonal wavelets keep the energy of a signal
-/

namespace QM.Wavelet

open Finset

/-! ## Specification -/

/-- What the digits of the table cost: 27 millionths for the longest Daubechies filter, 6 millionths for Meyer's, else 4 in 10⁸. -/
def energyLoss (t : WType) : ℚ := match t with
  | .Daubechies_40 => 27 / 10 ^ 6
  | .Meyer => 6 / 10 ^ 6
  | _ => 4 / 10 ^ 8

/-! ## Checking the table -/

/-- The products of the low-pass filter with itself at even shifts, less the one they should give, in units of 10⁻²⁸. -/
def energyDefect (t : WType) : Nat :=
  ((List.range (low t).length).map fun s => if s % 2 = 0 then (auto (low t) s - if s = 0 then 10 ^ 28 else 0).natAbs else (auto (low t) (s + 1)).natAbs).sum

theorem energy_table : WType.all.all (fun t => !(Orthogonal t) || decide (energyDefect t ≤ match t with
    | .Daubechies_40 => 27 * 10 ^ 22
    | .Meyer => 6 * 10 ^ 22
    | _ => 4 * 10 ^ 20)) = true := by decide +kernel

theorem table_sum (t : WType) : ∑ s ∈ range (low t).length, (if s % 2 = 0 then
      |corr ((low t).map (fun c : Int => (c : ℚ) / 10 ^ 14)) ((low t).map (fun c : Int => (c : ℚ) / 10 ^ 14)) s - if s = 0 then 1 else 0|
      else |corr ((low t).map (fun c : Int => (c : ℚ) / 10 ^ 14)) ((low t).map (fun c : Int => (c : ℚ) / 10 ^ 14)) (s + 1)|) = (energyDefect t : ℚ) / 10 ^ 28 := by
  have hp : (0 : ℚ) < 10 ^ 28 := by norm_num
  have hl : ∀ (n : Nat) (f : Nat → Nat), (((List.range n).map f).sum : Nat) = ∑ s ∈ range n, f s := fun n f => by
    induction n with
    | zero => rfl
    | succ n ih => rw [List.range_succ, List.map_append, List.sum_append, ih, sum_range_succ]; simp
  unfold energyDefect
  rw [hl, Nat.cast_sum, sum_div]
  refine sum_congr rfl fun s _ => ?_
  rw [zip_corr, zip_corr]
  by_cases h : s % 2 = 0
  · rw [if_pos h, if_pos h, Nat.cast_natAbs, Int.cast_abs, ← abs_of_pos hp, ← abs_div, abs_of_pos hp]
    congr 1
    split_ifs <;> push_cast <;> ring
  · rw [if_neg h, if_neg h, Nat.cast_natAbs, Int.cast_abs, abs_div, abs_of_pos hp]

variable {t : WType} {l0 h0 l h : List ℚ} {x : ℤ → ℚ}

/-- **C131** The two bands of a signal, filtered with the filters of an orthogonal wavelet, have together the energy of the signal, but for the digits
of the table. -/
theorem C131_energy (ht : Orthogonal t = true) (hc : createDecompositionFilters t l0 h0 = some (l, h)) (hx : (Function.support x).Finite) :
    |energy (band l x) + energy (band h x) - energy x| ≤ energyLoss t * energy x := by
  have hlen := forall_types lengths_table t
  simp only [decide_eq_true_eq] at hlen
  have hmir := C53_mirror t ht l0 h0 l h hc
  rw [create_eq] at hc
  obtain ⟨rfl, rfl⟩ : (low t).map (fun c : Int => (c : ℚ) / 10 ^ 14) = l ∧ (high t).map (fun c : Int => (c : ℚ) / 10 ^ 14) = h := by simpa using hc
  have hL : ((low t).map (fun c : Int => (c : ℚ) / 10 ^ 14)).length = flength t := by rw [List.length_map]; exact hlen.1.symm
  have hH : ((high t).map (fun c : Int => (c : ℚ) / 10 ^ 14)).length = flength t := by rw [List.length_map]; exact hlen.2.1.symm
  rw [hL] at hmir
  refine (energy_defect (by rw [hL]; omega) (by rw [hL, hH]) (by rw [hL]; omega) ?_ hx).trans (mul_le_mul_of_nonneg_right ?_ (energy_nonneg x))
  · intro i hi
    rw [hL] at hi ⊢
    have h1 := hmir (flength t - 1 - i) (by omega)
    rw [show flength t - 1 - (flength t - 1 - i) = i by omega] at h1
    rw [List.getD_eq_getElem?_getD, h1, List.getD_eq_getElem?_getD, List.getElem?_eq_getElem (by rw [hL]; exact hi), Option.map_some, Option.getD_some, Option.getD_some,
      sg_nat, neg_one_pow_ev, neg_one_pow_ev]
    rcases Nat.mod_two_eq_zero_or_one i with h' | h'
    · rw [if_neg (by omega), if_pos h']; ring
    · rw [if_pos (by omega), if_neg (by omega)]
  · rw [List.length_map, table_sum, div_le_iff₀ (by norm_num)]
    have hT := forall_types energy_table t
    rw [ht, Bool.not_true, Bool.false_or, decide_eq_true_eq] at hT
    refine (Nat.cast_le.mpr hT).trans ?_
    unfold energyLoss
    cases t <;> norm_num

theorem loss_nonneg (t : WType) : 0 ≤ energyLoss t := by unfold energyLoss; cases t <;> norm_num

theorem loss_lt (t : WType) : energyLoss t < 1 := by unfold energyLoss; cases t <;> norm_num

/-- **C131** All the bands of a decomposition into `k` levels have together the energy of the signal, but for `k` times the digits of the table. -/
theorem C131_levels (ht : Orthogonal t = true) (hc : createDecompositionFilters t l0 h0 = some (l, h)) (k : Nat) (hx : (Function.support x).Finite) :
    (1 - energyLoss t) ^ k * energy x ≤ bandEnergy l h k x ∧ bandEnergy l h k x ≤ (1 + energyLoss t) ^ k * energy x := by
  have hn := loss_nonneg t
  have hlt := loss_lt t
  induction k generalizing x with
  | zero => simp [bandEnergy]
  | succ k ih =>
    have h1 := abs_le.mp (C131_energy ht hc hx)
    obtain ⟨i1, i2⟩ := ih (band_finite l hx)
    have e1 := energy_nonneg (band h x)
    have e2 := energy_nonneg (band l x)
    have p1 : (1 - energyLoss t) ^ k ≤ 1 := pow_le_one₀ (by linarith) (by linarith)
    have p2 : 1 ≤ (1 + energyLoss t) ^ k := one_le_pow₀ (by linarith)
    have p3 : 0 ≤ (1 - energyLoss t) ^ k := pow_nonneg (by linarith) _
    constructor
    · calc (1 - energyLoss t) ^ (k + 1) * energy x = (1 - energyLoss t) ^ k * ((1 - energyLoss t) * energy x) := by ring
        _ ≤ (1 - energyLoss t) ^ k * (energy (band l x) + energy (band h x)) := mul_le_mul_of_nonneg_left (by linarith) p3
        _ = (1 - energyLoss t) ^ k * energy (band l x) + (1 - energyLoss t) ^ k * energy (band h x) := by ring
        _ ≤ bandEnergy l h k (band l x) + energy (band h x) := add_le_add i1 (mul_le_of_le_one_left e1 p1)
    · calc bandEnergy l h k (band l x) + energy (band h x) ≤ (1 + energyLoss t) ^ k * energy (band l x) + (1 + energyLoss t) ^ k * energy (band h x) :=
            add_le_add i2 (le_mul_of_one_le_left e1 p2)
        _ = (1 + energyLoss t) ^ k * (energy (band l x) + energy (band h x)) := by ring
        _ ≤ (1 + energyLoss t) ^ k * ((1 + energyLoss t) * energy x) := mul_le_mul_of_nonneg_left (by linarith) (by linarith)
        _ = (1 + energyLoss t) ^ (k + 1) * energy x := by ring

/-- **C131** No band has more energy than the signal, but for the digits of the table. -/
theorem C131_band (ht : Orthogonal t = true) (hc : createDecompositionFilters t l0 h0 = some (l, h)) (hx : (Function.support x).Finite) :
    energy (band l x) ≤ (1 + energyLoss t) * energy x ∧ energy (band h x) ≤ (1 + energyLoss t) * energy x := by
  have h1 := abs_le.mp (C131_energy ht hc hx)
  have e1 := energy_nonneg (band h x)
  have e2 := energy_nonneg (band l x)
  constructor <;> linarith

/-- The signal that is one at the origin. -/
def impulse (n : ℤ) : ℚ := if n = 0 then 1 else 0

theorem impulse_finite : (Function.support impulse).Finite :=
  (Set.finite_singleton (0 : ℤ)).subset fun n hn => by
    by_contra h
    exact hn (if_neg h)

theorem impulse_energy : energy impulse = 1 := by
  unfold energy
  rw [finsum_eq_single _ 0 fun n hn => by unfold impulse; rw [if_neg hn]; norm_num]
  norm_num [impulse]

/-- An impulse has energy one, and so has its decomposition by Haar's wavelet into two levels, nearly. -/
example : ∃ l h, createDecompositionFilters .Haar [] [] = some (l, h) ∧ bandEnergy l h 2 impulse ≤ (1 + 4 / 10 ^ 8) ^ 2 ∧ (1 - 4 / 10 ^ 8) ^ 2 ≤ bandEnergy l h 2 impulse := by
  obtain ⟨l, h, hc, -⟩ := C53_lengths .Haar [] []
  have h1 := C131_levels rfl hc 2 impulse_finite
  rw [impulse_energy, mul_one, mul_one] at h1
  exact ⟨l, h, hc, h1.2, h1.1⟩

theorem impulse_band (f : List ℚ) : energy (band f impulse) = ∑ i ∈ range f.length, if i % 2 = 0 then f.getD i 0 ^ 2 else 0 := by
  have c1 : ∀ d : ℤ, selfCorr impulse d = if d = 0 then 1 else 0 := fun d => by
    unfold selfCorr
    rw [finsum_eq_single _ 0 fun n hn => by unfold impulse; rw [if_neg hn, zero_mul]]
    simp [impulse]
  have c2 : ∀ d : ℤ, altCorr impulse d = if d = 0 then 1 else 0 := fun d => by
    unfold altCorr
    rw [finsum_eq_single _ 0 fun n hn => by unfold impulse; rw [if_neg hn, zero_mul, mul_zero]]
    simp [impulse, sg]
  rw [energy_band f impulse_finite, ← sum_add_distrib, sum_div]
  refine sum_congr rfl fun i hi => ?_
  rw [← sum_add_distrib, sum_eq_single i]
  · rw [sub_self, c1, c2, if_pos rfl]
    unfold sg
    rcases Nat.mod_two_eq_zero_or_one i with h' | h'
    · rw [if_pos (by omega), if_pos h']; ring
    · rw [if_neg (by omega), if_neg (by omega)]; ring
  · intro j _ hj
    rw [c1, c2, if_neg (by omega)]; ring
  · exact fun hn => absurd hi hn

/-- **C131** The biorthogonal wavelets do not keep energy: with `Biorthogonal_3_1` an impulse of energy one has bands of energy 1.56. -/
theorem C131_biorthogonal_violation : ∃ l h, createDecompositionFilters .Biorthogonal_3_1 [] [] = some (l, h) ∧ (Function.support impulse).Finite ∧ energy impulse = 1 ∧
    156 / 100 < energy (band l impulse) + energy (band h impulse) := by
  refine ⟨_, _, create_eq _ _ _, impulse_finite, impulse_energy, ?_⟩
  rw [impulse_band, impulse_band]
  norm_num [low, high, sum_range_succ]

end QM.Wavelet
