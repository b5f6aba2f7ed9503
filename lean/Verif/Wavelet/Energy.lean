import Verif.Wavelet.BankLemmas
import Mathlib.Algebra.BigOperators.Finprod
import Mathlib.Tactic.LinearCombination

/-!
# The energy of the bands of a wavelet decomposition

Signals that are zero except at finitely many places, and sums over all integers.
-/

namespace QM.Wavelet

open Finset

/-! ## Specification -/

/-- The energy of a signal. -/
noncomputable def energy (x : ℤ → ℚ) : ℚ := ∑ᶠ n, x n ^ 2

/-- The energy of all bands when the low band is decomposed in turn, to `k` levels. -/
noncomputable def bandEnergy (l h : List ℚ) : Nat → (ℤ → ℚ) → ℚ
  | 0, x => energy x
  | k + 1, x => bandEnergy l h k (band l x) + energy (band h x)

/-! ## Sums over all integers -/

/-- The sign of `(-1)ⁿ`. -/
def sg (n : ℤ) : ℚ := if n % 2 = 0 then 1 else -1

theorem sg_add (m n : ℤ) : sg (m + n) = sg m * sg n := by
  unfold sg
  rcases Int.emod_two_eq_zero_or_one m with h1 | h1 <;> rcases Int.emod_two_eq_zero_or_one n with h2 | h2 <;>
    rcases Int.emod_two_eq_zero_or_one (m + n) with h3 | h3 <;> first | (exfalso; omega) | (rw [h1, h2, h3]; norm_num)

theorem sg_sq (n : ℤ) : sg n * sg n = 1 := by
  unfold sg; split_ifs <;> norm_num

theorem sg_neg (n : ℤ) : sg (-n) = sg n := by
  unfold sg
  rcases Int.emod_two_eq_zero_or_one n with h1 | h1 <;> rcases Int.emod_two_eq_zero_or_one (-n) with h2 | h2 <;>
    first | (exfalso; omega) | rw [h1, h2]

theorem sg_nat (n : Nat) : sg n = (-1) ^ n := by
  rw [neg_one_pow_ev]; unfold sg
  rcases Nat.mod_two_eq_zero_or_one n with h | h
  · rw [if_pos (by omega), if_pos h]
  · rw [if_neg (by omega), if_neg (by omega)]

theorem fin_of {x f : ℤ → ℚ} (hx : (Function.support x).Finite) (i : ℤ) (hf : ∀ n, x (n - i) = 0 → f n = 0) : (Function.support f).Finite := by
  refine (hx.preimage (f := fun n => n - i) (sub_left_injective.injOn)).subset fun n hn => ?_
  simp only [Set.mem_preimage, Function.mem_support] at hn ⊢
  exact fun h => hn (hf n h)

variable {x : ℤ → ℚ}

/-- Products of a signal with itself moved. -/
noncomputable def selfCorr (x : ℤ → ℚ) (d : ℤ) : ℚ := ∑ᶠ n, x n * x (n + d)

/-- The same with alternating signs. -/
noncomputable def altCorr (x : ℤ → ℚ) (d : ℤ) : ℚ := ∑ᶠ n, sg n * (x n * x (n + d))

theorem energy_eq (x : ℤ → ℚ) : energy x = selfCorr x 0 := by
  unfold energy selfCorr
  exact finsum_congr fun n => by rw [add_zero, sq]

theorem shift_self (x : ℤ → ℚ) (i j : ℤ) : ∑ᶠ n, x (n - i) * x (n - j) = selfCorr x (i - j) := by
  unfold selfCorr
  rw [← finsum_comp_equiv (Equiv.addRight i)]
  exact finsum_congr fun n => by
    simp only [Equiv.coe_addRight]
    rw [show n + i - i = n by ring, show n + i - j = n + (i - j) by ring]

theorem shift_alt (x : ℤ → ℚ) (i j : ℤ) : ∑ᶠ n, sg n * (x (n - i) * x (n - j)) = sg i * altCorr x (i - j) := by
  unfold altCorr
  rw [mul_finsum, ← finsum_comp_equiv (Equiv.addRight i)]
  exact finsum_congr fun n => by
    simp only [Equiv.coe_addRight]
    rw [show n + i - i = n by ring, show n + i - j = n + (i - j) by ring, sg_add]
    ring

theorem self_neg (x : ℤ → ℚ) (d : ℤ) : selfCorr x (-d) = selfCorr x d := by
  unfold selfCorr
  rw [← finsum_comp_equiv (Equiv.addRight d)]
  exact finsum_congr fun n => by
    simp only [Equiv.coe_addRight]
    rw [show n + d + -d = n by ring, mul_comm]

theorem alt_neg (x : ℤ → ℚ) (d : ℤ) : altCorr x (-d) = sg d * altCorr x d := by
  unfold altCorr
  rw [mul_finsum, ← finsum_comp_equiv (Equiv.addRight d)]
  exact finsum_congr fun n => by
    simp only [Equiv.coe_addRight]
    rw [show n + d + -d = n by ring, sg_add]
    ring

theorem energy_nonneg (x : ℤ → ℚ) : 0 ≤ energy x := finsum_nonneg fun _ => sq_nonneg _

theorem self_le (hx : (Function.support x).Finite) (d : ℤ) : |selfCorr x d| ≤ energy x := by
  have hsh : ∑ᶠ n, x (n + d) ^ 2 = energy x := by
    unfold energy
    rw [← finsum_comp_equiv (Equiv.addRight d) (f := fun n => x n ^ 2)]
    rfl
  have f1 : (Function.support fun n => x n ^ 2).Finite := fin_of hx 0 fun n h => by rw [sub_zero] at h; rw [h]; norm_num
  have f2 : (Function.support fun n => x (n + d) ^ 2).Finite := fin_of hx (-d) fun n h => by rw [sub_neg_eq_add] at h; rw [h]; norm_num
  have f3 : ∀ c : ℚ, (Function.support fun n => c * (x n * x (n + d))).Finite := fun c => fin_of hx 0 fun n h => by rw [sub_zero] at h; rw [h]; norm_num
  have key : ∀ c : ℚ, c ^ 2 = 1 → 0 ≤ energy x + energy x + 2 * c * selfCorr x d := by
    intro c hc
    have h1 : ∑ᶠ n, (x n + c * x (n + d)) ^ 2 = energy x + energy x + 2 * c * selfCorr x d := by
      nth_rw 2 [← hsh]
      unfold energy selfCorr
      rw [mul_finsum, ← finsum_add_distrib f1 f2, ← finsum_add_distrib (fin_of hx 0 ?_ |>.union f2 |>.subset ?_) (f3 _)]
      · exact finsum_congr fun n => by linear_combination x (n + d) ^ 2 * hc
      · exact fun n => x n ^ 2
      · intro n h; rw [sub_zero] at h; rw [h]; norm_num
      · exact Function.support_add _ _
    rw [← h1]
    exact finsum_nonneg fun _ => sq_nonneg _
  rw [abs_le]
  have k1 := key 1 (by norm_num)
  have k2 := key (-1) (by norm_num)
  constructor <;> linarith

/-- The square of a filtered signal, with weights. -/
theorem quad (hx : (Function.support x).Finite) (u : ℤ → ℚ) (c : Nat → ℚ) (N : Nat) :
    ∑ᶠ n, u n * (∑ i ∈ range N, c i * x (n - i)) ^ 2 = ∑ i ∈ range N, ∑ j ∈ range N, c i * c j * ∑ᶠ n, u n * (x (n - i) * x (n - j)) := by
  have h1 : ∀ n, u n * (∑ i ∈ range N, c i * x (n - i)) ^ 2 = ∑ i ∈ range N, ∑ j ∈ range N, c i * c j * (u n * (x (n - i) * x (n - j))) := by
    intro n
    rw [sq, sum_mul_sum, mul_sum]
    refine sum_congr rfl fun i _ => ?_
    rw [mul_sum]
    exact sum_congr rfl fun j _ => by ring
  rw [finsum_congr h1]
  refine (finsum_sum_comm (range N) (fun n i => ∑ j ∈ range N, c i * c j * (u n * (x (n - i) * x (n - j)))) fun i _ => fin_of hx i fun n h => by simp [h]).trans ?_
  refine sum_congr rfl fun i _ => ?_
  refine (finsum_sum_comm (range N) (fun n j => c i * c j * (u n * (x (n - i) * x (n - j)))) fun j _ => fin_of hx i fun n h => by simp [h]).trans ?_
  exact sum_congr rfl fun j _ => by rw [mul_finsum]

theorem even_part {g : ℤ → ℚ} (hg : (Function.support g).Finite) : ∑ᶠ k, g (2 * k) = (∑ᶠ n, g n + ∑ᶠ n, sg n * g n) / 2 := by
  have f2 : (Function.support fun n => sg n * g n).Finite := fin_of hg 0 fun n h => by rw [sub_zero] at h; rw [h, mul_zero]
  rw [← finsum_mem_range (g := fun k : ℤ => 2 * k) (f := g) (fun a b h => by dsimp only at h; omega), finsum_mem_def, ← finsum_add_distrib hg f2, div_eq_mul_inv, finsum_mul]
  refine finsum_congr fun n => ?_
  unfold sg
  by_cases hn : n % 2 = 0
  · rw [Set.indicator_of_mem (show n ∈ Set.range fun k : ℤ => 2 * k from ⟨n / 2, by dsimp only; omega⟩), if_pos hn]
    ring
  · rw [Set.indicator_of_notMem (by rintro ⟨k, hk⟩; dsimp only at hk; omega), if_neg hn]
    ring

theorem band_support (f : List ℚ) (hx : (Function.support x).Finite) : (Function.support fun n => ∑ i ∈ range f.length, f.getD i 0 * x (n - i)).Finite := by
  refine Set.Finite.subset (Set.Finite.biUnion (range f.length).finite_toSet fun i _ => fin_of (f := fun n => f.getD i 0 * x (n - i)) hx i fun n h => by rw [h, mul_zero]) ?_
  intro n hn
  simp only [Function.mem_support] at hn
  obtain ⟨i, hi, h⟩ := exists_ne_zero_of_sum_ne_zero hn
  exact Set.mem_biUnion (by exact_mod_cast hi) h

theorem band_finite (f : List ℚ) (hx : (Function.support x).Finite) : (Function.support (band f x)).Finite := by
  refine ((band_support f hx).preimage (f := fun k : ℤ => 2 * k) (fun a _ b _ h => by dsimp only at h; omega)).subset fun k hk => ?_
  exact hk

theorem energy_band (f : List ℚ) (hx : (Function.support x).Finite) : energy (band f x) =
    (∑ i ∈ range f.length, ∑ j ∈ range f.length, f.getD i 0 * f.getD j 0 * selfCorr x (i - j) +
      ∑ i ∈ range f.length, ∑ j ∈ range f.length, f.getD i 0 * f.getD j 0 * (sg i * altCorr x (i - j))) / 2 := by
  have h0 : energy (band f x) = ∑ᶠ k : ℤ, (fun n : ℤ => (∑ i ∈ range f.length, f.getD i 0 * x (n - i)) ^ 2) (2 * k) := rfl
  have q1 := quad hx (fun _ => 1) (fun i => f.getD i 0) f.length
  have q2 := quad hx sg (fun i => f.getD i 0) f.length
  simp only [one_mul, shift_self] at q1
  simp only [shift_alt] at q2
  have hs : (Function.support fun n : ℤ => (∑ i ∈ range f.length, f.getD i 0 * x (n - i)) ^ 2).Finite := by
    refine (band_support f hx).subset fun n hn => ?_
    simp only [Function.mem_support] at hn ⊢
    exact fun h => hn (by rw [h]; norm_num)
  rw [h0, ← q1, ← q2]
  exact even_part hs

/-! ## The two bands of an orthogonal pair of filters -/

theorem reflect2 (N : Nat) (F : Nat → Nat → ℚ) : ∑ i ∈ range N, ∑ j ∈ range N, F i j = ∑ i ∈ range N, ∑ j ∈ range N, F (N - 1 - i) (N - 1 - j) := by
  rw [← sum_range_reflect (fun i => ∑ j ∈ range N, F i j)]
  exact sum_congr rfl fun i _ => (sum_range_reflect (fun j => F (N - 1 - i) j) N).symm

theorem cast_back {N i : Nat} (hi : i < N) : ((N - 1 - i : Nat) : ℤ) = N - 1 - i := by omega

/-- When the second filter is the first one reversed with alternating signs, only even shifts of the signal against itself are left. -/
theorem energy_pair {l h : List ℚ} (hlen : h.length = l.length) (hev : l.length % 2 = 0) (hm : ∀ i, i < l.length → h.getD (l.length - 1 - i) 0 = sg i * l.getD i 0)
    (hx : (Function.support x).Finite) : energy (band l x) + energy (band h x) =
      ∑ i ∈ range l.length, ∑ j ∈ range l.length, (1 + sg (i - j)) / 2 * (l.getD i 0 * l.getD j 0) * selfCorr x (i - j) := by
  rw [energy_band l hx, energy_band h hx, hlen, reflect2 l.length (fun i j => h.getD i 0 * h.getD j 0 * selfCorr x (i - j)),
    reflect2 l.length (fun i j => h.getD i 0 * h.getD j 0 * (sg i * altCorr x (i - j))), ← sum_add_distrib, ← sum_add_distrib, ← add_div, ← sum_add_distrib, sum_div]
  refine sum_congr rfl fun i hi => ?_
  rw [← sum_add_distrib, ← sum_add_distrib, ← sum_add_distrib, sum_div]
  refine sum_congr rfl fun j hj => ?_
  rw [mem_range] at hi hj
  have e1 : ((l.length : ℤ) - 1 - i) - (l.length - 1 - j) = -(i - j) := by ring
  have e2 : sg ((l.length : ℤ) - 1 - i) = - sg i := by
    unfold sg
    rcases Nat.mod_two_eq_zero_or_one i with h' | h'
    · rw [if_neg (by omega), if_pos (by omega)]
    · rw [if_pos (by omega), if_neg (by omega), neg_neg]
  have e3 : sg ((i : ℤ) - j) = sg i * sg j := by rw [sub_eq_add_neg, sg_add, sg_neg]
  rw [hm i hi, hm j hj, cast_back hi, cast_back hj, e1, e2, self_neg, alt_neg, e3]
  linear_combination (-(l.getD i 0 * l.getD j 0 * sg j * sg j * sg i * altCorr x (i - j)) / 2) * sg_sq i - (l.getD i 0 * l.getD j 0 * sg i * altCorr x (i - j) / 2) * sg_sq j

theorem corr_short (l : List ℚ) (t : Nat) : ∑ k ∈ range (l.length - t), l.getD (k + t) 0 * l.getD k 0 = corr l l t := by
  unfold corr
  rw [← sum_subset (range_subset_range.mpr (Nat.sub_le l.length t))]
  · exact sum_congr rfl fun k _ => mul_comm _ _
  · intro k _ hk
    rw [mem_range] at hk
    rw [getD_out (k := k + t) (by omega), mul_zero]

/-- The energy of the two bands, by shifts. -/
theorem energy_shifts {l h : List ℚ} (hlen : h.length = l.length) (hev : l.length % 2 = 0) (hm : ∀ i, i < l.length → h.getD (l.length - 1 - i) 0 = sg i * l.getD i 0)
    (hx : (Function.support x).Finite) : energy (band l x) + energy (band h x) =
      ∑ t ∈ range l.length, (1 + sg t) / 2 * corr l l t * selfCorr x t + ∑ t ∈ range l.length, (1 + sg (t + 1)) / 2 * corr l l (t + 1) * selfCorr x (t + 1) := by
  rw [energy_pair hlen hev hm hx, diagonals]
  congr 1
  · refine sum_congr rfl fun t _ => ?_
    rw [← corr_short, mul_sum, sum_mul]
    refine sum_congr rfl fun k _ => ?_
    rw [show ((k + t : Nat) : ℤ) - k = t by push_cast; ring]
  · refine sum_congr rfl fun t _ => ?_
    rw [← corr_short, mul_sum, sum_mul]
    refine sum_congr rfl fun k _ => ?_
    rw [show (k : ℤ) - ((k + (t + 1) : Nat) : ℤ) = -(t + 1) by push_cast; ring, self_neg, sg_neg]
    ring

theorem energy_defect {l h : List ℚ} (h0 : 0 < l.length) (hlen : h.length = l.length) (hev : l.length % 2 = 0) (hm : ∀ i, i < l.length → h.getD (l.length - 1 - i) 0 = sg i * l.getD i 0)
    (hx : (Function.support x).Finite) : |energy (band l x) + energy (band h x) - energy x| ≤
      (∑ s ∈ range l.length, if s % 2 = 0 then |corr l l s - if s = 0 then 1 else 0| else |corr l l (s + 1)|) * energy x := by
  have h1 : energy (band l x) + energy (band h x) - energy x =
      ∑ s ∈ range l.length, if s % 2 = 0 then (corr l l s - if s = 0 then 1 else 0) * selfCorr x s else corr l l (s + 1) * selfCorr x (s + 1) := by
    have h2 : energy x = ∑ s ∈ range l.length, if s = 0 then selfCorr x s else 0 := by
      rw [sum_ite_eq' (range l.length) 0 fun s => selfCorr x s, if_pos (mem_range.mpr h0), energy_eq]; rfl
    rw [energy_shifts hlen hev hm hx, h2, ← sum_add_distrib, ← sum_sub_distrib]
    refine sum_congr rfl fun s _ => ?_
    unfold sg
    rcases Nat.mod_two_eq_zero_or_one s with h' | h'
    · rw [if_pos (show (s : ℤ) % 2 = 0 by omega), if_neg (show ¬ ((s : ℤ) + 1) % 2 = 0 by omega), if_pos h']
      split_ifs <;> ring
    · rw [if_neg (show ¬ (s : ℤ) % 2 = 0 by omega), if_pos (show ((s : ℤ) + 1) % 2 = 0 by omega), if_neg (show ¬ s % 2 = 0 by omega), if_neg (show ¬ s = 0 by omega)]
      ring
  rw [h1, sum_mul]
  refine (abs_sum_le_sum_abs _ _).trans (sum_le_sum fun s _ => ?_)
  split_ifs <;> rw [abs_mul] <;> exact mul_le_mul_of_nonneg_left (self_le hx _) (abs_nonneg _)

end QM.Wavelet
