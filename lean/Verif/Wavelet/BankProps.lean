import Verif.Wavelet.BankLemmas

namespace QM.Wavelet

open Finset

/-- How far a reconstructed signal may be from the original, for signals between -1 and 1. -/
def precision (t : WType) : ℚ := if t = .Daubechies_40 then 27 / 10 ^ 6 else if t = .Meyer then 6 / 10 ^ 6 else 4 / 10 ^ 8

/-- The sum of absolute values. -/
def absSum (xs : List Int) : Nat := (xs.map Int.natAbs).sum

/-- The sum of the absolute values at the places with the parity of `p`. -/
def paritySum (xs : List Int) (p : Nat) : Nat := ((List.range xs.length).map fun j => if (p + j) % 2 = 0 then (xs.getD j 0).natAbs else 0).sum

theorem size_table : WType.all.all (fun t => decide (absSum (low t) ≤ 3725 * 10 ^ 11 ∧ paritySum (high t) 0 ≤ 2128 * 10 ^ 11 ∧ paritySum (high t) 1 ≤ 2128 * 10 ^ 11)) = true := by
  decide +kernel

variable {t : WType} {l0 h0 l h : List ℚ} {x : ℤ → ℚ} {B : ℚ}

/-- **C117** A signal that is decomposed with the two filters of a wavelet and reconstructed comes back, as late as a filter is long less one and
up to the precision of the table: for each of the 43 types, orthogonal or not. -/
theorem C117_reconstruct (hc : createDecompositionFilters t l0 h0 = some (l, h)) (hx : ∀ n, |x n| ≤ B) (n : ℤ) :
    |roundTrip l h x n - x (n - (l.length - 1 : ℕ))| ≤ precision t * B := by
  have hlen := forall_types lengths_table t
  simp only [decide_eq_true_eq] at hlen
  rw [create_eq] at hc
  obtain ⟨hl, hh⟩ : l = (low t).map (fun c : Int => (c : ℚ) / 10 ^ 14) ∧ h = (high t).map (fun c : Int => (c : ℚ) / 10 ^ 14) := by
    simpa [eq_comm] using hc
  have hl' : l.length = flength t := by rw [hl, List.length_map]; exact hlen.1.symm
  have hh' : h.length = flength t := by rw [hh, List.length_map]; exact hlen.2.1.symm
  have hB : 0 ≤ B := (abs_nonneg _).trans (hx 0)
  have hpos : 0 < flength t := by omega
  rw [roundTrip_taps hl' hh' hlen.2.2.1, hl']
  generalize hN : flength t = N at *
  have e1 : x (n - (N - 1 : ℕ)) = ∑ s ∈ range N, (if s = 0 then 1 else 0) * x (n - (N - 1 : ℕ) - s) := by
    rw [sum_eq_single_of_mem 0 (mem_range.mpr hpos) fun s _ h => by rw [if_neg h, zero_mul]]
    simp
  have b1 : |∑ s ∈ range N, (if s % 2 = 0 then ∑ k ∈ range (N - s), h.getD (N - 1 - k) 0 * ((-1) ^ (k + s) * l.getD (k + s) 0) else 0) * x (n - (N - 1 : ℕ) - s) - x (n - (N - 1 : ℕ))| ≤
      ∑ s ∈ range N, ((if s % 2 = 0 then (cross (high t).reverse (altPos (low t)) s - if s = 0 then 10 ^ 28 else 0).natAbs else 0 : ℕ) : ℚ) / 10 ^ 28 * B := by
    rw [e1, ← sum_sub_distrib]
    refine (abs_sum_le_sum_abs _ _).trans (sum_le_sum fun s hs => ?_)
    rw [← sub_mul, abs_mul]
    refine mul_le_mul ?_ (hx _) (abs_nonneg _) (by positivity)
    split
    · have := (taps t hl hh s (by rw [hN]; exact mem_range.mp hs)).1
      rw [hN] at this
      rw [this, Nat.cast_natAbs]
      refine le_of_eq ?_
      rw [show (cross (high t).reverse (altPos (low t)) s : ℚ) / 10 ^ 28 - (if s = 0 then 1 else 0) =
        ((cross (high t).reverse (altPos (low t)) s - if s = 0 then 10 ^ 28 else 0 : Int) : ℚ) / 10 ^ 28 by split_ifs <;> push_cast <;> ring, abs_div,
        abs_of_pos (show (0 : ℚ) < 10 ^ 28 by norm_num), Int.cast_abs]
    · rename_i hs0
      rw [if_neg (by omega)]
      norm_num
  have b2 : |∑ s ∈ range N, (if s % 2 = 1 then ∑ j ∈ range (N - (s + 1)), (-1) ^ j * l.getD j 0 * h.getD (N - 1 - (j + (s + 1))) 0 else 0) * x (n - (N - 1 : ℕ) + (s + 1))| ≤
      ∑ s ∈ range N, ((if s % 2 = 1 then (cross (altPos (low t)) (high t).reverse (s + 1)).natAbs else 0 : ℕ) : ℚ) / 10 ^ 28 * B := by
    refine (abs_sum_le_sum_abs _ _).trans (sum_le_sum fun s hs => ?_)
    rw [abs_mul]
    refine mul_le_mul ?_ (hx _) (abs_nonneg _) (by positivity)
    split
    · rename_i hs1
      by_cases hs2 : s + 1 < N
      · have := (taps t hl hh (s + 1) (by rw [hN]; exact hs2)).2
        rw [hN] at this
        rw [this, Nat.cast_natAbs, abs_div, abs_of_pos (show (0 : ℚ) < 10 ^ 28 by norm_num), Int.cast_abs]
      · rw [show N - (s + 1) = 0 by omega]
        simp only [range_zero, sum_empty, abs_zero]
        positivity
    · simp
  have hd := forall_types defect_table t
  rw [decide_eq_true_eq] at hd
  unfold defect at hd
  rw [hN] at hd
  have hd : ((List.range N).map (fun s => if s % 2 = 0 then (cross (high t).reverse (altPos (low t)) s - if s = 0 then 10 ^ 28 else 0).natAbs else 0)).sum +
      (((List.range N).map fun s => if s % 2 = 1 then (cross (altPos (low t)) (high t).reverse (s + 1)).natAbs else 0).sum : ℚ) ≤ precision t * 10 ^ 28 := by
    refine (show _ ≤ _ by exact_mod_cast hd : _ ≤ ((if t = .Daubechies_40 then 27 * 10 ^ 22 else if t = .Meyer then 6 * 10 ^ 22 else 4 * 10 ^ 20 : ℕ) : ℚ)).trans ?_
    unfold precision
    split_ifs <;> norm_num
  rw [sum_natAbs, sum_natAbs] at hd
  rw [← sum_mul, ← sum_div] at b1 b2
  rw [show ∀ a b c : ℚ, a + b - c = (a - c) + b by intros; ring]
  refine (abs_add_le _ _).trans ((add_le_add b1 b2).trans ?_)
  rw [← add_mul, ← add_div]
  refine mul_le_mul_of_nonneg_right ?_ hB
  rw [div_le_iff₀ (by norm_num)]
  exact hd

theorem absSum_eq (xs : List Int) : (absSum xs : ℚ) = ∑ i ∈ range xs.length, |(xs.getD i 0 : ℚ)| := by
  unfold absSum
  induction xs with
  | nil => simp
  | cons x xs ih =>
    rw [List.map_cons, List.sum_cons, List.length_cons, sum_range_succ', Nat.cast_add, ih]
    simp only [List.getD_cons_succ, List.getD_cons_zero, Nat.cast_natAbs, Int.cast_abs]
    ring

/-- A band is at most so much louder than the signal. -/
theorem band_le (hl : l = (low t).map (fun c : Int => (c : ℚ) / 10 ^ 14)) (hx : ∀ n, |x n| ≤ B) (k : ℤ) : |band l x k| ≤ 3725 / 1000 * B := by
  have hB : 0 ≤ B := (abs_nonneg _).trans (hx 0)
  have hs := forall_types size_table t
  rw [decide_eq_true_eq] at hs
  unfold band
  have h1 : |∑ i ∈ range l.length, l.getD i 0 * x (2 * k - i)| ≤ ∑ i ∈ range l.length, |((low t).getD i 0 : ℚ)| / 10 ^ 14 * B := by
    refine (abs_sum_le_sum_abs _ _).trans (sum_le_sum fun i _ => ?_)
    rw [abs_mul, hl, scaled_getD, abs_div, abs_of_pos (show (0 : ℚ) < 10 ^ 14 by norm_num)]
    exact mul_le_mul_of_nonneg_left (hx _) (by positivity)
  refine h1.trans ?_
  rw [← sum_mul, ← sum_div, show l.length = (low t).length by rw [hl, List.length_map], ← absSum_eq]
  refine mul_le_mul_of_nonneg_right ?_ hB
  rw [div_le_iff₀ (by norm_num)]
  refine (show (absSum (low t) : ℚ) ≤ ((3725 * 10 ^ 11 : ℕ) : ℚ) by exact_mod_cast hs.1).trans ?_
  norm_num

/-- So much an error in the low band costs. -/
theorem merge_sub_le (hh : h = (high t).map (fun c : Int => (c : ℚ) / 10 ^ 14)) {a a' d : ℤ → ℚ} {E : ℚ} (he : ∀ k, |a k - a' k| ≤ E) (n : ℤ) :
    |merge l h a d n - merge l h a' d n| ≤ 2128 / 1000 * E := by
  have hE : 0 ≤ E := (abs_nonneg _).trans (he 0)
  have hs := forall_types size_table t
  rw [decide_eq_true_eq] at hs
  unfold merge conv
  rw [alternate_length, show ∀ p q r : ℚ, p + q - (r + q) = p - r by intros; ring, ← sum_sub_distrib]
  obtain ⟨p, hp, hp2⟩ : ∃ p : Nat, (p : ℤ) % 2 = n % 2 ∧ p < 2 := ⟨(n % 2).toNat, by omega, by omega⟩
  have h1 : |∑ i ∈ range h.length, ((alternate (-1) h).getD i 0 * spread a (n - i) - (alternate (-1) h).getD i 0 * spread a' (n - i))| ≤
      ∑ i ∈ range h.length, ((if (p + i) % 2 = 0 then ((high t).getD i 0).natAbs else 0 : ℕ) : ℚ) / 10 ^ 14 * E := by
    refine (abs_sum_le_sum_abs _ _).trans (sum_le_sum fun i _ => ?_)
    rw [← mul_sub, alternate_getD, hh, scaled_getD]
    unfold spread
    split
    · rw [if_pos (by omega), abs_mul, abs_mul, abs_mul, abs_pow, abs_neg, abs_one, one_pow, one_mul, one_mul, abs_div, abs_of_pos (show (0 : ℚ) < 10 ^ 14 by norm_num), Nat.cast_natAbs, Int.cast_abs]
      exact mul_le_mul_of_nonneg_left (he _) (by positivity)
    · rw [sub_zero, mul_zero, abs_zero]
      positivity
  refine h1.trans ?_
  rw [← sum_mul, ← sum_div, show h.length = (high t).length by rw [hh, List.length_map], ← sum_natAbs]
  refine mul_le_mul_of_nonneg_right ?_ hE
  rw [div_le_iff₀ (by norm_num)]
  have h2 : paritySum (high t) p ≤ 2128 * 10 ^ 11 := by
    obtain rfl | rfl : p = 0 ∨ p = 1 := by omega
    · exact hs.2.1
    · exact hs.2.2
  refine (show (paritySum (high t) p : ℚ) ≤ ((2128 * 10 ^ 11 : ℕ) : ℚ) by exact_mod_cast h2).trans ?_
  norm_num

theorem merge_shift (a d : ℤ → ℚ) (D : Nat) (n : ℤ) : merge l h (fun k => a (k - D)) (fun k => d (k - D)) n = merge l h a d (n - 2 * D) := by
  have hs : ∀ (y : ℤ → ℚ) (m : ℤ), spread (fun k => y (k - D)) m = spread y (m - 2 * D) := by
    intro y m
    unfold spread
    by_cases e : m % 2 = 0
    · rw [if_pos e, if_pos (by omega), show (m - 2 * (D : ℤ)) / 2 = m / 2 - D by omega]
    · rw [if_neg e, if_neg (by omega)]
  unfold merge conv
  simp only [hs]
  congr 1 <;> exact sum_congr rfl fun i _ => by rw [show n - 2 * (D : ℤ) - i = n - i - 2 * D by ring]

/-- **C117** The same for decompositions into any number of levels, in which the low band is decomposed again and again. -/
theorem C117_levels (hc : createDecompositionFilters t l0 h0 = some (l, h)) (k : Nat) (hx : ∀ n, |x n| ≤ B) (n : ℤ) :
    |tree l h k x n - x (n - delay l.length k)| ≤ precision t * ((8 ^ k - 1) / 7) * B := by
  have hp : 0 ≤ precision t := by unfold precision; split_ifs <;> norm_num
  have hlh := hc
  rw [create_eq] at hlh
  obtain ⟨hl, hh⟩ : l = (low t).map (fun c : Int => (c : ℚ) / 10 ^ 14) ∧ h = (high t).map (fun c : Int => (c : ℚ) / 10 ^ 14) := by
    simpa [eq_comm] using hlh
  induction k generalizing x B n with
  | zero => simp [tree, delay]
  | succ k ih =>
    have hB : 0 ≤ B := (abs_nonneg _).trans (hx 0)
    have h1 := merge_sub_le (l := l) (d := fun m => band h x (m - delay l.length k)) hh (ih (band_le hl hx)) n
    rw [merge_shift (band l x) (band h x)] at h1
    have h2 := C117_reconstruct hc hx (n - 2 * delay l.length k)
    have e : n - 2 * (delay l.length k : ℤ) - (l.length - 1 : ℕ) = n - delay l.length (k + 1) := by
      rw [delay]
      push_cast
      ring
    rw [e] at h2
    have h3 : (1 : ℚ) ≤ 8 ^ k := one_le_pow₀ (by norm_num)
    have h4 : 2128 / 1000 * (precision t * ((8 ^ k - 1) / 7) * (3725 / 1000 * B)) ≤ 8 * (precision t * ((8 ^ k - 1) / 7) * B) := by
      have : 0 ≤ precision t * ((8 ^ k - 1) / 7) * B := by
        have : (0 : ℚ) ≤ 8 ^ k - 1 := by linarith
        positivity
      calc _ = (2128 / 1000 * (3725 / 1000)) * (precision t * ((8 ^ k - 1) / 7) * B) := by ring
        _ ≤ _ := mul_le_mul_of_nonneg_right (by norm_num) this
    have h5 := abs_sub_le (tree l h (k + 1) x n) (roundTrip l h x (n - 2 * delay l.length k)) (x (n - delay l.length (k + 1)))
    refine h5.trans ((add_le_add (h1.trans h4) h2).trans (le_of_eq ?_))
    rw [pow_succ]
    ring

/-- **C117** How late the signal comes back: after `k` levels, `2ᵏ - 1` times the length of a filter less one. -/
theorem C117_delay (N k : Nat) : delay N k = (2 ^ k - 1) * (N - 1) := by
  induction k with
  | zero => simp [delay]
  | succ k ih =>
    rw [delay, ih, pow_succ]
    obtain ⟨m, hm⟩ := Nat.exists_eq_add_of_le (Nat.one_le_two_pow (n := k))
    rw [hm, show 1 + m - 1 = m by omega, show (1 + m) * 2 - 1 = 2 * m + 1 by omega]
    ring

/-! ## The hypotheses can be met -/

/-- A signal of full level in four levels of the longest Daubechies wavelet, the worst of all. -/
example (l h : List ℚ) (hc : createDecompositionFilters .Daubechies_40 [] [] = some (l, h)) (x : ℤ → ℚ) (hx : ∀ n, |x n| ≤ 1) (n : ℤ) :
    |tree l h 4 x n - x (n - 1185)| ≤ 16 / 1000 := by
  have h1 := C117_levels hc 4 hx n
  obtain ⟨l', h', e, _⟩ := C53_lengths .Daubechies_40 [] []
  have hl : l.length = 80 := by
    rw [create_eq] at hc
    obtain ⟨rfl, _⟩ : (low .Daubechies_40).map (fun c : Int => (c : ℚ) / 10 ^ 14) = l ∧ _ := by simpa using hc
    rw [List.length_map]
    decide +kernel
  rw [hl] at h1
  refine le_trans (le_of_eq ?_) (h1.trans ?_)
  · rw [C117_delay]; norm_num
  · norm_num [precision]

/-- An impulse, decomposed and reconstructed with the Haar wavelet. -/
example : ∃ l h, createDecompositionFilters .Haar [] [] = some (l, h) ∧ |roundTrip l h (fun n => if n = 5 then 1 else 0) 6 - 1| ≤ 4 / 10 ^ 8 := by
  obtain ⟨l, h, e, _⟩ := C53_lengths .Haar [] []
  have h1 := C117_reconstruct e (x := fun n => if n = 5 then 1 else 0) (B := 1) (fun n => by split_ifs <;> norm_num) 6
  refine ⟨l, h, e, ?_⟩
  rw [create_eq] at e
  obtain ⟨rfl, _⟩ : (low .Haar).map (fun c : Int => (c : ℚ) / 10 ^ 14) = l ∧ _ := by simpa using e
  simpa [low, precision] using h1

end QM.Wavelet
