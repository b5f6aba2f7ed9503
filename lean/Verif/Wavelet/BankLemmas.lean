import Verif.Wavelet.Bank

/-! # Sums of the filter bank -/

namespace QM.Wavelet

open Finset

theorem alternate_length (s : ℚ) (xs : List ℚ) : (alternate s xs).length = xs.length := by
  induction xs generalizing s with
  | nil => rfl
  | cons a as ih => simp [alternate, ih]

theorem alternate_getD (s : ℚ) (xs : List ℚ) (i : Nat) : (alternate s xs).getD i 0 = s * (-1) ^ i * xs.getD i 0 := by
  induction xs generalizing s i with
  | nil => simp [alternate]
  | cons a as ih =>
    cases i with
    | zero => simp [alternate]
    | succ i =>
      simp only [alternate, List.getD_cons_succ]
      rw [ih, pow_succ]
      ring

/-- One for even numbers. -/
def ev (n : ℤ) : ℚ := if n % 2 = 0 then 1 else 0

theorem spread_band (f : List ℚ) (x : ℤ → ℚ) (n : ℤ) : spread (band f x) n = ev n * ∑ i ∈ range f.length, f.getD i 0 * x (n - i) := by
  unfold spread band ev
  split
  · rename_i h
    rw [one_mul]
    refine sum_congr rfl fun i _ => ?_
    rw [show 2 * (n / 2) = n by omega]
  · rw [zero_mul]

/-- A double sum over a square, by diagonals. -/
theorem diagonals (N : Nat) (F : Nat → Nat → ℚ) : ∑ j ∈ range N, ∑ k ∈ range N, F j k =
    ∑ t ∈ range N, ∑ k ∈ range (N - t), F (k + t) k + ∑ t ∈ range N, ∑ j ∈ range (N - (t + 1)), F j (j + (t + 1)) := by
  have h1 : ∀ j ∈ range N, ∑ k ∈ range N, F j k = ∑ k ∈ range (j + 1), F j k + ∑ t ∈ range (N - (j + 1)), F j (j + (t + 1)) := by
    intro j hj
    rw [mem_range] at hj
    rw [← sum_range_add_sum_Ico _ (show j + 1 ≤ N by omega), sum_Ico_eq_sum_range]
    congr 1
    exact sum_congr rfl fun t _ => by rw [show j + 1 + t = j + (t + 1) by omega]
  rw [sum_congr rfl h1, sum_add_distrib]
  congr 1
  · have h2 : ∑ j ∈ range N, ∑ k ∈ range (j + 1), F j k = ∑ k ∈ range N, ∑ j ∈ Ico k N, F j k := by
      refine sum_comm' fun j k => ?_
      simp only [mem_range, mem_Ico]
      omega
    have h3 : ∀ k ∈ range N, ∑ j ∈ Ico k N, F j k = ∑ t ∈ range (N - k), F (k + t) k := fun k _ => sum_Ico_eq_sum_range _ _ _
    rw [h2, sum_congr rfl h3]
    refine sum_comm' fun k t => ?_
    simp only [mem_range]
    omega
  · refine sum_comm' fun k t => ?_
    simp only [mem_range]
    omega

theorem neg_one_pow_ev (j : Nat) : ((-1 : ℚ)) ^ j = if j % 2 = 0 then 1 else -1 := by
  rcases Nat.even_or_odd j with h | h
  · rw [h.neg_one_pow, if_pos (Nat.even_iff.mp h)]
  · rw [h.neg_one_pow, if_neg (by have := Nat.odd_iff.mp h; omega)]

/-- What decomposition and reconstruction make of a signal: aliasing cancels, and what is left is a filter with taps at odd delays. -/
theorem roundTrip_eq {l h : List ℚ} {N : Nat} (hl : l.length = N) (hh : h.length = N) (x : ℤ → ℚ) (n : ℤ) :
    roundTrip l h x n = ∑ j ∈ range N, ∑ i ∈ range N, if (j + i) % 2 = 1 then (-1) ^ j * l.getD j 0 * h.getD i 0 * x (n - (j + i)) else 0 := by
  unfold roundTrip merge conv
  simp only [spread_band, alternate_length, alternate_getD, hl, hh]
  have h1 : ∑ j ∈ range N, -1 * (-1) ^ j * h.getD j 0 * (ev (n - j) * ∑ i ∈ range N, l.getD i 0 * x (n - j - i)) =
      ∑ j ∈ range N, ∑ i ∈ range N, -(ev (n - i) * (-1) ^ i * l.getD j 0 * h.getD i 0 * x (n - (j + i))) := by
    rw [sum_comm]
    refine sum_congr rfl fun i _ => ?_
    rw [mul_sum, mul_sum]
    refine sum_congr rfl fun j _ => ?_
    rw [show n - i - (j : ℤ) = n - (j + i) by ring]
    ring
  have h2 : ∑ j ∈ range N, 1 * (-1) ^ j * l.getD j 0 * (ev (n - j) * ∑ i ∈ range N, h.getD i 0 * x (n - j - i)) =
      ∑ j ∈ range N, ∑ i ∈ range N, ev (n - j) * (-1) ^ j * l.getD j 0 * h.getD i 0 * x (n - (j + i)) := by
    refine sum_congr rfl fun j _ => ?_
    rw [mul_sum, mul_sum]
    refine sum_congr rfl fun i _ => ?_
    rw [show n - j - (i : ℤ) = n - (j + i) by ring]
    ring
  rw [h1, h2, ← sum_add_distrib]
  refine sum_congr rfl fun j _ => ?_
  rw [← sum_add_distrib]
  refine sum_congr rfl fun i _ => ?_
  have key : ev (n - j) * (-1) ^ j - ev (n - i) * (-1) ^ i = if (j + i) % 2 = 1 then ((-1 : ℚ)) ^ j else 0 := by
    unfold ev
    rw [neg_one_pow_ev, neg_one_pow_ev]
    split_ifs <;> first | omega | norm_num
  calc _ = (ev (n - j) * (-1) ^ j - ev (n - i) * (-1) ^ i) * (l.getD j 0 * h.getD i 0 * x (n - (j + i))) := by ring
    _ = _ := by rw [key]; split_ifs <;> ring

/-- The same with the taps. -/
theorem roundTrip_taps {l h : List ℚ} {N : Nat} (hl : l.length = N) (hh : h.length = N) (h2 : N % 2 = 0) (x : ℤ → ℚ) (n : ℤ) :
    roundTrip l h x n =
      ∑ t ∈ range N, (if t % 2 = 0 then ∑ k ∈ range (N - t), h.getD (N - 1 - k) 0 * ((-1) ^ (k + t) * l.getD (k + t) 0) else 0) * x (n - (N - 1 : ℕ) - t) +
      ∑ t ∈ range N, (if t % 2 = 1 then ∑ j ∈ range (N - (t + 1)), (-1) ^ j * l.getD j 0 * h.getD (N - 1 - (j + (t + 1))) 0 else 0) * x (n - (N - 1 : ℕ) + (t + 1)) := by
  rw [roundTrip_eq hl hh]
  have h1 : ∀ j ∈ range N, ∑ i ∈ range N, (if (j + i) % 2 = 1 then (-1) ^ j * l.getD j 0 * h.getD i 0 * x (n - (j + i)) else 0) =
      ∑ k ∈ range N, (if (j + k) % 2 = 0 then (-1) ^ j * l.getD j 0 * h.getD (N - 1 - k) 0 * x (n - (N - 1 : ℕ) - j + k) else 0) := by
    intro j hj
    rw [← sum_range_reflect]
    refine sum_congr rfl fun k hk => ?_
    rw [mem_range] at hk
    rw [show n - (j + ((N - 1 - k : ℕ) : ℤ)) = n - (N - 1 : ℕ) - j + k by omega]
    by_cases e : (j + k) % 2 = 0
    · rw [if_pos e, if_pos (by omega)]
    · rw [if_neg e, if_neg (by omega)]
  rw [sum_congr rfl h1, diagonals]
  congr 1
  · refine sum_congr rfl fun t _ => ?_
    by_cases e : t % 2 = 0
    · rw [if_pos e, sum_mul]
      refine sum_congr rfl fun k _ => ?_
      rw [if_pos (by omega), show n - (N - 1 : ℕ) - ((k + t : ℕ) : ℤ) + k = n - (N - 1 : ℕ) - t by omega]
      ring
    · rw [if_neg e, zero_mul]
      exact sum_eq_zero fun k _ => if_neg (by omega)
  · refine sum_congr rfl fun t _ => ?_
    by_cases e : t % 2 = 1
    · rw [if_pos e, sum_mul]
      refine sum_congr rfl fun k _ => ?_
      rw [if_pos (by omega), show n - (N - 1 : ℕ) - (k : ℤ) + ((k + (t + 1) : ℕ) : ℤ) = n - (N - 1 : ℕ) + (t + 1) by omega]
    · rw [if_neg e, zero_mul]
      exact sum_eq_zero fun k _ => if_neg (by omega)

theorem cross_eq (a b : List Int) (s : Nat) : (cross a b s : ℚ) = ∑ k ∈ range (b.length - s), (a.getD k 0 : ℚ) * (b.getD (k + s) 0 : ℚ) := by
  have gen : ∀ (a b : List Int), (((List.zipWith (· * ·) a b : List Int).sum : Int) : ℚ) = ∑ k ∈ range b.length, (a.getD k 0 : ℚ) * (b.getD k 0 : ℚ) := by
    intro a
    induction a with
    | nil => intro b; simp
    | cons x xs ih =>
      intro b
      cases b with
      | nil => simp
      | cons y ys =>
        rw [List.length_cons, sum_range_succ']
        simp only [List.getD_cons_succ, List.getD_cons_zero, List.zipWith_cons_cons, List.sum_cons]
        rw [← ih ys]
        push_cast
        ring
  unfold cross
  rw [gen, List.length_drop]
  refine sum_congr rfl fun k _ => ?_
  simp only [List.getD_eq_getElem?_getD, List.getElem?_drop, Nat.add_comm]

theorem altPos_length (xs : List Int) : (altPos xs).length = xs.length := by
  have gen : ∀ s, (altNeg s xs).length = xs.length := by
    induction xs with
    | nil => intro s; rfl
    | cons x xs ih => intro s; simp [altNeg, ih]
  exact gen false

theorem altPos_getD (xs : List Int) (i : Nat) : ((altPos xs).getD i 0 : ℚ) = (-1) ^ i * (xs.getD i 0 : ℚ) := by
  rw [List.getD_eq_getElem?_getD, List.getD_eq_getElem?_getD, altPos, altNeg_get, neg_one_pow_ev]
  cases xs[i]? with
  | none => simp
  | some x =>
    by_cases h : i % 2 = 0
    · simp [h]
    · simp [h]

theorem scaled_getD (xs : List Int) (i : Nat) : (xs.map (fun c : Int => (c : ℚ) / 10 ^ 14)).getD i 0 = (xs.getD i 0 : ℚ) / 10 ^ 14 := by
  rw [List.getD_eq_getElem?_getD, List.getD_eq_getElem?_getD, List.getElem?_map]
  cases xs[i]? <;> simp

theorem reverse_getD (xs : List Int) (i : Nat) (h : i < xs.length) : xs.reverse.getD i 0 = xs.getD (xs.length - 1 - i) 0 := by
  rw [List.getD_eq_getElem?_getD, List.getD_eq_getElem?_getD, List.getElem?_reverse h]

theorem sum_natAbs (N : Nat) (f : Nat → Nat) : (((List.range N).map f).sum : ℚ) = ∑ t ∈ range N, (f t : ℚ) := by
  induction N with
  | zero => simp
  | succ N ih => rw [List.range_succ, List.map_append, List.sum_append, sum_range_succ, Nat.cast_add, ih]; simp

/-- The taps of a type, in units of 10⁻²⁸. -/
theorem taps (t : WType) {l h : List ℚ} (hl : l = (low t).map (fun c : Int => (c : ℚ) / 10 ^ 14)) (hh : h = (high t).map (fun c : Int => (c : ℚ) / 10 ^ 14))
    (s : Nat) (hs : s < flength t) :
    ∑ k ∈ range (flength t - s), h.getD (flength t - 1 - k) 0 * ((-1) ^ (k + s) * l.getD (k + s) 0) = (cross (high t).reverse (altPos (low t)) s : ℚ) / 10 ^ 28 ∧
    ∑ j ∈ range (flength t - s), (-1) ^ j * l.getD j 0 * h.getD (flength t - 1 - (j + s)) 0 = (cross (altPos (low t)) (high t).reverse s : ℚ) / 10 ^ 28 := by
  have hlen := forall_types lengths_table t
  simp only [decide_eq_true_eq] at hlen
  subst hl hh
  constructor
  · rw [cross_eq, altPos_length, ← hlen.1, sum_div]
    refine sum_congr rfl fun k hk => ?_
    rw [mem_range] at hk
    rw [scaled_getD, scaled_getD, altPos_getD, reverse_getD _ _ (by omega), ← hlen.2.1]
    ring
  · rw [cross_eq, List.length_reverse, ← hlen.2.1, sum_div]
    refine sum_congr rfl fun k hk => ?_
    rw [mem_range] at hk
    rw [scaled_getD, scaled_getD, altPos_getD, reverse_getD _ _ (by omega), ← hlen.2.1]
    ring

end QM.Wavelet
