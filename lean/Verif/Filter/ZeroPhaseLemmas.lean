import Verif.Filter.FirProps
import Verif.Filter.ZeroPhaseSpec
import Mathlib.Algebra.BigOperators.Ring.Finset

/-!
# The kernel of zero-phase filtering with a non-recursive filter
-/

namespace QM.Filter

variable {R : Type} [CommRing R]
open Finset

theorem oddExt_around (n : Nat) (src : List R) (k : Nat) : oddExt n src k = around src ((k : Int) - n) := by
  unfold oddExt around
  dsimp only
  by_cases h1 : k < n
  · rw [if_pos h1, if_pos (show (k : Int) - n < 0 by omega)]
    by_cases h2 : n - k < src.length
    · rw [if_pos h2, if_pos (by omega), show (-((k : Int) - n)).toNat = n - k by omega]
    · rw [if_neg h2, if_neg (by omega)]
  · rw [if_neg h1, if_neg (show ¬ (k : Int) - n < 0 by omega)]
    by_cases h2 : k < n + src.length
    · rw [if_pos h2, if_pos (by omega), show ((k : Int) - n).toNat = k - n by omega]
    · rw [if_neg h2, if_neg (show ¬ (k : Int) - n < src.length by omega)]
      by_cases h3 : k - (n + src.length) + 1 < src.length
      · rw [if_pos h3, if_pos (by omega), show (2 * ((src.length : Int) - 1) - ((k : Int) - n)).toNat = src.length - 2 - (k - (n + src.length)) by omega]
      · rw [if_neg h3, if_neg (by omega)]

theorem revget (l : List R) (j : Nat) (hj : j < l.length) : l.reverse.getD j 0 = l.getD (l.length - 1 - j) 0 := by
  simp only [List.getD_eq_getElem?_getD]
  rw [List.getElem?_reverse hj]

/-- One call on an object with any history. -/
theorem fir_kernel (b : List R) (s : State R) (h : new b [] = .ok s) (calls : List (List R)) (t : State R) (ht : runFF s calls = some t) (src : List R) :
    ∃ s' dst, filtfilt t src = some (s', dst) ∧ dst.length = src.length ∧ ∀ i, i < src.length →
      dst[i]? = some (∑ j ∈ range b.length, ∑ k ∈ range b.length, b.getD j 0 * b.getD k 0 * around src ((i : Int) + j - k)) := by
  by_cases hne : src = []
  · subst hne
    exact ⟨t, [], rfl, rfl, fun i hi => by simp at hi⟩
  have hi := new_inv b [] s h (by simp)
  obtain ⟨t', xs, ys, h1, h2, h3⟩ := runFF_inv b [] calls s [] [] hi ⟨rfl, by simp⟩
  rw [ht] at h1; cases h1
  obtain ⟨s2, z1, z2, f1, _, f3, f4, f5⟩ := filtfilt_spec b [] t xs ys h2 h3 src hne
  have hN : 0 < src.length := List.length_pos_iff.mpr hne
  have hpos := hi.hpos
  set n := 3 * (b.length - 1) with hn
  set ext := (List.range (src.length + 2 * n)).map (oddExt n src) with hext
  have hel : ext.length = src.length + 2 * n := by simp [hext]
  have hyl : ys.length = xs.length := h3.1
  have hget : ∀ k, k < ext.length → ext.getD k 0 = around src ((k : Int) - n) := by
    intro k hk
    rw [← oddExt_around, hext, List.getD_eq_getElem?_getD, List.getElem?_map, List.getElem?_range (by omega)]
    rfl
  have k1 : ∀ k, b.length - 1 ≤ k → k < ext.length → z1.getD k 0 = ∑ i ∈ range b.length, b.getD i 0 * around src ((k : Int) - n - i) := by
    intro k hk hke
    have g1 := fir_value b _ _ f4 (xs.length + k) (by simp; omega)
    have : (ys ++ z1).getD (xs.length + k) 0 = z1.getD k 0 := by
      simp only [List.getD_eq_getElem?_getD]
      rw [List.getElem?_append_right (by omega)]
      congr 2; omega
    rw [← this, g1]
    refine sum_congr rfl (fun i hi => ?_)
    rw [mem_range] at hi
    rw [delayed_append_right _ _ _ _ (by omega), delayed, if_pos (by omega), hget _ (by omega)]
    congr 2
    omega
  have hz2 : z2.length = ext.length := by rw [f5.1]; simp; omega
  refine ⟨s2, _, f1, by simp [hz2, hel]; omega, ?_⟩
  intro i hil
  rw [List.getElem?_take, List.getElem?_drop, if_pos hil, List.getElem?_reverse (by omega)]
  rw [List.getElem?_eq_getElem (by omega), Option.some.injEq, ← getD_of_lt, hz2, fir_value b _ _ f5 _ (by simp; omega)]
  refine sum_congr rfl (fun j hj => ?_)
  rw [mem_range] at hj
  rw [delayed, if_pos (by omega), revget _ _ (by omega), k1 _ (by omega) (by omega), mul_sum]
  refine sum_congr rfl (fun k hk => ?_)
  rw [mul_assoc]
  congr 3
  omega

theorem around_inside (src : List R) (i : Int) (h0 : 0 ≤ i) (h1 : i < src.length) : around src i = src.getD i.toNat 0 := by
  unfold around
  dsimp only
  rw [if_neg (by omega), if_pos h1]

theorem around_reverse (src : List R) (i : Int) : around src.reverse i = around src ((src.length : Int) - 1 - i) := by
  unfold around
  dsimp only
  simp only [List.length_reverse]
  have e : ∀ a : Int, ∀ b : Nat, 0 ≤ a → b < src.length → (a : Int) = src.length - 1 - b → src.reverse.getD b 0 = src.getD a.toNat 0 := by
    intro a b h1 h2 h3
    rw [revget _ _ h2]
    congr 1
    omega
  have hl : ∀ k : Nat, 0 < src.length → src.reverse.getD 0 0 = src.getD (src.length - 1) 0 := fun k hk => by
    rw [revget _ _ hk]; rfl
  have hr : 0 < src.length → src.reverse.getD (src.length - 1) 0 = src.getD 0 0 := fun hk => by
    rw [revget _ _ (by omega)]
    congr 1
    omega
  by_cases h1 : i < 0
  · rw [if_pos h1, if_neg (show ¬ ((src.length : Int) - 1 - i < 0) by omega), if_neg (show ¬ ((src.length : Int) - 1 - i < src.length) by omega)]
    by_cases h2 : -i < src.length
    · rw [if_pos h2, if_pos (by omega), hl 0 (by omega), e (src.length - 1 + i) (-i).toNat (by omega) (by omega) (by omega)]
      congr 2
      omega
    · rw [if_neg h2, if_neg (by omega)]
  · rw [if_neg h1]
    by_cases h2 : i < src.length
    · rw [if_pos h2, if_neg (show ¬ ((src.length : Int) - 1 - i < 0) by omega), if_pos (by omega)]
      exact e _ _ (by omega) (by omega) (by omega)
    · rw [if_neg h2, if_pos (show ((src.length : Int) - 1 - i < 0) by omega)]
      by_cases h3 : i - src.length + 1 < src.length
      · rw [if_pos h3, if_pos (by omega), hr (by omega),
          e (-(src.length - 1 - i)) (2 * ((src.length : Int) - 1) - i).toNat (by omega) (by omega) (by omega)]
      · rw [if_neg h3, if_neg (by omega)]

theorem around_line (p q : R) (n : Nat) (i : Int) (h0 : -(n : Int) < i) (h1 : i < 2 * (n : Int) - 1) :
    around ((List.range n).map (fun (k : Nat) => p + q * (k : R))) i = p + q * (i : R) := by
  have e : ∀ k : Nat, k < n → ((List.range n).map (fun (k : Nat) => p + q * (k : R))).getD k 0 = p + q * (k : R) := by
    intro k hk
    rw [List.getD_eq_getElem?_getD, List.getElem?_map, List.getElem?_range hk]
    rfl
  have c : ∀ j : Int, 0 ≤ j → ((j.toNat : Nat) : R) = (j : R) := by
    intro j hj
    rw [← Int.cast_natCast, Int.toNat_of_nonneg hj]
  unfold around
  dsimp only
  simp only [List.length_map, List.length_range]
  by_cases h2 : i < 0
  · rw [if_pos h2, if_pos (by omega), e 0 (by omega), e _ (by omega), c _ (by omega)]
    push_cast
    ring
  · rw [if_neg h2]
    by_cases h3 : i < n
    · rw [if_pos h3, e _ (by omega), c _ (by omega)]
    · rw [if_neg h3, if_pos (by omega), e _ (by omega), e _ (by omega), c _ (by omega)]
      have : ((n - 1 : Nat) : R) = ((n : Int) - 1 : Int) := by
        rw [← Int.cast_natCast]
        congr 1
        omega
      rw [this]
      push_cast
      ring

theorem around_add (c d : R) (x y : List R) (h : x.length = y.length) (i : Int) :
    around (List.zipWith (fun u v => c * u + d * v) x y) i = c * around x i + d * around y i := by
  have e : ∀ k, (List.zipWith (fun u v => c * u + d * v) x y).getD k 0 = c * x.getD k 0 + d * y.getD k 0 := by
    intro k
    simp only [List.getD_eq_getElem?_getD, List.getElem?_zipWith]
    by_cases hk : k < x.length
    · rw [List.getElem?_eq_getElem hk, List.getElem?_eq_getElem (by omega)]
      rfl
    · rw [List.getElem?_eq_none (by omega), List.getElem?_eq_none (by omega)]
      simp
  have hl : (List.zipWith (fun u v => c * u + d * v) x y).length = x.length := by simp [h]
  unfold around
  dsimp only
  simp only [hl, e, ← h]
  split_ifs <;> ring

end QM.Filter
