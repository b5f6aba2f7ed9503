import Verif.MedianFilter.Props
import Verif.MathReal.Props
import Mathlib.Data.List.Forall2

/-!
# Order statistics and local means of nearly equal lists, for C137
-/

namespace QM.Smoothing

variable {α : Type} [Field α] [LinearOrder α] [IsStrictOrderedRing α]

open QM.MedianFilter (IsSortOf)

theorem count_above (s : List α) (hs : s.Pairwise (· ≤ ·)) (r : Nat) (hr : r < s.length) (c : α) (h : c < s[r]) :
    s.countP (fun x => decide (x ≤ c)) ≤ r := by
  conv_lhs => rw [← List.take_append_drop r s]
  rw [List.countP_append]
  have h1 : (s.take r).countP (fun x => decide (x ≤ c)) ≤ r :=
    List.countP_le_length.trans (List.length_take_le _ _)
  have h2 : (s.drop r).countP (fun x => decide (x ≤ c)) = 0 := by
    rw [List.countP_eq_zero]
    intro x hx
    obtain ⟨j, hj, rfl⟩ := List.mem_iff_getElem.mp hx
    have hj' : r + j < s.length := by simp at hj; omega
    rw [List.getElem_drop]
    have : s[r] ≤ s[r + j] := by
      rcases Nat.eq_zero_or_pos j with rfl | hp
      · exact le_refl _
      · exact List.pairwise_iff_getElem.mp hs r (r + j) hr hj' (by omega)
    simpa using lt_of_lt_of_le h this
  omega

theorem count_upto (s : List α) (hs : s.Pairwise (· ≤ ·)) (r : Nat) (hr : r < s.length) :
    r + 1 ≤ s.countP (fun x => decide (x ≤ s[r])) := by
  have h1 : (s.take (r + 1)).countP (fun x => decide (x ≤ s[r])) = (s.take (r + 1)).length := by
    rw [List.countP_eq_length]
    intro x hx
    obtain ⟨j, hj, rfl⟩ := List.mem_iff_getElem.mp hx
    have hj' : j < r + 1 := by simp at hj; omega
    rw [List.getElem_take]
    have : s[j] ≤ s[r] := by
      rcases Nat.lt_succ_iff_lt_or_eq.mp hj' with hl | rfl
      · exact List.pairwise_iff_getElem.mp hs j r (by omega) hr hl
      · exact le_refl _
    simpa using this
  have h2 : (s.take (r + 1)).countP (fun x => decide (x ≤ s[r])) ≤ s.countP (fun x => decide (x ≤ s[r])) :=
    (List.take_sublist _ _).countP_le
  rw [List.length_take] at h1
  omega

theorem count_shift (ε : α) (u v : List α) (h : List.Forall₂ (fun a b => a ≤ b + ε) u v) (c : α) :
    v.countP (fun x => decide (x ≤ c)) ≤ u.countP (fun x => decide (x ≤ c + ε)) := by
  induction h with
  | nil => simp
  | @cons a b u v hab _ ih =>
    rw [List.countP_cons, List.countP_cons]
    by_cases hb : b ≤ c
    · have ha : a ≤ c + ε := by linarith
      simp only [hb, ha, decide_true, if_true]
      omega
    · simp only [hb, decide_false]
      have : (if (false = true) then 1 else 0) = 0 := rfl
      omega

/-- Raising every element by at most `ε` raises every order statistic by at most `ε`. -/
theorem order_shift (ε : α) (u v s t : List α) (h : List.Forall₂ (fun a b => a ≤ b + ε) u v)
    (hs : IsSortOf s u) (ht : IsSortOf t v) (r : Nat) (h1 : r < s.length) (h2 : r < t.length) :
    s[r] ≤ t[r] + ε := by
  by_contra hc
  have a := count_above s hs.2 r h1 _ (not_le.mp hc)
  have b := count_upto t ht.2 r h2
  have c := count_shift ε u v h t[r]
  rw [hs.1.countP_eq] at a
  rw [ht.1.countP_eq] at b
  omega

theorem sum_near (ε : α) (u v : List α) (h : List.Forall₂ (fun a b => |a - b| ≤ ε) u v) :
    |u.sum - v.sum| ≤ u.length * ε ∧ u.length = v.length := by
  induction h with
  | nil => simp
  | @cons a b u v hab _ ih =>
    refine ⟨?_, by simp [ih.2]⟩
    rw [List.sum_cons, List.sum_cons, List.length_cons]
    have e : a + u.sum - (b + v.sum) = (a - b) + (u.sum - v.sum) := by ring
    rw [e]
    refine (abs_add_le _ _).trans ?_
    push_cast
    linarith [ih.1]

/-- Means of nearly equal lists are nearly equal. -/
theorem mean_near (ε : α) (h0 : 0 ≤ ε) (u v : List α) (h : List.Forall₂ (fun a b => |a - b| ≤ ε) u v) :
    |u.sum / u.length - v.sum / v.length| ≤ ε := by
  obtain ⟨h1, h2⟩ := sum_near ε u v h
  rw [← h2, ← sub_div, abs_div, Nat.abs_cast]
  rcases Nat.eq_zero_or_pos u.length with hz | hp
  · rw [hz]; simpa using h0
  · have : (0 : α) < u.length := by exact_mod_cast hp
    rw [div_le_iff₀ this, mul_comm]
    exact h1

theorem localMean_near (ε : α) (h0 : 0 ≤ ε) (x y : List α) (h : List.Forall₂ (fun a b => |a - b| ≤ ε) x y) (i : Nat) :
    |QM.MathReal.localMean x i - QM.MathReal.localMean y i| ≤ ε :=
  mean_near ε h0 _ _ (List.forall₂_take _ (List.forall₂_drop _ h))

theorem max_near (a b : α) : |max 0 a - max 0 b| ≤ |a - b| := by
  have := abs_max_sub_max_le_abs a b 0
  rwa [max_comm a 0, max_comm b 0] at this

end QM.Smoothing
