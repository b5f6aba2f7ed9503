import Verif.MedianFilter.Model
import Mathlib.Data.List.Sort
import Mathlib.Tactic.Linarith

namespace QM.MedianFilter

variable {T : Type} [LinearOrder T] [Zero T]

omit [Zero T] in
theorem lowerBound_spec (xs : List T) (v : T) (n : Nat) (hn : n ≤ xs.length)
    (hs : ∀ i j a b, i ≤ j → j < n → xs[i]? = some a → xs[j]? = some b → a ≤ b)
    (first len : Nat) (hfl : first + len ≤ n)
    (hlo : ∀ i a, i < first → xs[i]? = some a → a < v)
    (hhi : ∀ i a, first + len ≤ i → i < n → xs[i]? = some a → v ≤ a) :
    ∃ r, r ≤ n ∧ lowerBound xs v first len = some r ∧
      (∀ i a, i < r → xs[i]? = some a → a < v) ∧
      (∀ i a, r ≤ i → i < n → xs[i]? = some a → v ≤ a) := by
  induction len using Nat.strong_induction_on generalizing first with
  | _ len ih =>
    rw [lowerBound]
    by_cases h0 : len = 0
    · subst h0
      simp only [dif_pos]
      exact ⟨first, by omega, rfl, hlo, by simpa using hhi⟩
    · rw [dif_neg h0]
      have hm : first + len / 2 < xs.length := by omega
      simp only [List.getElem?_eq_getElem hm, Option.bind_eq_bind, Option.bind_some]
      by_cases hlt : xs[first + len / 2] < v
      · rw [if_pos hlt]
        refine ih _ (by omega) (first + len / 2 + 1) (by omega) ?_ ?_
        · intro i a hi ha
          exact lt_of_le_of_lt (hs i (first + len / 2) a _ (by omega) (by omega) ha
            (List.getElem?_eq_getElem hm)) hlt
        · intro i a hi hin ha
          exact hhi i a (by omega) hin ha
      · rw [if_neg hlt]
        refine ih _ (by omega) first (by omega) hlo ?_
        intro i a hi hin ha
        exact le_trans (not_lt.mp hlt) (hs (first + len / 2) i _ a (by omega) hin
          (List.getElem?_eq_getElem hm) ha)

omit [Zero T] [LinearOrder T] in
theorem shiftUp_spec (xs : List T) (p n : Nat) (h : n = 0 ∨ p + n < xs.length) :
    ∃ ys, shiftUp xs p n = some ys ∧ ys.length = xs.length ∧
      ∀ j, ys[j]? = if p < j ∧ j ≤ p + n then xs[j - 1]? else xs[j]? := by
  induction n generalizing xs with
  | zero => exact ⟨xs, rfl, rfl, fun j => by rw [if_neg (by omega)]⟩
  | succ n ih =>
    have hl : p + (n + 1) < xs.length := by omega
    have hv : p + n < xs.length := by omega
    rw [shiftUp, List.getElem?_eq_getElem hv]
    simp only [Option.bind_eq_bind, Option.bind_some, hl, if_true]
    obtain ⟨ys, h1, h2, h3⟩ := ih (xs.set (p + (n + 1)) xs[p + n]) (by right; simp; omega)
    refine ⟨ys, h1, by simpa using h2, fun j => ?_⟩
    rw [h3 j, List.getElem?_set, List.getElem?_set]
    by_cases hj : j = p + (n + 1)
    · subst hj
      rw [if_neg (by omega), if_pos rfl, if_pos hl, if_pos (by omega)]
      rw [← List.getElem?_eq_getElem hv]; congr 1
    · by_cases hj2 : p < j ∧ j ≤ p + n
      · rw [if_pos hj2, if_neg (by omega), if_pos (by omega)]
      · rw [if_neg hj2, if_neg (by omega), if_neg (by omega)]

omit [Zero T] [LinearOrder T] in
theorem shiftDown_spec (xs : List T) (p i k : Nat) (h : k = 0 ∨ p + i + k < xs.length) :
    ∃ ys, shiftDown xs p i k = some ys ∧ ys.length = xs.length ∧
      ∀ j, ys[j]? = if p + i ≤ j ∧ j < p + i + k then xs[j + 1]? else xs[j]? := by
  induction k generalizing xs i with
  | zero => exact ⟨xs, rfl, rfl, fun j => by rw [if_neg (by omega)]⟩
  | succ k ih =>
    have hv : p + i + 1 < xs.length := by omega
    have hl : p + i < xs.length := by omega
    rw [shiftDown, List.getElem?_eq_getElem hv]
    simp only [Option.bind_eq_bind, Option.bind_some, hl, if_true]
    obtain ⟨ys, h1, h2, h3⟩ := ih (xs.set (p + i) xs[p + i + 1]) (i + 1) (by
      rcases h with h | h
      · omega
      · right; simp; omega)
    refine ⟨ys, h1, by simpa using h2, fun j => ?_⟩
    rw [h3 j, List.getElem?_set, List.getElem?_set]
    by_cases hj : j = p + i
    · subst hj
      rw [if_neg (by omega), if_pos rfl, if_pos hl, if_pos (by omega)]
      rw [← List.getElem?_eq_getElem hv]
    · by_cases hj2 : p + (i + 1) ≤ j ∧ j < p + (i + 1) + k
      · rw [if_pos hj2, if_neg (by omega), if_pos (by omega)]
      · rw [if_neg hj2, if_neg (by omega), if_neg (by omega)]

omit [Zero T] in
theorem pairwise_getElem? {xs : List T} (h : xs.Pairwise (· ≤ ·)) {i j : Nat} {a b : T}
    (hij : i ≤ j) (ha : xs[i]? = some a) (hb : xs[j]? = some b) : a ≤ b := by
  obtain ⟨hi, rfl⟩ := List.getElem?_eq_some_iff.mp ha
  obtain ⟨hj, rfl⟩ := List.getElem?_eq_some_iff.mp hb
  rcases Nat.lt_or_eq_of_le hij with h' | rfl
  · exact List.pairwise_iff_getElem.mp h i j hi hj h'
  · exact le_refl _

/-- `put` inserts the value into the sorted prefix. -/
theorem put_spec (s : State T) (v : T) (hsz : 1 ≤ s.size) (hl : s.sorted.length = s.size)
    (hp : (s.sorted.take (s.size - 1)).Pairwise (· ≤ ·)) :
    ∃ s', put s v = some s' ∧ s'.size = s.size ∧ s'.frame = s.frame ∧ s'.index = s.index ∧
      s'.sorted.Perm (v :: s.sorted.take (s.size - 1)) ∧ s'.sorted.Pairwise (· ≤ ·) := by
  have hs : ∀ i j a b, i ≤ j → j < s.size - 1 → s.sorted[i]? = some a → s.sorted[j]? = some b →
      a ≤ b := by
    intro i j a b hij hj ha hb
    refine pairwise_getElem? hp hij (i := i) (j := j) ?_ ?_
    · rw [List.getElem?_take, if_pos (by omega)]; exact ha
    · rw [List.getElem?_take, if_pos (by omega)]; exact hb
  obtain ⟨r, hr, h1, h2, h3⟩ := lowerBound_spec s.sorted v (s.size - 1) (by omega) hs 0 (s.size - 1)
    (by omega) (by intro i a hi; omega) (by intro i a hi hi2; omega)
  obtain ⟨ys, h4, h5, h6⟩ := shiftUp_spec s.sorted r (s.size - 1 - r) (by omega)
  refine ⟨{ s with sorted := ys.set r v }, ?_, rfl, rfl, rfl, ?_, ?_⟩
  · unfold put
    simp only [h1, h4, Option.bind_eq_bind, Option.bind_some]
    rw [if_pos (by omega)]
  all_goals
    have hys : ys.set r v = s.sorted.take r ++ v :: (s.sorted.take (s.size - 1)).drop r := by
      apply List.ext_getElem?
      intro j
      rw [List.getElem?_set, h6 j, List.getElem?_append]
      have hlt : (s.sorted.take r).length = r := by rw [List.length_take]; omega
      rw [hlt]
      by_cases hjr : r = j
      · subst hjr
        rw [if_pos rfl, if_pos (by omega), if_neg (by omega)]
        simp
      · rw [if_neg hjr]
        by_cases hjl : j < r
        · rw [if_neg (by omega), if_pos hjl, List.getElem?_take, if_pos hjl]
        · rw [if_neg hjl]
          obtain ⟨k, rfl⟩ : ∃ k, j = r + (k + 1) := ⟨j - r - 1, by omega⟩
          rw [show r + (k + 1) - r = k + 1 by omega, List.getElem?_cons_succ, List.getElem?_drop,
            List.getElem?_take]
          by_cases hk : r + k < s.size - 1
          · rw [if_pos (by omega), if_pos hk]; congr 1
          · rw [if_neg hk, if_neg (by omega), List.getElem?_eq_none (by omega)]
    have htake : s.sorted.take r = (s.sorted.take (s.size - 1)).take r := by
      rw [List.take_take]; congr 1; omega
    show _
    simp only []
    rw [hys, htake]
  · refine (List.perm_middle).trans ?_
    rw [List.take_append_drop]
  · rw [List.pairwise_append]
    refine ⟨hp.sublist (List.take_sublist _ _), ?_, ?_⟩
    · rw [List.pairwise_cons]
      refine ⟨?_, hp.sublist (List.drop_sublist _ _)⟩
      intro a ha
      obtain ⟨i, hi, rfl⟩ := List.mem_iff_getElem.mp ha
      have hi' : r + i < s.size - 1 := by
        rw [List.length_drop, List.length_take] at hi; omega
      refine h3 (r + i) _ (by omega) hi' ?_
      rw [List.getElem_drop, List.getElem_take, ← List.getElem?_eq_getElem]
    · intro a ha b hb
      rw [← htake] at ha
      obtain ⟨i, hi, rfl⟩ := List.mem_iff_getElem.mp ha
      have hi' : i < r := by rw [List.length_take] at hi; omega
      have hav : (s.sorted.take r)[i] < v := by
        refine h2 i _ hi' ?_
        rw [List.getElem_take, ← List.getElem?_eq_getElem]
      rcases List.mem_cons.mp hb with rfl | hb
      · exact le_of_lt hav
      · obtain ⟨k, hk, rfl⟩ := List.mem_iff_getElem.mp hb
        have hk' : r + k < s.size - 1 := by
          rw [List.length_drop, List.length_take] at hk; omega
        refine le_of_lt (lt_of_lt_of_le hav (h3 (r + k) _ (by omega) hk' ?_))
        rw [List.getElem_drop, List.getElem_take, ← List.getElem?_eq_getElem]

/-- `drop` removes one copy of a value that is present. -/
theorem drop_spec (s : State T) (v : T) (hsz : 1 ≤ s.size) (hl : s.sorted.length = s.size)
    (hp : s.sorted.Pairwise (· ≤ ·)) (hv : v ∈ s.sorted) :
    ∃ s', drop s v = some s' ∧ s'.size = s.size ∧ s'.frame = s.frame ∧ s'.index = s.index ∧
      s'.sorted.length = s.size ∧ (v :: s'.sorted.take (s.size - 1)).Perm s.sorted ∧
      (s'.sorted.take (s.size - 1)).Pairwise (· ≤ ·) := by
  have hs : ∀ i j a b, i ≤ j → j < s.size → s.sorted[i]? = some a → s.sorted[j]? = some b →
      a ≤ b := fun i j a b hij _ ha hb => pairwise_getElem? hp hij ha hb
  obtain ⟨r, hr, h1, h2, h3⟩ := lowerBound_spec s.sorted v s.size (by omega) hs 0 s.size
    (by omega) (by intro i a hi; omega) (by intro i a hi hi2; omega)
  obtain ⟨m, hm, hmv⟩ := List.mem_iff_getElem.mp hv
  have hrm : r ≤ m := by
    by_contra hc
    have := h2 m v (by omega) (by rw [List.getElem?_eq_getElem hm, hmv])
    exact lt_irrefl _ this
  have hrlt : r < s.sorted.length := by omega
  have hrv : s.sorted[r] = v := by
    apply le_antisymm
    · exact pairwise_getElem? hp hrm (List.getElem?_eq_getElem hrlt)
        (by rw [List.getElem?_eq_getElem hm, hmv])
    · exact h3 r _ (le_refl _) (by omega) (List.getElem?_eq_getElem hrlt)
  obtain ⟨ys, h4, h5, h6⟩ := shiftDown_spec s.sorted r 0 (s.size - 1 - r) (by omega)
  have hdrop : drop s v = some { s with sorted := ys.set (s.size - 1) 0 } := by
    unfold drop
    have : s.size - 1 + 1 = s.size := by omega
    simp only [this, h1, h4, Option.bind_eq_bind, Option.bind_some, List.getElem?_eq_getElem hrlt]
    rw [if_pos (by omega)]
  have htk : (ys.set (s.size - 1) 0).take (s.size - 1) = s.sorted.take r ++ s.sorted.drop (r + 1) := by
    apply List.ext_getElem?
    intro j
    have hlt : (s.sorted.take r).length = r := by rw [List.length_take]; omega
    rw [List.getElem?_take, List.getElem?_append, hlt]
    by_cases hj : j < s.size - 1
    · rw [if_pos hj, List.getElem?_set, if_neg (by omega), h6 j]
      by_cases hjr : j < r
      · rw [if_neg (by omega), if_pos hjr, List.getElem?_take, if_pos hjr]
      · rw [if_pos (by omega), if_neg hjr, List.getElem?_drop]; congr 1; omega
    · rw [if_neg hj]
      rw [if_neg (by omega), List.getElem?_drop, List.getElem?_eq_none (by omega)]
  have hsplit : s.sorted = s.sorted.take r ++ v :: s.sorted.drop (r + 1) := by
    conv_lhs => rw [← List.take_append_drop r s.sorted, List.drop_eq_getElem_cons hrlt, hrv]
  refine ⟨_, hdrop, rfl, rfl, rfl, by simp [h5, hl], ?_, ?_⟩
  · show (v :: (ys.set (s.size - 1) 0).take (s.size - 1)).Perm s.sorted
    rw [htk]
    conv_rhs => rw [hsplit]
    exact List.perm_middle.symm
  · show ((ys.set (s.size - 1) 0).take (s.size - 1)).Pairwise (· ≤ ·)
    rw [htk]
    rw [hsplit] at hp
    exact hp.sublist (List.Sublist.append_left (List.sublist_cons_self _ _) _)

/-- What every reachable filter satisfies. -/
structure Inv (s : State T) : Prop where
  size_pos : 1 ≤ s.size
  frame_len : s.frame.length = s.size
  perm : s.sorted.Perm s.frame
  sorted : s.sorted.Pairwise (· ≤ ·)

theorem reset_inv (s : State T) (h : 1 ≤ s.size) : Inv (reset s) where
  size_pos := h
  frame_len := by simp [reset]
  perm := by simp [reset]
  sorted := by simp [reset, List.pairwise_replicate]

theorem push_spec (s : State T) (v : Option T) (h : Inv s) :
    ∃ s', push s v = some s' ∧ Inv s' ∧ s'.size = s.size ∧ s'.index = s.index ∧
      s'.frame = s.frame.drop 1 ++ [v.getD 0] := by
  obtain ⟨hsz, hfl, hperm, hsort⟩ := h
  have h0 : 0 < s.frame.length := by omega
  obtain ⟨s1, h1, h2, h3, h4, h5, h6, h7⟩ := drop_spec s s.frame[0] hsz
    (by rw [hperm.length_eq, hfl]) hsort (hperm.mem_iff.mpr (List.getElem_mem _))
  obtain ⟨ys, h8, h9, h10⟩ := shiftDown_spec s1.frame 0 0 (s.size - 1) (by rw [h3, hfl]; omega)
  have hset : ys.set (s.size - 1) (v.getD 0) = s.frame.drop 1 ++ [v.getD 0] := by
    apply List.ext_getElem?
    intro j
    rw [List.getElem?_set, List.getElem?_append, List.length_drop, hfl, h9, h3, hfl]
    by_cases hj : s.size - 1 = j
    · rw [if_pos hj, if_pos (by omega), if_neg (by omega), hj]; simp
    · rw [if_neg hj, h10, h3]
      by_cases hj' : j < s.size - 1
      · rw [if_pos (by omega), if_pos hj', List.getElem?_drop, Nat.add_comm]
      · rw [if_neg (by omega), if_neg hj', List.getElem?_eq_none (by omega),
          List.getElem?_eq_none (by simp; omega)]
  obtain ⟨s2, p1, p2, p3, p4, p5, p6⟩ := put_spec
    { s1 with frame := ys.set (s.size - 1) (v.getD 0) } (v.getD 0)
    (by show 1 ≤ s1.size; omega) (by show s1.sorted.length = s1.size; omega)
    (by show (s1.sorted.take (s1.size - 1)).Pairwise _; rw [h2]; exact h7)
  refine ⟨s2, ?_, ⟨by rw [p2]; show 1 ≤ s1.size; omega, ?_, ?_, p6⟩, by rw [p2]; exact h2,
    by rw [p4]; exact h4, by rw [p3]; exact hset⟩
  · unfold push
    simp only [List.getElem?_eq_getElem h0, h1, h2, h8, Option.bind_eq_bind, Option.bind_some]
    rw [if_pos (by rw [h9, h3, hfl]; omega)]
    rw [h2] at p1
    exact p1
  · rw [p3, p2]
    show (ys.set (s.size - 1) (v.getD 0)).length = s1.size
    rw [List.length_set, h9, h3, hfl, h2]
  · rw [p3]
    refine p5.trans ?_
    show (v.getD 0 :: s1.sorted.take (s1.size - 1)).Perm (ys.set (s.size - 1) (v.getD 0))
    rw [hset, h2]
    refine List.Perm.trans ?_ (List.perm_append_comm (l₁ := [v.getD 0]))
    refine List.Perm.cons _ ?_
    have hc : (s.frame[0] :: s1.sorted.take (s.size - 1)).Perm (s.frame[0] :: s.frame.drop 1) := by
      refine h6.trans (hperm.trans ?_)
      conv_lhs => rw [← List.drop_zero (l := s.frame), List.drop_eq_getElem_cons h0]
    exact hc.cons_inv

end QM.MedianFilter
