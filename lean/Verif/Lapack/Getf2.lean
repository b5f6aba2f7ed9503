import Verif.Lapack.FirstZero
import Verif.Lapack.BlasLemmas2
import Mathlib.Tactic.FieldSimp

/-!
# LU factors of a panel (`dgetf2_`)
-/

namespace QM.Lapack

open Finset Equiv

variable {K : Type} [Field K] {L : Nat} {f g : Nat → Nat → K} {a : List K}

/-- The unit lower triangle of `G`. -/
def lo (G : Nat → Nat → K) (i l : Nat) : K := if i = l then 1 else if l < i then G i l else 0

/-- The upper triangle of `G`. -/
def up (G : Nat → Nat → K) (l j : Nat) : K := if l ≤ j then G l j else 0

/-- After `k` columns: the factors so far, and what is left. -/
def Elim (m n k : Nat) (F G : Nat → Nat → K) : Prop :=
  ∀ i j, i < m → j < n → F i j = ∑ l ∈ range k, lo G i l * up G l j + if k ≤ i ∧ k ≤ j then G i j else 0

theorem Elim.swap {m n k p q : Nat} {F G : Nat → Nat → K} (h : Elim m n k F G) (hp : k ≤ p) (hq : k ≤ q) (hp' : p < m) (hq' : q < m) :
    Elim m n k (fun i j => F (Equiv.swap p q i) j) (fun i j => G (Equiv.swap p q i) j) := by
  intro i j hi hj
  have hs : Equiv.swap p q i < m := by rw [swap_apply_def]; split <;> [exact hq'; split <;> [exact hp'; exact hi]]
  have hk : (k ≤ Equiv.swap p q i ↔ k ≤ i) := by rw [swap_apply_def]; grind
  beta_reduce
  rw [h _ j hs hj]
  simp only [hk]
  congr 1
  refine sum_congr rfl fun l hl => ?_
  rw [mem_range] at hl
  unfold lo up
  beta_reduce
  rw [swap_apply_of_ne_of_ne (a := p) (b := q) (x := l) (by omega) (by omega), swap_apply_def]
  grind

/-- The elimination of one column. -/
def elim (G : Nat → Nat → K) (k i j : Nat) : K :=
  if k < i ∧ j = k then G i k / G k k else if k < i ∧ k < j then G i j - G i k / G k k * G k j else G i j

theorem Elim.step {m n k : Nat} {F G G' : Nat → Nat → K} (h : Elim m n k F G) (hk : k < n) (hkm : k < m)
    (h0 : G k k = 0 → ∀ i, k < i → i < m → G i k = 0) (hG : ∀ i j, i < m → j < n → G' i j = elim G k i j) : Elim m n (k + 1) F G' := by
  intro i j hi hj
  have e1 : ∑ l ∈ range k, lo G' i l * up G' l j = ∑ l ∈ range k, lo G i l * up G l j := by
    refine sum_congr rfl fun l hl => ?_
    rw [mem_range] at hl
    unfold lo up
    rw [hG i l hi (by omega), hG l j (by omega) hj]
    unfold elim
    rw [if_neg (show ¬(k < i ∧ l = k) by omega), if_neg (show ¬(k < i ∧ k < l) by omega), if_neg (show ¬(k < l ∧ j = k) by omega),
      if_neg (show ¬(k < l ∧ k < j) by omega)]
  rw [h i j hi hj, sum_range_succ, e1, add_assoc]
  congr 1
  unfold lo up
  rw [hG i k hi hk, hG k j hkm hj, hG i j hi hj]
  unfold elim
  rcases lt_trichotomy i k with hik | hik | hik
  · rw [if_neg (show ¬(k ≤ i ∧ k ≤ j) by omega), if_neg (show ¬ i = k by omega), if_neg (show ¬ k < i by omega),
      if_neg (show ¬(k + 1 ≤ i ∧ k + 1 ≤ j) by omega)]
    ring
  · subst hik
    rw [if_pos (show i = i from rfl), if_neg (show ¬(i < i ∧ j = i) by omega), if_neg (show ¬(i < i ∧ i < j) by omega),
      if_neg (show ¬(i + 1 ≤ i ∧ i + 1 ≤ j) by omega)]
    by_cases hj : i ≤ j
    · rw [if_pos ⟨le_rfl, hj⟩, if_pos hj]; ring
    · rw [if_neg (by omega), if_neg hj]; ring
  · rw [if_neg (show ¬ i = k by omega), if_pos hik, if_pos (show k < i ∧ k = k from ⟨hik, rfl⟩), if_neg (show ¬(k < k ∧ j = k) by omega),
      if_neg (show ¬(k < k ∧ k < j) by omega)]
    rcases lt_trichotomy j k with hjk | hjk | hjk
    · rw [if_neg (show ¬(k ≤ i ∧ k ≤ j) by omega), if_neg (show ¬ k ≤ j by omega), if_neg (show ¬(k + 1 ≤ i ∧ k + 1 ≤ j) by omega)]
      ring
    · subst hjk
      rw [if_pos (show j ≤ i ∧ j ≤ j by omega), if_pos le_rfl, if_neg (show ¬(j + 1 ≤ i ∧ j + 1 ≤ j) by omega), add_zero]
      by_cases hz : G j j = 0
      · rw [h0 hz i hik hi]; simp
      · rw [div_mul_cancel₀ _ hz]
    · rw [if_pos (show k ≤ i ∧ k ≤ j by omega), if_pos (show k ≤ j by omega), if_pos (show k + 1 ≤ i ∧ k + 1 ≤ j by omega),
        if_neg (show ¬(k < i ∧ j = k) by omega), if_pos (show k < i ∧ k < j by omega)]
      ring

variable [LinearOrder K]

theorem dv_ok {y : K} (x : K) (h : y ≠ 0) : dv x y = some (x / y) := by unfold dv; rw [if_neg h]

/-- The multipliers of one column. -/
theorem scaleColumn_ok (sfmin : K) (h : Cols L f a) {r c m k o : Nat} (hr : r + m ≤ L) (hc : c + k < L) (hk : k < m) (ho : o = r + c * L)
    (h0 : f (r + k) (c + k) ≠ 0) : ∃ a', scaleColumn sfmin a m o L k = some a' ∧
      Cols L (fun x y => if y = c + k ∧ r + (k + 1) ≤ x ∧ x < r + m then f x y / f (r + k) (c + k) else f x y) a' := by
  have e1 : ∀ i, o + i + k * L = r + i + (c + k) * L := fun i => by rw [ho]; ring
  unfold scaleColumn
  by_cases hm : k + 1 < m
  · rw [if_pos hm, bind_ok (h.rd (i := r + k) (j := c + k) (by omega) hc (e1 k))]
    by_cases hs : sfmin ≤ |f (r + k) (c + k)|
    · rw [if_pos hs, bind_ok (dv_ok 1 h0)]
      obtain ⟨a', h1, h2⟩ := dscal_ok h (r := r + (k + 1)) (m := m - (k + 1)) (c := c + k) (by omega) hc (1 / f (r + k) (c + k)) (e1 (k + 1))
      refine ⟨a', h1, h2.congr fun x y _ _ => ?_⟩
      by_cases h3 : y = c + k ∧ r + (k + 1) ≤ x ∧ x < r + m
      · rw [if_pos (by omega), if_pos h3, h3.1]; ring
      · rw [if_neg (by omega), if_neg h3]
    · rw [if_neg hs]
      obtain ⟨a', h1, h2⟩ := column_ok h (r := r + (k + 1)) (m := m - (k + 1)) (c := c + k) (by omega) hc (fun x => f x (c + k) / f (r + k) (c + k))
        (op := fun i a => do
          let x ← a[o + (k + 1 + i) + k * L]?
          let d ← a[o + k + k * L]?
          let q ← dv x d
          wr a (o + (k + 1 + i) + k * L) q) (by
          intro i a' hi h1
          have e2 : a'[o + k + k * L]? = some (f (r + k) (c + k)) := by
            rw [h1.rd (i := r + k) (j := c + k) (by omega) hc (e1 k)]
            beta_reduce
            rw [if_neg (by omega)]
          have e3 : a'[o + (k + 1 + i) + k * L]? = some (f (r + (k + 1) + i) (c + k)) := by
            rw [h1.rd (i := r + (k + 1) + i) (j := c + k) (by omega) hc (by rw [e1]; ring)]
            beta_reduce
            rw [if_neg (by omega)]
          rw [bind_ok e3, bind_ok e2, bind_ok (dv_ok _ h0), e1]
          congr 2
          ring)
      refine ⟨a', h1, h2.congr fun x y _ _ => ?_⟩
      by_cases h3 : y = c + k ∧ r + (k + 1) ≤ x ∧ x < r + m
      · rw [if_pos (by omega), if_pos h3, h3.1]
      · rw [if_neg (by omega), if_neg h3]
  · rw [if_neg hm]
    exact ⟨a, rfl, h.congr fun x y _ _ => by rw [if_neg (by omega)]⟩

/-- The exchange and the multipliers. -/
theorem pivotColumn_ok (sfmin : K) (h : Cols L f a) {r c m n k q o : Nat} (hr : r + m ≤ L) (hc : c + n ≤ L) (hk : k < n) (hkm : k < m) (hkq : k ≤ q)
    (hq : q < m) (ho : o = r + c * L) (h0 : f (r + q) (c + k) ≠ 0) : ∃ a', pivotColumn sfmin a m n o L k (q + 1) (f (r + q) (c + k)) = some a' ∧
      Cols L (fun x y => if y = c + k ∧ r + (k + 1) ≤ x ∧ x < r + m then swapR f (r + k) (r + q) c n x y / swapR f (r + k) (r + q) c n (r + k) (c + k)
        else swapR f (r + k) (r + q) c n x y) a' := by
  unfold pivotColumn
  rw [if_pos h0]
  have key : ∃ a1, exchange a n o L k (q + 1) = some a1 ∧ Cols L (swapR f (r + k) (r + q) c n) a1 := by
    unfold exchange
    by_cases e : q = k
    · subst e
      rw [if_neg (by simp)]
      refine ⟨a, rfl, h.congr fun x y _ _ => ?_⟩
      unfold swapR
      rw [swap_self]
      split <;> rfl
    · rw [if_pos (by omega)]
      exact dswap_rows h (by omega) (by omega) hc (by omega) (by rw [ho]; ring) (by rw [ho, Nat.add_sub_cancel]; ring)
  obtain ⟨a1, h1, h2⟩ := key
  rw [bind_ok h1]
  refine scaleColumn_ok sfmin h2 hr (by omega) hkm ho ?_
  unfold swapR
  rw [if_pos (by omega), swap_apply_left]
  exact h0

/-- The matrix after one column. -/
def stepF (g : Nat → Nat → K) (r c m n k q : Nat) : Nat → Nat → K := fun x y =>
  if (r ≤ x ∧ x < r + m) ∧ c ≤ y ∧ y < c + n then elim (fun i j => g (r + swap k q i) (c + j)) k (x - r) (y - c) else g x y

/-- One column of `dgetf2_`: the pivot is the first of largest absolute value. -/
theorem getf2Step_ok (sfmin : K) {s : Lu K} (h : Cols L g s.a) {r c m n k o po : Nat} (hr : r + m ≤ L) (hc : c + n ≤ L) (hk : k < n) (hnm : n ≤ m)
    (ho : o = r + c * L) (hp : po + k < s.piv.length) :
    ∃ q, k ≤ q ∧ q < m ∧ (∀ i, k ≤ i → i < m → |g (r + i) (c + k)| ≤ |g (r + q) (c + k)|) ∧
      (∀ i, k ≤ i → i < q → |g (r + i) (c + k)| < |g (r + q) (c + k)|) ∧
      ((∀ i, k ≤ i → i < m → g (r + i) (c + k) = 0) ∨ g (r + q) (c + k) ≠ 0 → ∃ s', getf2Step sfmin m n o L po k s = some s' ∧
        Cols L (stepF g r c m n k q) s'.a ∧ s'.piv = s.piv.set (po + k) (q + 1) ∧
        s'.info = if g (r + q) (c + k) = 0 ∧ s.info = 0 then k + 1 else s.info) := by
  have e1 : ∀ i j, o + i + j * L = r + i + (c + j) * L := fun i j => by rw [ho]; ring
  obtain ⟨t, h1, h2, h3, h4⟩ := idamax_ok (a := s.a) (o := o + k + k * L) (n := m - k) (v := fun i => g (r + (k + i)) (c + k)) (by omega)
    (fun i hi => h.rd (by omega) (by omega) (by rw [e1]; ring))
  refine ⟨k + t, by omega, by omega, fun i hi1 hi2 => ?_, fun i hi1 hi2 => ?_, ?_⟩
  · have := h3 (i - k) (by omega)
    rwa [show k + (i - k) = i by omega] at this
  · have := h4 (i - k) (by omega)
    rwa [show k + (i - k) = i by omega] at this
  intro hz
  unfold getf2Step
  rw [bind_ok h2]
  dsimp only
  have ew : wr s.piv (po + k) (k + (t + 1)) = some (s.piv.set (po + k) (k + t + 1)) := wr_some _ hp
  rw [bind_ok ew, bind_ok (h.rd (i := r + (k + t)) (j := c + k) (by omega) (by omega) (by rw [e1]; congr 2))]
  generalize hq : k + t = q at *
  have hkq : k ≤ q := by omega
  have hqm : q < m := by omega
  let H : Nat → Nat → K := fun x y => if y = c + k ∧ r + (k + 1) ≤ x ∧ x < r + m then
    swapR g (r + k) (r + q) c n x y / swapR g (r + k) (r + q) c n (r + k) (c + k) else swapR g (r + k) (r + q) c n x y
  have hsw : swapR g (r + k) (r + q) c n (r + k) (c + k) = g (r + q) (c + k) := by
    unfold swapR
    rw [if_pos (by omega), swap_apply_left]
  have key : ∃ a1, pivotColumn sfmin s.a m n o L k (k + (t + 1)) (g (r + q) (c + k)) = some a1 ∧ Cols L H a1 := by
    by_cases h0 : g (r + q) (c + k) = 0
    · unfold pivotColumn
      rw [if_neg (by simp [h0])]
      refine ⟨_, rfl, h.congr fun x y hx hy => ?_⟩
      rcases hz with hz | hz
      swap
      · exact absurd h0 hz
      have hqk : q = k := by
        by_contra hne
        have := h4 0 (by omega)
        rw [Nat.add_zero, hz k le_rfl (by omega), h0] at this
        exact lt_irrefl _ this
      have e : swapR g (r + k) (r + q) c n x y = g x y := by
        unfold swapR
        rw [hqk, swap_self]
        split <;> rfl
      show g x y = if _ then _ else _
      rw [hsw, e, h0]
      split
      · next h5 =>
        have := hz (x - r) (by omega) (by omega)
        rw [show r + (x - r) = x by omega] at this
        rw [h5.1, this, zero_div]
      · rfl
    · rw [show k + (t + 1) = q + 1 by omega]
      exact pivotColumn_ok sfmin h hr hc hk (by omega) hkq hqm ho h0
  obtain ⟨a1, h5, h6⟩ := key
  rw [bind_ok h5]
  have hH : ∀ x y, (¬((r ≤ x ∧ x < r + m) ∧ c ≤ y ∧ y < c + n) → H x y = g x y) ∧
      (((r ≤ x ∧ x < r + m) ∧ c ≤ y ∧ y < c + n) → H x y = if y - c = k ∧ k < x - r then g (r + swap k q (x - r)) y / g (r + q) (c + k) else
        g (r + swap k q (x - r)) y) := by
    intro x y
    constructor
    · intro hn
      show (if _ then _ else _) = _
      rw [if_neg (by omega)]
      unfold swapR
      split
      · rw [swap_apply_of_ne_of_ne (by omega) (by omega)]
      · rfl
    · intro hin
      have e : swapR g (r + k) (r + q) c n x y = g (r + swap k q (x - r)) y := by
        unfold swapR
        rw [if_pos hin.2, swap_apply_def, swap_apply_def]
        grind
      show (if _ then _ else _) = _
      rw [hsw, e]
      by_cases h7 : y - c = k ∧ k < x - r
      · rw [if_pos (by omega), if_pos h7]
      · rw [if_neg (by omega), if_neg h7]
  have key2 : ∃ a2, updateRest a1 m n o L k = some a2 ∧ Cols L (stepF g r c m n k q) a2 := by
    unfold updateRest
    have fin : ∀ x y, (if (r + (k + 1) ≤ x ∧ x < r + (k + 1) + (m - (k + 1))) ∧ c + (k + 1) ≤ y ∧ y < c + (k + 1) + (n - (k + 1)) then
        H x y + H x (c + k) * (-1 * H (r + k) y) else H x y) = stepF g r c m n k q x y := by
      intro x y
      unfold stepF
      by_cases hin : (r ≤ x ∧ x < r + m) ∧ c ≤ y ∧ y < c + n
      · rw [if_pos hin, (hH x y).2 hin, (hH x (c + k)).2 (by omega), (hH (r + k) y).2 (by omega)]
        unfold elim
        simp only [Nat.add_sub_cancel_left, swap_apply_left, lt_irrefl, and_false, if_false, true_and]
        rw [show c + (y - c) = y by omega]
        by_cases h8 : k < x - r
        · by_cases h9 : y - c = k
          · rw [if_neg (by omega), if_pos ⟨h9, h8⟩, if_pos ⟨h8, h9⟩, show c + k = y by omega]
          · rw [if_neg (c := y - c = k ∧ _) (by omega), if_neg (c := _ ∧ y - c = k) (by omega)]
            by_cases h10 : k < y - c
            · rw [if_pos (by omega), if_pos h8, if_pos ⟨h8, h10⟩]
              ring
            · rw [if_neg (by omega), if_neg (by omega)]
        · rw [if_neg (by omega), if_neg (by omega), if_neg (by omega), if_neg (by omega)]
      · rw [if_neg hin, if_neg (by omega), (hH x y).1 hin]
    by_cases hm : k + 1 < min m n
    · rw [if_pos hm]
      obtain ⟨a2, h7, h8⟩ := dger_ok h6 (r := r + (k + 1)) (m := m - (k + 1)) (c := c + (k + 1)) (n := n - (k + 1)) (d := c + k) (e := r + k)
        (alpha := -1) (by omega) (by omega) (by omega) (by omega) (e1 (k + 1) k) (e1 k (k + 1)) (e1 (k + 1) (k + 1))
      exact ⟨a2, h7, h8.congr fun x y _ _ => fin x y⟩
    · rw [if_neg hm]
      refine ⟨a1, rfl, h6.congr fun x y _ _ => ?_⟩
      rw [← fin x y, if_neg (by omega)]
  obtain ⟨a2, h7, h8⟩ := key2
  rw [bind_ok h7]
  exact ⟨_, rfl, h8, rfl, rfl⟩

end QM.Lapack
