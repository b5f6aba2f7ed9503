import Verif.Lapack.Getf2
import Mathlib.Algebra.Order.Field.Basic
import Mathlib.Algebra.Order.AbsoluteValue.Basic

/-!
# All columns of a panel (`dgetf2_`)
-/

namespace QM.Lapack

open Finset Equiv

variable {K : Type} [Field K] [LinearOrder K] [IsStrictOrderedRing K] {L : Nat} {f g : Nat → Nat → K} {a : List K}

/-- What `dgetf2_` has done to the `m` by `n` panel at row `r` and column `c` of the matrix `f` after `k` columns: `g` is the matrix now, `P` the
pivots. -/
structure Panel (f : Nat → Nat → K) (r c m n po : Nat) (piv0 : List Nat) (k : Nat) (g : Nat → Nat → K) (P : Nat → Nat) (pv : List Nat) (inf : Nat) :
    Prop where
  out : ∀ x y, ¬((r ≤ x ∧ x < r + m) ∧ c ≤ y ∧ y < c + n) → g x y = f x y
  rows : ∀ i < k, r + i ≤ P (r + i) ∧ P (r + i) < r + m
  elim : Elim m n k (fun i j => f (pivPerm P r k (r + i)) (c + j)) (fun i j => g (r + i) (c + j))
  len : pv.length = piv0.length
  piv : ∀ i < k, pv[po + i]? = some (P (r + i) + 1 - r)
  rest : ∀ i, i < po ∨ po + k ≤ i → pv[i]? = piv0[i]?
  small : ∀ i l, l < k → l < i → i < m → |g (r + i) (c + l)| ≤ 1
  info : FirstZero k (fun i => g (r + i) (c + i)) inf

theorem add_swap (r k q i : Nat) : swap (r + k) (r + q) (r + i) = r + swap k q i := by
  rw [swap_apply_def, swap_apply_def]
  grind

/-- One column more. -/
theorem Panel.step {r c m n po k q : Nat} {piv0 piv : List Nat} {P : Nat → Nat} {info : Nat} (h : Panel f r c m n po piv0 k g P piv info) (hk : k < n)
    (hnm : n ≤ m) (hkq : k ≤ q) (hq : q < m) (hp : po + n ≤ piv0.length) (hmax : ∀ i, k ≤ i → i < m → |g (r + i) (c + k)| ≤ |g (r + q) (c + k)|)
    : Panel f r c m n po piv0 (k + 1) (stepF g r c m n k q) (Function.update P (r + k) (r + q)) (piv.set (po + k) (q + 1))
      (if g (r + q) (c + k) = 0 ∧ info = 0 then k + 1 else info) := by
  have hP : ∀ i < k, Function.update P (r + k) (r + q) (r + i) = P (r + i) := fun i hi => by rw [Function.update_of_ne (by omega)]
  have hperm : pivPerm (Function.update P (r + k) (r + q)) r (k + 1) = pivPerm P r k * swap (r + k) (r + q) := by
    rw [pivPerm, pivPerm_congr hP, Function.update_self]
  have hin : ∀ i j, i < m → j < n → stepF g r c m n k q (r + i) (c + j) = QM.Lapack.elim (fun i j => g (r + swap k q i) (c + j)) k i j := by
    intro i j hi hj
    unfold stepF
    rw [if_pos (by omega), Nat.add_sub_cancel_left, Nat.add_sub_cancel_left]
  have hz : g (r + q) (c + k) = 0 → ∀ i, k ≤ i → i < m → g (r + i) (c + k) = 0 := by
    intro h0 i h1 h2
    have := hmax i h1 h2
    rwa [h0, abs_zero, abs_nonpos_iff] at this
  have hswm : ∀ i, i < m → swap k q i < m := fun i hi => by rw [swap_apply_def]; grind
  have hswk : ∀ i, k ≤ i → k ≤ swap k q i := fun i hi => by rw [swap_apply_def]; grind
  refine ⟨fun x y hxy => ?_, fun i hi => ?_, ?_, by simp [h.len], fun i hi => ?_, fun i hi => ?_, fun i l hl hli hi => ?_, ?_⟩
  · unfold stepF
    rw [if_neg hxy, h.out x y hxy]
  · by_cases e : i = k
    · rw [e, Function.update_self]; omega
    · rw [hP i (by omega)]
      exact h.rows i (by omega)
  · have h1 := (h.elim.swap le_rfl hkq (by omega) hq).step hk (by omega) (G' := fun i j => stepF g r c m n k q (r + i) (c + j))
      (by
        intro h0 i hki him
        beta_reduce at h0 ⊢
        rw [swap_apply_left] at h0
        exact hz h0 _ (hswk i (by omega)) (hswm i him))
      hin
    rw [hperm]
    intro i j hi hj
    rw [← h1 i j hi hj]
    beta_reduce
    rw [Perm.mul_apply, add_swap]
  · by_cases e : i = k
    · rw [e, List.getElem?_set_self (by rw [h.len]; omega), Function.update_self]
      congr 1
      omega
    · rw [List.getElem?_set_ne (by omega), hP i (by omega)]
      exact h.piv i (by omega)
  · rw [List.getElem?_set_ne (by omega)]
    exact h.rest i (by omega)
  · rw [hin i l hi (by omega)]
    unfold QM.Lapack.elim
    beta_reduce
    by_cases e : l = k
    · subst e
      rw [if_pos ⟨hli, rfl⟩]
      rw [swap_apply_left, abs_div]
      have h1 := hmax (swap l q i) (hswk i (by omega)) (hswm i hi)
      exact div_le_one_of_le₀ h1 (abs_nonneg _)
    · rw [if_neg (by omega), if_neg (by omega)]
      by_cases hik : k ≤ i
      · exact h.small _ l (by omega) (lt_of_lt_of_le (by omega) (hswk i hik)) (hswm i hi)
      · rw [swap_apply_of_ne_of_ne (by omega) (by omega)]
        exact h.small i l (by omega) hli hi
  · have hd : ∀ i < k, stepF g r c m n k q (r + i) (c + i) = g (r + i) (c + i) := by
      intro i hi
      rw [hin i i (by omega) (by omega)]
      unfold QM.Lapack.elim
      beta_reduce
      rw [if_neg (by omega), if_neg (by omega), swap_apply_of_ne_of_ne (by omega) (by omega)]
    have hdk : stepF g r c m n k q (r + k) (c + k) = g (r + q) (c + k) := by
      rw [hin k k (by omega) (by omega)]
      unfold QM.Lapack.elim
      beta_reduce
      rw [if_neg (by omega), if_neg (by omega), swap_apply_left]
    have h1 := h.info.succ (d' := fun i => stepF g r c m n k q (r + i) (c + i)) hd
    beta_reduce at h1
    rw [hdk] at h1
    exact h1

/-- `dgetf2_` factors a panel. -/
theorem dgetf2_ok (sfmin : K) (h : Cols L f a) {r c m n o po : Nat} {piv : List Nat} (hr : r + m ≤ L) (hc : c + n ≤ L) (hnm : n ≤ m)
    (ho : o = r + c * L) (hp : po + n ≤ piv.length) :
    ∃ s g P, dgetf2 sfmin m n o L po a piv = some s ∧ Cols L g s.a ∧ Panel f r c m n po piv n g P s.piv s.info := by
  unfold dgetf2
  rw [Nat.min_eq_right hnm]
  obtain ⟨s, h1, g, P, h2, h3⟩ := loop_inv n (fun j s => getf2Step sfmin m n o L po j s) ⟨a, piv, 0⟩
    (fun k s => ∃ g P, Cols L g s.a ∧ Panel f r c m n po piv k g P s.piv s.info)
    ⟨f, id, h, fun _ _ _ => rfl, fun _ hi => absurd hi (by omega), fun i j _ _ => by simp [pivPerm], rfl, fun _ hi => absurd hi (by omega),
      fun _ _ => rfl, fun _ _ hl => absurd hl (by omega), FirstZero.zero _⟩
    (by
      rintro k s hk ⟨g, P, h2, h3⟩
      obtain ⟨q, h4, h5, h6, h7, h8⟩ := getf2Step_ok sfmin h2 (k := k) (po := po) hr hc hk hnm ho (by rw [h3.len]; omega)
      obtain ⟨s', h9, h10, h11, h12⟩ := h8 (by
        by_cases h0 : g (r + q) (c + k) = 0
        · refine Or.inl fun i hi1 hi2 => ?_
          have := h6 i hi1 hi2
          rwa [h0, abs_zero, abs_nonpos_iff] at this
        · exact Or.inr h0)
      refine ⟨s', h9, _, Function.update P (r + k) (r + q), h10, ?_⟩
      rw [h11, h12]
      exact h3.step hk hnm h4 h5 hp h6)
  exact ⟨s, g, P, h1, h2, h3⟩

end QM.Lapack
