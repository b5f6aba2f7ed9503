import Verif.PolyFit.Gauss
import Mathlib.Algebra.Polynomial.Roots
import Mathlib.Algebra.Polynomial.BigOperators
import Mathlib.Algebra.BigOperators.Field
import Mathlib.Algebra.Order.BigOperators.Ring.Finset
import Mathlib.Tactic.Positivity

namespace QM.PolyFit

/-! ## Specification -/

/-- The value at `t` of the polynomial with coefficients `c`, constant term first. -/
noncomputable def evalPoly (c : List ℝ) (t : ℝ) : ℝ := ∑ j ∈ Finset.range c.length, c.getD j 0 * t ^ j

/-- The sum of squared residuals of the polynomial at the points. -/
noncomputable def residual (x y c : List ℝ) : ℝ := ∑ i ∈ Finset.range x.length, (evalPoly c (x.getD i 0) - y.getD i 0) ^ 2

/-- The sum of squared deviations of the values from their mean. -/
noncomputable def deviation (y : List ℝ) : ℝ :=
  ∑ i ∈ Finset.range y.length, (y.getD i 0 - (∑ k ∈ Finset.range y.length, y.getD k 0) / y.length) ^ 2

/-! ## The normal equations -/

theorem iter_sum (n : Nat) (f : Nat → ℝ) : iter n (fun i s => s + f i) 0 = ∑ i ∈ Finset.range n, f i :=
  iter_inv n (fun i s => s + f i) 0 (fun i s => s = ∑ j ∈ Finset.range i, f j) (by simp)
    (by rintro i s _ rfl; rw [Finset.sum_range_succ])

theorem dataMatrix_ok (x : List ℝ) (p t : Nat) (ht : 1 ≤ t) (i j : Nat) (hi : i < p) (hj : j < t) :
    dataMatrix x p t i j = x.getD i 0 ^ j := by
  unfold dataMatrix
  refine iter_inv p _ _ (fun i' (m : Nat → Nat → ℝ) => ∀ i j, i < i' → j < t → m i j = x.getD i 0 ^ j) (by intro i j h; omega) ?_ i j hi hj
  intro k m hk hm i j hi hj
  have := iter_inv (t - 1) (fun j m => upd2 m k (j + 1) (m k j * x.getD k 0)) (upd2 m k 0 1)
    (fun j' (s : Nat → Nat → ℝ) => (∀ j, j ≤ j' → s k j = x.getD k 0 ^ j) ∧ ∀ i j, i ≠ k → s i j = m i j)
    ⟨fun j hj => by obtain rfl : j = 0 := by omega
                    simp [upd2], fun i j hne => by simp [upd2, hne]⟩
    (by
      rintro j' s hj' ⟨h1, h2⟩
      refine ⟨fun j hj => ?_, fun i j hne => by simp [upd2, hne, h2 i j hne]⟩
      by_cases he : j = j' + 1
      · subst he; simp [upd2, h1 j' le_rfl, pow_succ]
      · simp [upd2, he, h1 j (by omega)])
  by_cases he : i = k
  · subst he; exact this.1 j (by omega)
  · rw [this.2 i j he]; exact hm i j (by omega) hj

theorem square_ok (x : Nat → Nat → ℝ) (y : Nat → ℝ) (a : Nat → Nat → ℝ) (g : Nat → ℝ) (nrow ncol : Nat) (hr : 0 < nrow) :
    (∀ k l, k < ncol → l < ncol → (square x y a g nrow ncol).1 k l = ∑ i ∈ Finset.range nrow, x i k * x i l) ∧
    ∀ k, k < ncol → (square x y a g nrow ncol).2 k = ∑ i ∈ Finset.range nrow, y i * x i k := by
  unfold square
  have main := iter_inv ncol (fun k (s : (Nat → Nat → ℝ) × (Nat → ℝ)) =>
    let a := iter (k + 1) (fun l a =>
      iter nrow (fun i a =>
        let a := upd2 a k l (a k l + x i l * x i k)
        if k ≠ l then upd2 a l k (a k l) else a) (upd2 a k l 0)) s.1
    let g := iter nrow (fun i g => upd g k (g k + y i * x i k)) (upd s.2 k 0)
    (a, g)) (a, g)
    (fun k' s => (∀ k l, k < k' → l < k' → s.1 k l = ∑ i ∈ Finset.range nrow, x i k * x i l) ∧
      ∀ k, k < k' → s.2 k = ∑ i ∈ Finset.range nrow, y i * x i k)
    ⟨fun k l h => absurd h (Nat.not_lt_zero k), fun k h => absurd h (Nat.not_lt_zero k)⟩
    (by
      rintro k ⟨a, g⟩ hk ⟨h1, h2⟩
      dsimp only at h1 h2 ⊢
      constructor
      · have := iter_inv (k + 1) (fun l a =>
          iter nrow (fun i a =>
            let a := upd2 a k l (a k l + x i l * x i k)
            if k ≠ l then upd2 a l k (a k l) else a) (upd2 a k l 0)) a
          (fun l' (s : Nat → Nat → ℝ) => (∀ k' l, k' < k → l < k → s k' l = ∑ i ∈ Finset.range nrow, x i k' * x i l) ∧
            ∀ l, l < l' → s k l = ∑ i ∈ Finset.range nrow, x i k * x i l ∧ s l k = ∑ i ∈ Finset.range nrow, x i k * x i l)
          ⟨h1, fun l h => absurd h (Nat.not_lt_zero l)⟩
          (by
            rintro l a hl ⟨g1, g2⟩
            have := iter_inv nrow (fun i a =>
                let a := upd2 a k l (a k l + x i l * x i k)
                if k ≠ l then upd2 a l k (a k l) else a) (upd2 a k l 0)
              (fun i' (s : Nat → Nat → ℝ) => s k l = ∑ i ∈ Finset.range i', x i k * x i l ∧ (0 < i' → s l k = s k l) ∧
                ∀ r c, ¬(r = k ∧ c = l) → ¬(r = l ∧ c = k) → s r c = a r c)
              ⟨by simp [upd2], fun h => absurd h (lt_irrefl _), fun r c n1 _ => by simp [upd2, n1]⟩
              (by
                rintro i s hi ⟨f1, f2, f3⟩
                dsimp only
                by_cases hkl : k = l
                · subst hkl
                  simp only [ne_eq, not_true_eq_false, if_false]
                  refine ⟨by simp [upd2, f1, Finset.sum_range_succ], fun _ => trivial, fun r c n1 n2 => ?_⟩
                  simp [upd2, n1, f3 r c n1 n2]
                · rw [if_pos hkl]
                  refine ⟨?_, fun _ => ?_, fun r c n1 n2 => ?_⟩
                  · simp only [upd2, hkl, false_and, if_false, and_self, if_true]
                    rw [f1, Finset.sum_range_succ]; ring
                  · simp [upd2, hkl]
                  · simp [upd2, n1, n2, f3 r c n1 n2])
            obtain ⟨f1, f2, f3⟩ := this
            constructor
            · intro k' l'' hk' hl''
              rw [f3 k' l'' (by omega) (by omega)]; exact g1 k' l'' hk' hl''
            · intro l'' hl''
              by_cases he : l'' = l
              · subst he
                exact ⟨f1, by rw [f2 hr, f1]⟩
              · rw [f3 k l'' (by omega) (by omega), f3 l'' k (by omega) (by omega)]
                exact g2 l'' (by omega))
        obtain ⟨g1, g2⟩ := this
        intro k' l hk' hl
        by_cases e1 : k' = k
        · subst e1; exact (g2 l (by omega)).1
        · by_cases e2 : l = k
          · subst e2
            rw [(g2 k' (by omega)).2]
            exact Finset.sum_congr rfl fun i _ => mul_comm _ _
          · exact g1 k' l (by omega) (by omega)
      · have := iter_inv nrow (fun i g => upd g k (g k + y i * x i k)) (upd g k 0)
          (fun i' (s : Nat → ℝ) => s k = ∑ i ∈ Finset.range i', y i * x i k ∧ ∀ r, r ≠ k → s r = g r)
          ⟨by simp [upd], fun r hne => by simp [upd, hne]⟩
          (by
            rintro i s hi ⟨f1, f2⟩
            exact ⟨by simp [upd, f1, Finset.sum_range_succ], fun r hne => by simp [upd, hne, f2 r hne]⟩)
        intro k' hk'
        by_cases e1 : k' = k
        · subst e1; exact this.1
        · rw [this.2 k' e1]; exact h2 k' (by omega))
  exact main

/-- The normal equations of the fit. -/
def Normal (x : List ℝ) (t : Nat) (g v : Nat → ℝ) : Prop :=
  ∀ k, k < t → ∑ l ∈ Finset.range t, (∑ i ∈ Finset.range x.length, x.getD i 0 ^ k * x.getD i 0 ^ l) * v l = g k

theorem normal_iff (x : List ℝ) (t : Nat) (g v : Nat → ℝ) :
    Normal x t g v ↔ ∀ k, k < t → ∑ i ∈ Finset.range x.length, x.getD i 0 ^ k * (∑ l ∈ Finset.range t, v l * x.getD i 0 ^ l) = g k := by
  unfold Normal
  have : ∀ k, ∑ l ∈ Finset.range t, (∑ i ∈ Finset.range x.length, x.getD i 0 ^ k * x.getD i 0 ^ l) * v l =
      ∑ i ∈ Finset.range x.length, x.getD i 0 ^ k * (∑ l ∈ Finset.range t, v l * x.getD i 0 ^ l) := by
    intro k
    simp only [Finset.sum_mul, Finset.mul_sum]
    rw [Finset.sum_comm]
    exact Finset.sum_congr rfl fun i _ => Finset.sum_congr rfl fun l _ => by ring
  simp only [this]

/-- A kernel vector of the normal equations vanishes at every point. -/
theorem kernel_zero (x : List ℝ) (t : Nat) (v : Nat → ℝ) (h : Normal x t (fun _ => 0) v) (i : Nat) (hi : i < x.length) :
    ∑ l ∈ Finset.range t, v l * x.getD i 0 ^ l = 0 := by
  rw [normal_iff] at h
  have hs : ∑ i ∈ Finset.range x.length, (∑ l ∈ Finset.range t, v l * x.getD i 0 ^ l) ^ 2 = 0 := by
    have : ∑ i ∈ Finset.range x.length, (∑ l ∈ Finset.range t, v l * x.getD i 0 ^ l) ^ 2 =
        ∑ k ∈ Finset.range t, v k * ∑ i ∈ Finset.range x.length, x.getD i 0 ^ k * (∑ l ∈ Finset.range t, v l * x.getD i 0 ^ l) := by
      simp only [Finset.mul_sum]
      rw [Finset.sum_comm]
      refine Finset.sum_congr rfl fun i _ => ?_
      rw [pow_two, Finset.sum_mul]
      exact Finset.sum_congr rfl fun k _ => by simp only [Finset.mul_sum, mul_assoc]
    rw [this]
    exact Finset.sum_eq_zero fun k hk => by rw [h k (Finset.mem_range.mp hk), mul_zero]
  rw [Finset.sum_eq_zero_iff_of_nonneg fun i _ => sq_nonneg _] at hs
  exact pow_eq_zero_iff (two_ne_zero) |>.mp (hs i (Finset.mem_range.mpr hi))

open Polynomial in
/-- The normal equations are singular exactly when there are fewer distinct points than terms. -/
theorem singular_iff (x : List ℝ) (t : Nat) :
    (∃ v : Nat → ℝ, (∃ k, k < t ∧ v k ≠ 0) ∧ Normal x t (fun _ => 0) v) ↔ x.toFinset.card < t := by
  constructor
  · rintro ⟨v, ⟨k, hk, hne⟩, hv⟩
    let p : ℝ[X] := ∑ l ∈ Finset.range t, C (v l) * X ^ l
    have hc : ∀ l, l < t → p.coeff l = v l := by
      intro l hl
      simp only [p, finset_sum_coeff, coeff_C_mul_X_pow]
      rw [Finset.sum_eq_single l]
      · simp
      · intro b _ hb; simp [Ne.symm hb]
      · intro h; exact absurd (Finset.mem_range.mpr hl) h
    have hp : p ≠ 0 := fun h => hne (by rw [← hc k hk, h, coeff_zero])
    have hd : p.natDegree < t := by
      have h1 : p.degree < t := by
        refine lt_of_le_of_lt (degree_sum_le _ _) ?_
        refine (Finset.sup_lt_iff (WithBot.bot_lt_coe t)).mpr fun l hl => ?_
        exact lt_of_le_of_lt (degree_C_mul_X_pow_le _ _) (WithBot.coe_lt_coe.mpr (Finset.mem_range.mp hl))
      exact (natDegree_lt_iff_degree_lt hp).mpr h1
    refine lt_of_le_of_lt ?_ hd
    refine le_trans (Finset.card_le_card ?_) (card_roots' p |> (le_trans (Multiset.toFinset_card_le _)))
    intro a ha
    rw [List.mem_toFinset] at ha
    obtain ⟨i, hi, rfl⟩ := List.getElem_of_mem ha
    rw [Multiset.mem_toFinset, mem_roots hp, IsRoot.def]
    have := kernel_zero x t v hv i hi
    simp only [p, eval_finset_sum, eval_mul, eval_C, eval_pow, eval_X]
    rw [show x.getD i 0 = x[i] by simp [List.getElem?_eq_getElem hi]] at this
    exact this
  · intro hlt
    let p : ℝ[X] := ∏ a ∈ x.toFinset, (X - C a)
    have hp : p.Monic := monic_prod_of_monic _ _ fun a _ => monic_X_sub_C a
    have hd : p.natDegree = x.toFinset.card := by
      simp only [p]
      rw [natDegree_prod_of_monic _ _ fun a _ => monic_X_sub_C a]
      simp
    refine ⟨fun l => p.coeff l, ⟨x.toFinset.card, hlt, ?_⟩, ?_⟩
    · dsimp only
      rw [← hd, hp.coeff_natDegree]; exact one_ne_zero
    · rw [normal_iff]
      intro k hk
      refine Finset.sum_eq_zero fun i hi => ?_
      have hi' := Finset.mem_range.mp hi
      have : ∑ l ∈ Finset.range t, p.coeff l * x.getD i 0 ^ l = p.eval (x.getD i 0) := by
        rw [eval_eq_sum_range' (n := t) (by omega)]
      rw [this]
      have h0 : p.eval (x.getD i 0) = 0 := by
        simp only [p, eval_prod]
        refine Finset.prod_eq_zero (i := x.getD i 0) ?_ (by simp)
        rw [List.mem_toFinset]
        rw [show x.getD i 0 = x[i] by simp [List.getElem?_eq_getElem hi']]
        exact List.getElem_mem hi'
      rw [h0, mul_zero]

theorem evalPoly_eq (c : List ℝ) (t : Nat) (h : c.length = t) (s : ℝ) : evalPoly c s = ∑ j ∈ Finset.range t, c.getD j 0 * s ^ j := by
  rw [evalPoly, h]

/-- Solutions of the normal equations: Pythagoras. -/
theorem pythagoras (x y c d : List ℝ) (t : Nat) (hc : c.length = t) (hd : d.length = t)
    (h : Normal x t (fun k => ∑ i ∈ Finset.range x.length, y.getD i 0 * x.getD i 0 ^ k) fun k => c.getD k 0) :
    residual x y d = residual x y c + ∑ i ∈ Finset.range x.length, (evalPoly d (x.getD i 0) - evalPoly c (x.getD i 0)) ^ 2 := by
  rw [normal_iff] at h
  have hcross : ∑ i ∈ Finset.range x.length, (evalPoly c (x.getD i 0) - y.getD i 0) *
      (evalPoly d (x.getD i 0) - evalPoly c (x.getD i 0)) = 0 := by
    have h1 : ∀ i, evalPoly d (x.getD i 0) - evalPoly c (x.getD i 0) =
        ∑ k ∈ Finset.range t, (d.getD k 0 - c.getD k 0) * x.getD i 0 ^ k := by
      intro i
      rw [evalPoly_eq d t hd, evalPoly_eq c t hc, ← Finset.sum_sub_distrib]
      exact Finset.sum_congr rfl fun k _ => by ring
    simp only [h1, Finset.mul_sum]
    rw [Finset.sum_comm]
    refine Finset.sum_eq_zero fun k hk => ?_
    have h2 := h k (Finset.mem_range.mp hk)
    have : ∑ i ∈ Finset.range x.length, (evalPoly c (x.getD i 0) - y.getD i 0) * ((d.getD k 0 - c.getD k 0) * x.getD i 0 ^ k) =
        (d.getD k 0 - c.getD k 0) * (∑ i ∈ Finset.range x.length, x.getD i 0 ^ k * (∑ l ∈ Finset.range t, c.getD l 0 * x.getD i 0 ^ l) -
          ∑ i ∈ Finset.range x.length, y.getD i 0 * x.getD i 0 ^ k) := by
      rw [← Finset.sum_sub_distrib, Finset.mul_sum]
      exact Finset.sum_congr rfl fun i _ => by rw [evalPoly_eq c t hc]; ring
    rw [this, h2, sub_self, mul_zero]
  unfold residual
  have : ∀ i, (evalPoly d (x.getD i 0) - y.getD i 0) ^ 2 = (evalPoly c (x.getD i 0) - y.getD i 0) ^ 2 +
      (evalPoly d (x.getD i 0) - evalPoly c (x.getD i 0)) ^ 2 +
      2 * ((evalPoly c (x.getD i 0) - y.getD i 0) * (evalPoly d (x.getD i 0) - evalPoly c (x.getD i 0))) := fun i => by ring
  simp only [this]
  rw [Finset.sum_add_distrib, Finset.sum_add_distrib, ← Finset.mul_sum, hcross, mul_zero, add_zero]

/-! ## The function -/

theorem sums_ok (x y c : List ℝ) (hxy : x.length = y.length) (t : Nat) (hc : c.length = t) (ht : 1 ≤ t) :
    iter x.length (fun i (s : ℝ × ℝ × ℝ) =>
        let yi := y.getD i 0
        let yc := iter t (fun j yc => yc + c.getD j 0 * dataMatrix x x.length t i j) 0
        (s.1 + (yc - yi) * (yc - yi), s.2.1 + yi, s.2.2 + yi * yi)) (0, 0, 0) =
      (residual x y c, ∑ i ∈ Finset.range y.length, y.getD i 0, ∑ i ∈ Finset.range y.length, y.getD i 0 ^ 2) := by
  have := iter_inv x.length (fun i (s : ℝ × ℝ × ℝ) =>
        let yi := y.getD i 0
        let yc := iter t (fun j yc => yc + c.getD j 0 * dataMatrix x x.length t i j) 0
        (s.1 + (yc - yi) * (yc - yi), s.2.1 + yi, s.2.2 + yi * yi)) (0, 0, 0)
    (fun i s => s = (∑ i ∈ Finset.range i, (evalPoly c (x.getD i 0) - y.getD i 0) ^ 2, ∑ i ∈ Finset.range i, y.getD i 0,
      ∑ i ∈ Finset.range i, y.getD i 0 ^ 2)) (by simp)
    (by
      rintro i s hi rfl
      dsimp only
      rw [iter_sum, Finset.sum_range_succ, Finset.sum_range_succ, Finset.sum_range_succ]
      have : ∑ j ∈ Finset.range t, c.getD j 0 * dataMatrix x x.length t i j = evalPoly c (x.getD i 0) := by
        rw [evalPoly_eq c t hc]
        exact Finset.sum_congr rfl fun j hj => by rw [dataMatrix_ok x _ t ht i j hi (Finset.mem_range.mp hj)]
      rw [this, pow_two, pow_two])
  rw [this, ← hxy]; rfl

theorem deviation_eq (y : List ℝ) (h : y ≠ []) : (∑ i ∈ Finset.range y.length, y.getD i 0 ^ 2) -
    (∑ i ∈ Finset.range y.length, y.getD i 0) * (∑ i ∈ Finset.range y.length, y.getD i 0) / y.length = deviation y := by
  have hn : (y.length : ℝ) ≠ 0 := by
    have := List.length_pos_iff.mpr h
    positivity
  unfold deviation
  set m := (∑ k ∈ Finset.range y.length, y.getD k 0) / y.length with hm
  have hs : ∑ k ∈ Finset.range y.length, y.getD k 0 = m * y.length := by rw [hm]; field_simp
  have : ∀ i, (y.getD i 0 - m) ^ 2 = y.getD i 0 ^ 2 - 2 * m * y.getD i 0 + m ^ 2 := fun i => by ring
  simp only [this]
  rw [Finset.sum_add_distrib, Finset.sum_sub_distrib, ← Finset.mul_sum, hs, Finset.sum_const, Finset.card_range, nsmul_eq_mul]
  field_simp
  ring

/-- What `PolyFit2` does on acceptable arguments. -/
theorem polyFit2_ok (x y coefs : List ℝ) (h1 : 1 ≤ coefs.length) (h2 : 2 ≤ x.length) (h3 : x.length = y.length) :
    (coefs.length ≤ x.toFinset.card ∧ (polyFit2 x y coefs).coefs.length = coefs.length ∧ (polyFit2 x y coefs).nan = false ∧
      (Normal x coefs.length (fun k => ∑ i ∈ Finset.range x.length, y.getD i 0 * x.getD i 0 ^ k)
        fun k => (polyFit2 x y coefs).coefs.getD k 0) ∧
      (polyFit2 x y coefs).ret = (
        let c := if deviation y ≠ 0 then residual x y (polyFit2 x y coefs).coefs / deviation y else deviation y
        if c ≥ 1 then 0 else Real.sqrt (1 - c))) ∨
    (x.toFinset.card < coefs.length ∧ polyFit2 x y coefs = ⟨-1, coefs, false⟩) := by
  obtain ⟨s1, s2⟩ := square_ok (dataMatrix x x.length coefs.length) (fun i => y.getD i 0) (fun _ _ => 0) (fun _ => 0) x.length
    coefs.length (by omega)
  have hA : ∀ k l, k < coefs.length → l < coefs.length →
      (square (dataMatrix x x.length coefs.length) (fun i => y.getD i 0) (fun _ _ => 0) (fun _ => 0) x.length coefs.length).1 k l =
        ∑ i ∈ Finset.range x.length, x.getD i 0 ^ k * x.getD i 0 ^ l := by
    intro k l hk hl
    rw [s1 k l hk hl]
    refine Finset.sum_congr rfl fun i hi => ?_
    rw [dataMatrix_ok x _ _ h1 i k (Finset.mem_range.mp hi) hk, dataMatrix_ok x _ _ h1 i l (Finset.mem_range.mp hi) hl]
  have hg : ∀ k, k < coefs.length →
      (square (dataMatrix x x.length coefs.length) (fun i => y.getD i 0) (fun _ _ => 0) (fun _ => 0) x.length coefs.length).2 k =
        ∑ i ∈ Finset.range x.length, y.getD i 0 * x.getD i 0 ^ k := by
    intro k hk
    rw [s2 k hk]
    refine Finset.sum_congr rfl fun i hi => ?_
    rw [dataMatrix_ok x _ _ h1 i k (Finset.mem_range.mp hi) hk]
  have hA0 : (square (dataMatrix x x.length coefs.length) (fun i => y.getD i 0) (fun _ _ => 0) (fun _ => 0) x.length
      coefs.length).1 0 0 ≠ 0 := by
    rw [hA 0 0 (by omega) (by omega)]
    simp only [pow_zero, mul_one, Finset.sum_const, Finset.card_range, nsmul_eq_mul, ne_eq, Nat.cast_eq_zero]
    omega
  have hsol : ∀ g v, (∀ k, k < coefs.length → g k = g k) →
      (Sol coefs.length (square (dataMatrix x x.length coefs.length) (fun i => y.getD i 0) (fun _ _ => 0) (fun _ => 0) x.length
        coefs.length).1 g v ↔ Normal x coefs.length g v) := fun g v _ => sol_congr hA (fun _ _ => rfl) v
  have hsing : Singular coefs.length (square (dataMatrix x x.length coefs.length) (fun i => y.getD i 0) (fun _ _ => 0) (fun _ => 0)
      x.length coefs.length).1 ↔ x.toFinset.card < coefs.length := by
    rw [← singular_iff]
    unfold Singular
    exact exists_congr fun v => and_congr Iff.rfl (hsol _ v fun _ _ => rfl)
  unfold polyFit2
  simp only
  rw [if_neg (by omega), if_neg (by omega), if_neg (by omega)]
  rcases gaussJordan_ok (n := coefs.length) (square (dataMatrix x x.length coefs.length) (fun i => y.getD i 0) (fun _ _ => 0)
      (fun _ => 0) x.length coefs.length).1 (square (dataMatrix x x.length coefs.length) (fun i => y.getD i 0) (fun _ _ => 0)
      (fun _ => 0) x.length coefs.length).2 hA0 with ⟨s, e1, e2, e3, e4⟩ | ⟨e1, e2⟩
  · left
    rw [e1]
    dsimp only
    have hw : ∀ k, k < coefs.length → ((List.range coefs.length).map s.w).getD k 0 = s.w k := by
      intro k hk; simp [hk]
    refine ⟨not_lt.mp fun h => e4 (hsing.mpr h), by simp, e2, ?_, ?_⟩
    · have := (e3 fun k => ((List.range coefs.length).map s.w).getD k 0).mpr hw
      exact this.congr hA hg
    · have := sums_ok x y ((List.range coefs.length).map s.w) h3 coefs.length (by simp) h1
      rw [this]
      simp only
      have hy : y ≠ [] := by intro h; rw [h, List.length_nil] at h3; omega
      rw [h3, deviation_eq y hy]
  · right
    rw [e1]
    exact ⟨hsing.mp e2, rfl⟩

/-! ## C40 -/

/-- Arguments for which a fit is attempted: at least one term, at least two points, as many values as points. -/
structure Args (x y coefs : List ℝ) : Prop where
  terms : 1 ≤ coefs.length
  points : 2 ≤ x.length
  values : x.length = y.length

theorem ret_range (c : ℝ) : 0 ≤ (if c ≥ 1 then 0 else Real.sqrt (1 - c)) := by
  split
  · exact le_refl _
  · exact Real.sqrt_nonneg _

/-- `PolyFit2` returns -1 exactly when there are fewer distinct points than terms, that is, exactly when the normal equations do not
determine the polynomial; it then leaves the coefficients alone. -/
theorem C40_failure (x y coefs : List ℝ) (h : Args x y coefs) :
    ((polyFit2 x y coefs).ret = -1 ↔ x.toFinset.card < coefs.length) ∧
    ((polyFit2 x y coefs).ret = -1 → (polyFit2 x y coefs).coefs = coefs) := by
  rcases polyFit2_ok x y coefs h.terms h.points h.values with ⟨a, b, c, d, e⟩ | ⟨a, b⟩
  · have : (polyFit2 x y coefs).ret ≠ -1 := by
      rw [e]
      have := ret_range (if deviation y ≠ 0 then residual x y (polyFit2 x y coefs).coefs / deviation y else deviation y)
      intro hh
      dsimp only at hh
      linarith
    exact ⟨⟨fun hh => absurd hh this, fun hh => by omega⟩, fun hh => absurd hh this⟩
  · rw [b]; exact ⟨⟨fun _ => a, fun _ => rfl⟩, fun _ => rfl⟩

/-- Otherwise the coefficients it stores minimise the sum of squared residuals over all polynomials with that many terms, are the only
ones that do, and no division by zero was made on the way. -/
theorem C40_least_squares (x y coefs : List ℝ) (h : Args x y coefs) (hs : (polyFit2 x y coefs).ret ≠ -1) :
    (polyFit2 x y coefs).coefs.length = coefs.length ∧ (polyFit2 x y coefs).nan = false ∧
    (∀ d : List ℝ, d.length = coefs.length → residual x y (polyFit2 x y coefs).coefs ≤ residual x y d) ∧
    ∀ d : List ℝ, d.length = coefs.length → residual x y d = residual x y (polyFit2 x y coefs).coefs → d = (polyFit2 x y coefs).coefs := by
  rcases polyFit2_ok x y coefs h.terms h.points h.values with ⟨a, b, c, e, _⟩ | ⟨a, b⟩
  · refine ⟨b, c, fun d hd => ?_, fun d hd hr => ?_⟩
    · rw [pythagoras x y _ d coefs.length b hd e]
      have := Finset.sum_nonneg (s := Finset.range x.length) (f := fun i =>
        (evalPoly d (x.getD i 0) - evalPoly (polyFit2 x y coefs).coefs (x.getD i 0)) ^ 2) fun i _ => sq_nonneg _
      linarith
    · rw [pythagoras x y _ d coefs.length b hd e] at hr
      have h0 : ∑ i ∈ Finset.range x.length,
          (evalPoly d (x.getD i 0) - evalPoly (polyFit2 x y coefs).coefs (x.getD i 0)) ^ 2 = 0 := by linarith
      rw [Finset.sum_eq_zero_iff_of_nonneg fun i _ => sq_nonneg _] at h0
      by_contra hne
      have : x.toFinset.card < coefs.length := by
        rw [← singular_iff]
        refine ⟨fun k => d.getD k 0 - (polyFit2 x y coefs).coefs.getD k 0, ?_, ?_⟩
        · by_contra hall
          push Not at hall
          apply hne
          apply List.ext_getElem (by omega)
          intro k hk1 hk2
          have := hall k (by omega)
          simp only [List.getD_eq_getElem?_getD, List.getElem?_eq_getElem hk1, List.getElem?_eq_getElem hk2, Option.getD_some] at this
          linarith
        · rw [normal_iff]
          intro k hk
          refine Finset.sum_eq_zero fun i hi => ?_
          have h1 := pow_eq_zero_iff (two_ne_zero) |>.mp (h0 i hi)
          rw [evalPoly_eq d _ hd, evalPoly_eq _ _ b, ← Finset.sum_sub_distrib] at h1
          have : ∑ l ∈ Finset.range coefs.length, (d.getD l 0 - (polyFit2 x y coefs).coefs.getD l 0) * x.getD i 0 ^ l = 0 := by
            refine Eq.trans (Finset.sum_congr rfl fun l _ => ?_) h1; ring
          rw [this, mul_zero]
      omega
  · rw [b] at hs; exact absurd rfl hs

theorem evalPoly_const (v : ℝ) (t : Nat) (ht : 1 ≤ t) (s : ℝ) : evalPoly (v :: List.replicate (t - 1) 0) s = v := by
  rw [evalPoly_eq _ t (by simp; omega), Finset.sum_eq_single 0]
  · simp
  · intro j hj hne
    have : (v :: List.replicate (t - 1) (0 : ℝ)).getD j 0 = 0 := by
      obtain ⟨k, rfl⟩ := Nat.exists_eq_succ_of_ne_zero hne
      rw [List.getD_cons_succ, List.getD_eq_getElem?_getD, List.getElem?_replicate]
      split <;> simp
    rw [this, zero_mul]
  · intro h; exact absurd (Finset.mem_range.mpr (by omega)) h

/-- The value returned on success is the correlation index: its square is one minus the unexplained fraction of the squared deviation
(and it is 1 when all values are equal); it lies in [0, 1]. -/
theorem C40_correlation (x y coefs : List ℝ) (h : Args x y coefs) (hs : (polyFit2 x y coefs).ret ≠ -1) :
    0 ≤ (polyFit2 x y coefs).ret ∧ (polyFit2 x y coefs).ret ≤ 1 ∧
    (deviation y = 0 → (polyFit2 x y coefs).ret = 1) ∧
    (deviation y ≠ 0 → (polyFit2 x y coefs).ret ^ 2 = 1 - residual x y (polyFit2 x y coefs).coefs / deviation y) := by
  have hls := C40_least_squares x y coefs h hs
  rcases polyFit2_ok x y coefs h.terms h.points h.values with ⟨a, b, c, d, e⟩ | ⟨a, b⟩
  · have hres : 0 ≤ residual x y (polyFit2 x y coefs).coefs := Finset.sum_nonneg fun i _ => sq_nonneg _
    have hdev : 0 ≤ deviation y := Finset.sum_nonneg fun i _ => sq_nonneg _
    have hle : residual x y (polyFit2 x y coefs).coefs ≤ deviation y := by
      have := hls.2.2.1 (((∑ k ∈ Finset.range y.length, y.getD k 0) / y.length) :: List.replicate (coefs.length - 1) 0)
        (by have := h.terms; simp; omega)
      refine le_trans this (le_of_eq ?_)
      unfold residual deviation
      rw [h.values]
      refine Finset.sum_congr rfl fun i _ => ?_
      rw [evalPoly_const _ _ h.terms]; ring
    set r := (polyFit2 x y coefs).ret with hr
    dsimp only at e
    by_cases hd : deviation y = 0
    · rw [hd] at e
      simp only [ne_eq, not_true_eq_false, if_false, ge_iff_le, not_le.mpr (zero_lt_one' ℝ), sub_zero, Real.sqrt_one] at e
      rw [e]
      exact ⟨by norm_num, le_refl _, fun _ => rfl, fun hh => absurd hd hh⟩
    · rw [if_pos hd] at e
      have hpos : 0 < deviation y := lt_of_le_of_ne hdev (Ne.symm hd)
      have h0 : 0 ≤ residual x y (polyFit2 x y coefs).coefs / deviation y := div_nonneg hres hdev
      have h1 : residual x y (polyFit2 x y coefs).coefs / deviation y ≤ 1 := (div_le_one hpos).mpr hle
      set q := residual x y (polyFit2 x y coefs).coefs / deviation y with hq
      have hsq : r = Real.sqrt (1 - q) := by
        rw [e]
        split
        · have : q = 1 := le_antisymm h1 ‹_›
          rw [this]; simp
        · rfl
      refine ⟨by rw [hsq]; exact Real.sqrt_nonneg _, ?_, fun hh => absurd hh hd, fun _ => ?_⟩
      · rw [hsq]; exact Real.sqrt_le_one.mpr (by linarith)
      · rw [hsq, Real.sq_sqrt (by linarith)]
  · rw [b] at hs; exact absurd rfl hs

/-- Unacceptable arguments: 0 is returned and the coefficients are left alone. -/
theorem C40_rejected (x y coefs : List ℝ) (h : coefs.length < 1 ∨ x.length < 2 ∨ x.length ≠ y.length) :
    (polyFit2 x y coefs).ret = 0 ∧ (polyFit2 x y coefs).coefs = coefs := by
  unfold polyFit2
  simp only
  by_cases h1 : coefs.length < 1
  · rw [if_pos h1]; exact ⟨rfl, rfl⟩
  · rw [if_neg h1]
    by_cases h2 : x.length < 2
    · rw [if_pos h2]; exact ⟨rfl, rfl⟩
    · rw [if_neg h2, if_pos (by omega)]; exact ⟨rfl, rfl⟩

/-- Three distinct points, three terms: a fit is made. -/
example : Args [-1, 0, 1] [2, 0, 1] [0, 0, 0] ∧ (polyFit2 [-1, 0, 1] [2, 0, 1] [0, 0, 0]).ret ≠ -1 := by
  have h : Args [-1, 0, 1] [2, 0, 1] [0, 0, 0] := ⟨by decide, by decide, rfl⟩
  refine ⟨h, fun hh => ?_⟩
  have := (C40_failure _ _ _ h).1.mp hh
  revert this
  simp only [List.toFinset_cons, List.toFinset_nil, List.length_cons, List.length_nil]
  rw [Finset.card_insert_of_notMem (by norm_num), Finset.card_insert_of_notMem (by norm_num), Finset.card_insert_of_notMem (by simp)]
  simp

/-- Two distinct points, three terms: no fit. -/
example : (polyFit2 [1, 1, 2] [2, 0, 1] [0, 0, 0]).ret = -1 := by
  have h : Args [1, 1, 2] [2, 0, 1] [0, 0, 0] := ⟨by decide, by decide, rfl⟩
  refine (C40_failure _ _ _ h).1.mpr ?_
  have : ([1, 1, 2] : List ℝ).toFinset = {1, 2} := by ext a; simp
  rw [this]
  exact lt_of_le_of_lt Finset.card_le_two (by decide)

end QM.PolyFit
