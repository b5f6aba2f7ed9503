import Verif.Pca.Model
import Mathlib.Algebra.BigOperators.Field
import Mathlib.Algebra.BigOperators.Ring.Finset
import Mathlib.Algebra.Order.BigOperators.Ring.Finset
import Mathlib.Algebra.Order.Field.Basic
import Mathlib.Algebra.CharZero.Defs
import Mathlib.Data.Rat.Defs
import Mathlib.Algebra.Order.Ring.Rat
import Mathlib.Algebra.Field.Rat
import Mathlib.Tactic.Ring

namespace QM.Pca

variable {K : Type} [Field K]

/-- Mean of column `j` of `n` rows. -/
def colMean (x : Nat → Nat → K) (n j : Nat) : K := (∑ i ∈ Finset.range n, x i j) / (n : K)

/-- The centred data. -/
def centred (x : Nat → Nat → K) (n i j : Nat) : K := x i j - colMean x n j

/-- The scatter matrix of the centred data. -/
def scatter (x : Nat → Nat → K) (n j k : Nat) : K := ∑ i ∈ Finset.range n, centred x n i j * centred x n i k

theorem scatter_symm (x : Nat → Nat → K) (n j k : Nat) : scatter x n j k = scatter x n k j :=
  Finset.sum_congr rfl fun _ _ => mul_comm _ _

variable {n m w : Nat} {x y : Nat → Nat → K} {data sym : List (List K)} {mean : List K}

/-- C52. For every data matrix with at least one row, whose rows may be longer than the `m` columns in question: these columns are centred, the others stay, and
the result is the scatter matrix. -/
theorem C52_wide (hn : 0 < n) (hw : m ≤ w) (hd : Holds2 n w x data) (hs : Holds2 m m y sym) (hm : mean.length = m) :
    ∃ data' sym', covcol data n m sym mean = some (data', sym') ∧ Holds2 n w (fun i j => if j < m then centred x n i j else x i j) data' ∧
      Holds2 m m (scatter x n) sym' := by
  -- the means
  obtain ⟨mn, h1, h2⟩ := fill_part (L := m) (new := colMean x n) (holds_of_length hm 0) (f := fun j (mean : List K) => do
      let mean ← wr mean j 0
      let mean ← loop n (fun i (mean : List K) => do
        let s ← mean[j]?
        let x ← rd2 data i j
        wr mean j (s + x)) mean
      let s ← mean[j]?
      if n = 0 then none else wr mean j (s / (n : K)))
    (by
      intro j ys hj hp
      have hl := hp.1
      obtain ⟨ys2, e1, e2⟩ := loop_inv (n := n) (f := fun i (mean : List K) => do
          let s ← mean[j]?
          let x ← rd2 data i j
          wr mean j (s + x)) (s := ys.set j 0) (P := fun i zs => zs = ys.set j (∑ t ∈ Finset.range i, x t j))
        (by simp) (by
          rintro i zs hi rfl
          refine ⟨ys.set j (∑ t ∈ Finset.range (i + 1), x t j), ?_, rfl⟩
          rw [bind_ok (List.getElem?_set_self (by omega)), bind_ok (hd.rd hi (show j < w by omega)), wr_some _ (by simp; omega), List.set_set, Finset.sum_range_succ])
      rw [bind_ok (wr_some 0 (by omega)), bind_ok e1, e2, bind_ok (List.getElem?_set_self (by omega)), if_neg (by omega),
        wr_some _ (by simp; omega), List.set_set, wr_some _ (by omega)]
      rfl)
  obtain ⟨d2, h3, h4⟩ := hd.fill (fun i j => if j < m then centred x n i j else x i j) (fun i (data : List (List K)) => loop m (fun j (data : List (List K)) => do
      let x ← rd2 data i j
      let s ← mn[j]?
      wr2 data i j (x - s)) data)
    (by
      intro i M hi hM
      obtain ⟨M2, e1, e2⟩ := hM.fillRow hi m hw (centred x n i) (fun j (data : List (List K)) => do
          let x ← rd2 data i j
          let s ← mn[j]?
          wr2 data i j (x - s))
        (by
          intro j M' hj hM'
          have h := hM'.rd hi (show j < w by omega)
          simp only [Nat.lt_irrefl, and_false, if_false] at h
          rw [bind_ok h, bind_ok (h2.2 j hj)]
          rfl)
      refine ⟨M2, e1, e2.congr fun i' j' _ _ => ?_⟩
      by_cases c : i' = i
      · subst c
        by_cases c2 : j' < m
        · simp [c2]
        · simp [c2]
      · simp [c])
  have h4r : ∀ {i j}, i < n → j < m → rd2 d2 i j = some (centred x n i j) := by
    intro i j hi hj
    have := h4.rd hi (show j < w by omega)
    rwa [if_pos hj] at this
  -- the scatter matrix: after row `j1` and `t` more, the entries with the smaller index so far are done
  obtain ⟨s2, h5, h6⟩ := loop_inv (n := m) (f := fun j1 (sym : List (List K)) => loop (m - j1) (fun t (sym : List (List K)) => do
      let sym ← wr2 sym j1 (j1 + t) 0
      let sym ← loop n (fun i (sym : List (List K)) => do
        let s ← rd2 sym j1 (j1 + t)
        let a ← rd2 d2 i j1
        let b ← rd2 d2 i (j1 + t)
        wr2 sym j1 (j1 + t) (s + a * b)) sym
      let s ← rd2 sym j1 (j1 + t)
      wr2 sym (j1 + t) j1 s) sym) (s := sym)
    (P := fun j1 s => Holds2 m m (fun a b => if a < j1 ∨ b < j1 then scatter x n a b else y a b) s)
    (hs.congr fun i j _ _ => by simp)
    (by
      intro j1 s hj1 hP
      obtain ⟨s2, e1, e2⟩ := loop_inv (n := m - j1) (f := fun t (sym : List (List K)) => do
          let sym ← wr2 sym j1 (j1 + t) 0
          let sym ← loop n (fun i (sym : List (List K)) => do
            let s ← rd2 sym j1 (j1 + t)
            let a ← rd2 d2 i j1
            let b ← rd2 d2 i (j1 + t)
            wr2 sym j1 (j1 + t) (s + a * b)) sym
          let s ← rd2 sym j1 (j1 + t)
          wr2 sym (j1 + t) j1 s) (s := s)
        (P := fun t s => Holds2 m m (fun a b => if a < j1 ∨ b < j1 ∨ (a = j1 ∧ b < j1 + t) ∨ (b = j1 ∧ a < j1 + t) then scatter x n a b else y a b) s)
        (hP.congr fun a b _ _ => by
          by_cases c : a < j1 ∨ b < j1
          · rw [if_pos c, if_pos (by omega)]
          · rw [if_neg c, if_neg (by omega)])
        (by
          intro t s ht hP
          have hjt : j1 + t < m := by omega
          obtain ⟨sa, a1, a2⟩ := hP.wr hj1 hjt 0
          obtain ⟨sb, b1, b2⟩ := loop_inv (n := n) (f := fun i (sym : List (List K)) => do
              let s ← rd2 sym j1 (j1 + t)
              let a ← rd2 d2 i j1
              let b ← rd2 d2 i (j1 + t)
              wr2 sym j1 (j1 + t) (s + a * b)) (s := sa)
            (P := fun i s => Holds2 m m (fun a b => if a = j1 ∧ b = j1 + t then ∑ i ∈ Finset.range i, centred x n i j1 * centred x n i (j1 + t) else
              if a < j1 ∨ b < j1 ∨ (a = j1 ∧ b < j1 + t) ∨ (b = j1 ∧ a < j1 + t) then scatter x n a b else y a b) s)
            (a2.congr fun a b _ _ => by simp)
            (by
              intro i s hi hP
              obtain ⟨sc, c1, c2⟩ := hP.wr hj1 hjt ((∑ i ∈ Finset.range i, centred x n i j1 * centred x n i (j1 + t)) + centred x n i j1 * centred x n i (j1 + t))
              refine ⟨sc, ?_, c2.congr fun a b _ _ => ?_⟩
              · rw [bind_ok (hP.rd hj1 hjt), bind_ok (h4r hi hj1), bind_ok (h4r hi hjt), if_pos ⟨rfl, rfl⟩]
                exact c1
              · rw [Finset.sum_range_succ]
                by_cases c : a = j1 ∧ b = j1 + t
                · rw [if_pos c, if_pos c]
                · rw [if_neg c, if_neg c, if_neg c])
          obtain ⟨sc, c1, c2⟩ := b2.wr hjt hj1 (scatter x n j1 (j1 + t))
          refine ⟨sc, ?_, c2.congr fun a b _ _ => ?_⟩
          · rw [bind_ok a1, bind_ok b1, bind_ok (b2.rd hj1 hjt), if_pos ⟨rfl, rfl⟩]
            exact c1
          · by_cases c : a = j1 + t ∧ b = j1
            · rw [if_pos c, if_pos (by omega), c.1, c.2, scatter_symm]
            · rw [if_neg c]
              by_cases c' : a = j1 ∧ b = j1 + t
              · rw [if_pos c', if_pos (by omega), c'.1, c'.2]; rfl
              · rw [if_neg c']
                by_cases c2 : a < j1 ∨ b < j1 ∨ (a = j1 ∧ b < j1 + t) ∨ (b = j1 ∧ a < j1 + t)
                · rw [if_pos c2, if_pos (by omega)]
                · rw [if_neg c2, if_neg (by omega)])
      refine ⟨s2, e1, e2.congr fun a b ha hb => ?_⟩
      by_cases c : a < j1 + 1 ∨ b < j1 + 1
      · rw [if_pos c, if_pos (by omega)]
      · rw [if_neg c, if_neg (by omega)])
  refine ⟨d2, s2, ?_, h4, h6.congr fun a b ha hb => by rw [if_pos (Or.inl ha)]⟩
  unfold covcol
  rw [bind_ok h1, bind_ok h3, bind_ok h5]
  rfl

/-- C52. For every data matrix with at least one row: the data is centred, and the result is its scatter matrix. -/
theorem C52_value (hn : 0 < n) (hd : Holds2 n m x data) (hs : Holds2 m m y sym) (hm : mean.length = m) :
    ∃ data' sym', covcol data n m sym mean = some (data', sym') ∧ Holds2 n m (centred x n) data' ∧ Holds2 m m (scatter x n) sym' := by
  obtain ⟨d, s, h1, h2, h3⟩ := C52_wide hn (Nat.le_refl m) hd hs hm
  exact ⟨d, s, h1, h2.congr fun i j _ hj => by simp [hj], h3⟩

/-- C52. The columns of the centred data sum to zero. -/
theorem C52_centred [CharZero K] (hn : 0 < n) (j : Nat) : ∑ i ∈ Finset.range n, centred x n i j = 0 := by
  unfold centred colMean
  rw [Finset.sum_sub_distrib, Finset.sum_const, Finset.card_range, nsmul_eq_mul, mul_div_cancel₀ _ (by exact_mod_cast (show n ≠ 0 by omega)), sub_self]

/-- C52. The matrix is symmetric and positive semidefinite. -/
theorem C52_psd [LinearOrder K] [IsStrictOrderedRing K] (hn : 0 < n) (hd : Holds2 n m x data) (hs : Holds2 m m y sym) (hm : mean.length = m) :
    ∃ data' sym' S, covcol data n m sym mean = some (data', sym') ∧ Holds2 m m S sym' ∧ (∀ j k, S j k = S k j) ∧
      (∀ v : Nat → K, 0 ≤ ∑ j ∈ Finset.range m, ∑ k ∈ Finset.range m, v j * S j k * v k) := by
  obtain ⟨d, s, h1, _, h3⟩ := C52_value hn hd hs hm
  refine ⟨d, s, scatter x n, h1, h3, scatter_symm x n, fun v => ?_⟩
  have : ∑ j ∈ Finset.range m, ∑ k ∈ Finset.range m, v j * scatter x n j k * v k
      = ∑ i ∈ Finset.range n, (∑ j ∈ Finset.range m, v j * centred x n i j) ^ 2 := by
    have h2 : ∀ i ∈ Finset.range n, (∑ j ∈ Finset.range m, v j * centred x n i j) ^ 2
        = ∑ j ∈ Finset.range m, ∑ k ∈ Finset.range m, (v j * centred x n i j) * (v k * centred x n i k) :=
      fun i _ => by rw [pow_two, Finset.sum_mul_sum]
    rw [Finset.sum_congr rfl h2]
    symm
    rw [Finset.sum_comm]
    refine Finset.sum_congr rfl fun j _ => ?_
    rw [Finset.sum_comm]
    refine Finset.sum_congr rfl fun k _ => ?_
    unfold scatter
    rw [Finset.mul_sum, Finset.sum_mul]
    exact Finset.sum_congr rfl fun i _ => by ring
  rw [this]
  exact Finset.sum_nonneg fun _ _ => sq_nonneg _

/-- With no rows the means are 0/0. -/
theorem C52_no_rows_violation (data sym : List (List K)) (mean : List K) (hm : 0 < m) : covcol data 0 m sym mean = none := by
  unfold covcol
  rw [show loop m _ mean = none from loop_none_of_le (m := 1) (by omega) ?_]
  · rfl
  · rw [loop, loop]
    cases h : wr mean 0 (0 : K) <;> simp [h, loop]

example : covcol [[1, 2], [3, 4], [5, (9 : ℚ)]] 3 2 [[7, 7], [7, 7]] [8, 8] = some ([[-2, -3], [0, -1], [2, 4]], [[8, 14], [14, 26]]) := by
  decide +kernel

end QM.Pca
