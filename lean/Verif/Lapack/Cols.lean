import Verif.Lapack.Blas
import Verif.Common.Sum
import Mathlib.Algebra.BigOperators.Ring.Finset
import Mathlib.Algebra.Order.BigOperators.Group.Finset
import Mathlib.Tactic.Ring
import Mathlib.Tactic.LinearCombination

/-!
# Matrices by columns and the effect of the BLAS routines on them
-/

namespace QM.Lapack

open Finset

variable {K : Type} [Field K] [LinearOrder K] {L : Nat} {f g : Nat → Nat → K} {a : List K}

/-- `a` holds the `L` by `L` matrix `f` in column-major order. -/
def Cols (L : Nat) (f : Nat → Nat → K) (a : List K) : Prop := a.length = L * L ∧ ∀ i j, i < L → j < L → a[i + j * L]? = some (f i j)

theorem index_lt {i j : Nat} (hi : i < L) (hj : j < L) : i + j * L < L * L := by
  have := Nat.mul_le_mul_right L (Nat.succ_le_of_lt hj)
  rw [Nat.succ_mul] at this
  omega

theorem index_inj {i j x y : Nat} (hi : i < L) (hx : x < L) : i + j * L = x + y * L ↔ i = x ∧ j = y := by
  constructor
  · intro h
    have h1 : (i + j * L) % L = (x + y * L) % L := by rw [h]
    rw [Nat.add_mul_mod_self_right, Nat.add_mul_mod_self_right, Nat.mod_eq_of_lt hi, Nat.mod_eq_of_lt hx] at h1
    subst h1
    refine ⟨rfl, Nat.eq_of_mul_eq_mul_right (by omega) (Nat.add_left_cancel h)⟩
  · rintro ⟨rfl, rfl⟩
    rfl

omit [Field K] [LinearOrder K] in
theorem Cols.rd (h : Cols L f a) {k i j : Nat} (hi : i < L) (hj : j < L) (hk : k = i + j * L) : a[k]? = some (f i j) := by
  rw [hk]; exact h.2 i j hi hj

omit [Field K] [LinearOrder K] in
theorem Cols.congr (h : Cols L f a) (he : ∀ i j, i < L → j < L → f i j = g i j) : Cols L g a :=
  ⟨h.1, fun i j hi hj => by rw [h.2 i j hi hj, he i j hi hj]⟩

omit [Field K] [LinearOrder K] in
theorem Cols.wr (h : Cols L f a) {k i j : Nat} (hi : i < L) (hj : j < L) (hk : k = i + j * L) (v : K) :
    ∃ a', QM.wr a k v = some a' ∧ Cols L (fun x y => if x = i ∧ y = j then v else f x y) a' := by
  subst hk
  have hlt := index_lt hi hj
  refine ⟨_, wr_some v (by rw [h.1]; exact hlt), by simp [h.1], fun x y hx hy => ?_⟩
  beta_reduce
  by_cases hxy : x = i ∧ y = j
  · obtain ⟨rfl, rfl⟩ := hxy
    rw [List.getElem?_set_self (by rw [h.1]; exact hlt), if_pos ⟨rfl, rfl⟩]
  · rw [if_neg hxy, List.getElem?_set_ne, h.2 x y hx hy]
    intro he
    rw [index_inj hi hx] at he
    exact hxy ⟨he.1.symm, he.2.symm⟩

omit [LinearOrder K] in
theorem addAt_ok (h : Cols L f a) {p q i j x y : Nat} (hi : i < L) (hj : j < L) (hx : x < L) (hy : y < L) (hp : p = i + j * L) (hq : q = x + y * L)
    (t : K) : ∃ a', addAt a p q t = some a' ∧ Cols L (fun x' y' => if x' = i ∧ y' = j then f i j + f x y * t else f x' y') a' := by
  obtain ⟨a', h1, h2⟩ := h.wr hi hj hp (f i j + f x y * t)
  refine ⟨a', ?_, h2⟩
  unfold addAt
  rw [bind_ok (h.rd hi hj hp), bind_ok (h.rd hx hy hq), h1]

omit [LinearOrder K] in
theorem subAt_eq (a : List K) (p q : Nat) (t : K) : subAt a p q t = addAt a p q (-t) := by
  simp only [subAt, addAt, mul_neg, sub_eq_add_neg]

omit [LinearOrder K] in
theorem scaleAt_ok (h : Cols L f a) {p i j : Nat} (hi : i < L) (hj : j < L) (hp : p = i + j * L) (t : K) :
    ∃ a', scaleAt a t p = some a' ∧ Cols L (fun x' y' => if x' = i ∧ y' = j then t * f i j else f x' y') a' := by
  obtain ⟨a', h1, h2⟩ := h.wr hi hj hp (t * f i j)
  refine ⟨a', ?_, h2⟩
  unfold scaleAt
  rw [bind_ok (h.rd hi hj hp), h1]

omit [LinearOrder K] in
theorem swapAt_ok (h : Cols L f a) {p q i j x y : Nat} (hi : i < L) (hj : j < L) (hx : x < L) (hy : y < L) (hp : p = i + j * L)
    (hq : q = x + y * L) :
    ∃ a', swapAt a p q = some a' ∧ Cols L (fun x' y' => if x' = x ∧ y' = y then f i j else if x' = i ∧ y' = j then f x y else f x' y') a' := by
  obtain ⟨a1, h1, h2⟩ := h.wr hi hj hp (f x y)
  obtain ⟨a2, h3, h4⟩ := h2.wr hx hy hq (f i j)
  refine ⟨a2, ?_, h4⟩
  unfold swapAt
  rw [bind_ok (h.rd hi hj hp), bind_ok (h.rd hx hy hq), bind_ok h1, h3]

omit [Field K] [LinearOrder K] in
/-- A loop that replaces rows `r` to `r + m - 1` of column `c`. -/
theorem column_ok (h : Cols L f a) {r m c : Nat} (hr : r + m ≤ L) (hc : c < L) (g : Nat → K) {op : Nat → List K → Option (List K)}
    (hop : ∀ i a', i < m → Cols L (fun x y => if y = c ∧ r ≤ x ∧ x < r + i then g x else f x y) a' →
      op i a' = QM.wr a' (r + i + c * L) (g (r + i))) :
    ∃ a', loop m op a = some a' ∧ Cols L (fun x y => if y = c ∧ r ≤ x ∧ x < r + m then g x else f x y) a' := by
  refine loop_inv m op a (fun i a' => Cols L (fun x y => if y = c ∧ r ≤ x ∧ x < r + i then g x else f x y) a') ?_ ?_
  · refine h.congr fun x y _ _ => ?_
    rw [if_neg (by omega)]
  · intro i a' hi hP
    obtain ⟨a2, h1, h2⟩ := hP.wr (i := r + i) (j := c) (by omega) hc rfl (g (r + i))
    refine ⟨a2, by rw [hop i a' hi hP, h1], h2.congr fun x y _ _ => ?_⟩
    beta_reduce
    by_cases he : x = r + i ∧ y = c
    · obtain ⟨rfl, rfl⟩ := he
      rw [if_pos ⟨rfl, rfl⟩, if_pos (by omega)]
    · rw [if_neg he]
      by_cases h3 : y = c ∧ r ≤ x ∧ x < r + i
      · rw [if_pos h3, if_pos (by omega)]
      · rw [if_neg h3, if_neg (by omega)]

/-- Rows `r` to `r + m - 1` of column `c` plus `t` times column `d`. -/
def axpy (f : Nat → Nat → K) (r m c d : Nat) (t : K) : Nat → Nat → K :=
  fun x y => if y = c ∧ r ≤ x ∧ x < r + m then f x c + f x d * t else f x y

omit [LinearOrder K] in
theorem axpy_ok (h : Cols L f a) {r m c d : Nat} (hr : r + m ≤ L) (hc : c < L) (hd : d < L) (hcd : d ≠ c) (t : K)
    {op : Nat → List K → Option (List K)}
    (hop : ∀ i a', i < m → Cols L (axpy f r i c d t) a' → op i a' = addAt a' (r + i + c * L) (r + i + d * L) t) :
    ∃ a', loop m op a = some a' ∧ Cols L (axpy f r m c d t) a' := by
  refine column_ok h hr hc (fun x => f x c + f x d * t) ?_
  intro i a' hi hP
  rw [hop i a' hi hP]
  unfold addAt
  rw [bind_ok (hP.rd (i := r + i) (j := c) (by omega) hc rfl), bind_ok (hP.rd (i := r + i) (j := d) (by omega) hd rfl)]
  beta_reduce
  rw [if_neg (by omega), if_neg (by omega)]

omit [LinearOrder K] in
theorem axpy_zero (f : Nat → Nat → K) (r m c d : Nat) : axpy f r m c d 0 = f := by
  funext x y
  unfold axpy
  split
  · next h => rw [mul_zero, add_zero, h.1]
  · rfl

omit [LinearOrder K] in
/-- A loop of scalings is a scaled piece of a column. -/
theorem scaleLoop_ok (h : Cols L f a) {r m c : Nat} (hr : r + m ≤ L) (hc : c < L) (t : K) {op : Nat → List K → Option (List K)}
    (hop : ∀ i a', op i a' = scaleAt a' t (r + i + c * L)) :
    ∃ a', loop m op a = some a' ∧ Cols L (fun x y => if y = c ∧ r ≤ x ∧ x < r + m then t * f x c else f x y) a' := by
  refine column_ok h hr hc (fun x => t * f x c) ?_
  intro i a' hi hP
  rw [hop i a']
  unfold scaleAt
  rw [bind_ok (hP.rd (i := r + i) (j := c) (by omega) hc rfl)]
  beta_reduce
  rw [if_neg (by omega)]

theorem loop_add {S : Type} (m n : Nat) (F : Nat → S → Option S) (s : S) : loop (m + n) F s = (loop m F s).bind (loop n fun i => F (m + i)) := by
  induction n with
  | zero => simp [loop]
  | succ n ih =>
    rw [← Nat.add_assoc, loop, ih]
    cases loop m F s <;> rfl

theorem loop_succ' {S : Type} (n : Nat) (F : Nat → S → Option S) (s : S) : loop (n + 1) F s = (F 0 s).bind (loop n fun i => F (i + 1)) := by
  rw [Nat.add_comm, loop_add]
  simp only [loop, Option.bind_some]
  congr 1
  funext s
  congr 1
  funext i
  rw [Nat.add_comm]

/-- Three iterations at a time. -/
theorem loop_three {S : Type} (q : Nat) (F : Nat → S → Option S) (s : S) :
    loop (3 * q) F s = loop q (fun k s => do
      let s ← F (3 * k) s
      let s ← F (3 * k + 1) s
      F (3 * k + 2) s) s := by
  induction q with
  | zero => rfl
  | succ q ih =>
    show loop (3 * q + 1 + 1 + 1) F s = _
    rw [loop, loop, loop, loop, ih]
    simp only [Option.bind_assoc]
    rfl

/-- Five iterations at a time. -/
theorem loop_five {S : Type} (q : Nat) (F : Nat → S → Option S) (s : S) :
    loop (5 * q) F s = loop q (fun k s => do
      let s ← F (5 * k) s
      let s ← F (5 * k + 1) s
      let s ← F (5 * k + 2) s
      let s ← F (5 * k + 3) s
      F (5 * k + 4) s) s := by
  induction q with
  | zero => rfl
  | succ q ih =>
    show loop (5 * q + 1 + 1 + 1 + 1 + 1) F s = _
    rw [loop, loop, loop, loop, loop, loop, ih]
    simp only [Option.bind_assoc]
    rfl

omit [LinearOrder K] in
/-- The unrolled `dswap_` exchanges element by element. -/
theorem dswap_unit (a : List K) (n xo yo : Nat) : dswap a n xo 1 yo 1 = loop n (fun i a => swapAt a (xo + i) (yo + i)) a := by
  unfold dswap
  by_cases hn : n = 0
  · subst hn; rfl
  rw [if_neg hn, if_pos ⟨rfl, rfl⟩]
  dsimp only
  have e : n = n % 3 + 3 * ((n - n % 3) / 3) := by omega
  conv => rhs; rw [e, loop_add]
  by_cases hm : n % 3 = 0
  · rw [if_pos hm, hm]
    simp only [loop, Option.bind_some, Option.bind_eq_bind]
    rw [if_neg (by simp), loop_three]
    simp only [Nat.zero_add, Nat.sub_zero, Option.bind_eq_bind]
  · rw [if_neg hm]
    show Option.bind _ _ = _
    congr 1
    funext a
    by_cases h3 : n < 3
    · rw [if_pos ⟨hm, h3⟩]
      have : (n - n % 3) / 3 = 0 := by omega
      rw [this]; rfl
    · rw [if_neg (by omega), loop_three]
      simp only [Option.bind_eq_bind, Nat.add_assoc]

omit [LinearOrder K] in
/-- The unrolled `dscal_` scales element by element. -/
theorem dscal_eq (a : List K) (n : Nat) (da : K) (xo : Nat) : dscal a n da xo = loop n (fun i a => scaleAt a da (xo + i)) a := by
  unfold dscal
  by_cases hn : n = 0
  · subst hn; rfl
  rw [if_neg hn]
  dsimp only
  have e : n = n % 5 + 5 * ((n - n % 5) / 5) := by omega
  conv => rhs; rw [e, loop_add]
  by_cases hm : n % 5 = 0
  · rw [if_pos hm, hm]
    simp only [loop, Option.bind_some, Option.bind_eq_bind]
    rw [if_neg (by simp), loop_five]
    simp only [Nat.zero_add, Nat.sub_zero, Option.bind_eq_bind]
  · rw [if_neg hm]
    show Option.bind _ _ = _
    congr 1
    funext a
    by_cases h3 : n < 5
    · rw [if_pos ⟨hm, h3⟩]
      have : (n - n % 5) / 5 = 0 := by omega
      rw [this]; rfl
    · rw [if_neg (by omega), loop_five]
      simp only [Option.bind_eq_bind, Nat.add_assoc]

end QM.Lapack
