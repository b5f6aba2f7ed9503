import Verif.Lapack.Cols
import Mathlib.Logic.Equiv.Basic
import Mathlib.Algebra.Order.Field.Basic

/-!
# What the BLAS routines do to a matrix
-/

namespace QM.Lapack

open Finset Equiv

variable {K : Type} [Field K] [LinearOrder K] {L : Nat} {f : Nat → Nat → K} {a : List K}

/-- The search for the pivot: the first of the elements `v 0`, …, `v (n - 1)` of largest absolute value. -/
theorem idamax_ok {o n : Nat} {v : Nat → K} (hn : 0 < n) (hv : ∀ i < n, a[o + i]? = some (v i)) :
    ∃ q < n, idamax a o n = some (q + 1) ∧ (∀ i < n, |v i| ≤ |v q|) ∧ ∀ i < q, |v i| < |v q| := by
  unfold idamax
  rw [if_neg (by omega)]
  by_cases h1 : n = 1
  · rw [if_pos h1]
    refine ⟨0, hn, rfl, fun i hi => ?_, fun i hi => absurd hi (by omega)⟩
    obtain rfl : i = 0 := by omega
    exact le_rfl
  · rw [if_neg h1, bind_ok (show a[o]? = some (v 0) from hv 0 hn)]
    obtain ⟨s, h2, q, h3, h4, h5, h6, h7⟩ := loop_inv (n - 1) (fun k (s : Nat × K) => do
        let v ← a[o + (k + 1)]?
        pure (if |v| ≤ s.2 then s else (k + 2, |v|))) (1, |v 0|)
      (fun k s => ∃ q, q < k + 1 ∧ s.1 = q + 1 ∧ s.2 = |v q| ∧ (∀ i < k + 1, |v i| ≤ |v q|) ∧ ∀ i < q, |v i| < |v q|)
      ⟨0, by omega, rfl, rfl, fun i hi => by obtain rfl : i = 0 := by omega
                                             exact le_rfl, fun i hi => absurd hi (by omega)⟩
      (by
        rintro k s hk ⟨q, h3, h4, h5, h6, h7⟩
        rw [bind_ok (hv (k + 1) (by omega))]
        refine ⟨_, rfl, ?_⟩
        by_cases hc : |v (k + 1)| ≤ s.2
        · rw [if_pos hc]
          refine ⟨q, by omega, h4, h5, fun i hi => ?_, h7⟩
          by_cases e : i = k + 1
          · rw [e, ← h5]; exact hc
          · exact h6 i (by omega)
        · rw [if_neg hc]
          rw [h5] at hc
          refine ⟨k + 1, by omega, rfl, rfl, fun i hi => ?_, fun i hi => lt_of_le_of_lt (h6 i hi) (not_le.mp hc)⟩
          by_cases e : i = k + 1
          · rw [e]
          · exact le_of_lt (lt_of_le_of_lt (h6 i (by omega)) (not_le.mp hc)))
    refine ⟨q, by omega, ?_, fun i hi => h6 i (by omega), h7⟩
    rw [bind_ok h2, h4]
    rfl

/-- Rows `p` and `q` exchanged in columns `c` to `c + n - 1`. -/
def swapR (f : Nat → Nat → K) (p q c n : Nat) : Nat → Nat → K := fun x y => if c ≤ y ∧ y < c + n then f (swap p q x) y else f x y

omit [LinearOrder K] in
theorem swapLoop_ok (h : Cols L f a) {p q c n : Nat} (hp : p < L) (hq : q < L) (hc : c + n ≤ L) {op : Nat → List K → Option (List K)}
    (hop : ∀ k a', op k a' = swapAt a' (p + (c + k) * L) (q + (c + k) * L)) :
    ∃ a', loop n op a = some a' ∧ Cols L (swapR f p q c n) a' := by
  refine loop_inv n op a (fun k a' => Cols L (swapR f p q c k) a') (h.congr fun x y _ _ => ?_) ?_
  · unfold swapR
    rw [if_neg (by omega)]
  · intro k a' hk hP
    obtain ⟨a2, h1, h2⟩ := swapAt_ok hP (i := p) (j := c + k) (x := q) (y := c + k) hp (by omega) hq (by omega) rfl rfl
    refine ⟨a2, by rw [hop]; exact h1, h2.congr fun x y _ _ => ?_⟩
    simp only [swapR, swap_apply_def]
    grind

omit [LinearOrder K] in
/-- `dswap_` of two rows. -/
theorem dswap_rows (h : Cols L f a) {p q c n xo yo : Nat} (hp : p < L) (hq : q < L) (hc : c + n ≤ L) (hL : 1 < L) (hx : xo = p + c * L)
    (hy : yo = q + c * L) : ∃ a', dswap a n xo L yo L = some a' ∧ Cols L (swapR f p q c n) a' := by
  unfold dswap
  by_cases hn : n = 0
  · rw [if_pos hn]
    refine ⟨a, rfl, h.congr fun x y _ _ => ?_⟩
    unfold swapR
    rw [if_neg (by omega)]
  · rw [if_neg hn, if_neg (by omega)]
    refine swapLoop_ok h hp hq hc fun k a' => ?_
    congr 1
    · rw [hx]; ring
    · rw [hy]; ring

omit [LinearOrder K] in
/-- `dswap_` of two columns. -/
theorem dswap_cols (h : Cols L f a) {p q xo yo : Nat} (hp : p < L) (hq : q < L) (hx : xo = p * L) (hy : yo = q * L) :
    ∃ a', dswap a L xo 1 yo 1 = some a' ∧ Cols L (fun x y => f x (swap p q y)) a' := by
  rw [dswap_unit]
  obtain ⟨a', h1, h2⟩ := loop_inv L (fun i a => swapAt a (xo + i) (yo + i)) a
    (fun k a' => Cols L (fun x y => if x < k then f x (swap p q y) else f x y) a') (h.congr fun x y _ _ => by rw [if_neg (by omega)])
    (by
      intro k a' hk hP
      obtain ⟨a2, h1, h2⟩ := swapAt_ok hP (i := k) (j := p) (x := k) (y := q) (p := xo + k) (q := yo + k) hk hp hk hq (by omega) (by omega)
      refine ⟨a2, h1, h2.congr fun x y _ _ => ?_⟩
      simp only [swap_apply_def]
      grind)
  exact ⟨a', h1, h2.congr fun x y hx _ => by rw [if_pos hx]⟩

omit [LinearOrder K] in
/-- `dscal_` of a piece of a column. -/
theorem dscal_ok (h : Cols L f a) {r m c xo : Nat} (hr : r + m ≤ L) (hc : c < L) (t : K) (hx : xo = r + c * L) :
    ∃ a', dscal a m t xo = some a' ∧ Cols L (fun x y => if y = c ∧ r ≤ x ∧ x < r + m then t * f x c else f x y) a' := by
  rw [dscal_eq]
  refine scaleLoop_ok h hr hc t fun i a' => ?_
  congr 1
  omega

/-- Rows `r` to `r + m - 1` of a column plus columns `s`, `s + 1`, … times `t 0`, `t 1`, …. -/
def colSum (f : Nat → Nat → K) (r m c s n : Nat) (t : Nat → K) : Nat → Nat → K :=
  fun x y => if y = c ∧ r ≤ x ∧ x < r + m then f x c + ∑ l ∈ range n, f x (s + l) * t l else f x y

/-- A loop of column additions. -/
theorem colSum_ok (h : Cols L f a) {r m c s n : Nat} (hr : r + m ≤ L) (hc : c < L) (hs : s + n ≤ L) (hcs : c < s ∨ s + n ≤ c) (t : Nat → K)
    {op : Nat → List K → Option (List K)}
    (hop : ∀ l a', l < n → Cols L (colSum f r m c s l t) a' →
      op l a' = if t l ≠ 0 then loop m (fun i a => addAt a (r + i + c * L) (r + i + (s + l) * L) (t l)) a' else some a') :
    ∃ a', loop n op a = some a' ∧ Cols L (colSum f r m c s n t) a' := by
  refine loop_inv n op a (fun k a' => Cols L (colSum f r m c s k t) a') (h.congr fun x y _ _ => ?_) ?_
  · unfold colSum
    split
    · next h => simp [h.1]
    · rfl
  · intro l a' hl hP
    have key : ∀ x y, axpy (colSum f r m c s l t) r m c (s + l) (t l) x y = colSum f r m c s (l + 1) t x y := by
      intro x y
      unfold axpy colSum
      by_cases h3 : y = c ∧ r ≤ x ∧ x < r + m
      · rw [if_pos h3, if_pos h3, if_pos ⟨rfl, h3.2⟩, if_neg (by omega), sum_range_succ, add_assoc]
      · rw [if_neg h3, if_neg h3, if_neg h3]
    rw [hop l a' hl hP]
    by_cases ht : t l = 0
    · rw [if_neg (by simp [ht])]
      refine ⟨a', rfl, hP.congr fun x y _ _ => ?_⟩
      rw [← key, ht, axpy_zero]
    · rw [if_pos ht]
      obtain ⟨a2, h1, h2⟩ := axpy_ok hP (d := s + l) hr hc (by omega) (by omega) (t l)
        (op := fun i a => addAt a (r + i + c * L) (r + i + (s + l) * L) (t l)) (fun _ _ _ _ => rfl)
      exact ⟨a2, h1, h2.congr fun x y _ _ => key x y⟩

/-- `dger_`: column `d` times row `e` is added to a block. -/
theorem dger_ok (h : Cols L f a) {r m c n d e xo yo ao : Nat} {alpha : K} (hr : r + m ≤ L) (hc : c + n ≤ L) (hd : d < c) (he : e < r)
    (hx : xo = r + d * L) (hy : yo = e + c * L) (ha : ao = r + c * L) :
    ∃ a', dger a m n alpha xo yo L ao L = some a' ∧
      Cols L (fun x y => if (r ≤ x ∧ x < r + m) ∧ c ≤ y ∧ y < c + n then f x y + f x d * (alpha * f e y) else f x y) a' := by
  unfold dger
  by_cases hq : m = 0 ∨ n = 0 ∨ alpha = 0
  · rw [if_pos hq]
    refine ⟨a, rfl, h.congr fun x y _ _ => ?_⟩
    split
    · next h3 =>
      have : alpha = 0 := by
        rcases hq with hq | hq | hq
        · omega
        · omega
        · exact hq
      rw [this]; ring
    · rfl
  · rw [if_neg hq]
    obtain ⟨a', h1, h2⟩ := loop_inv n (fun j a => do
        let y ← a[yo + j * L]?
        if y ≠ 0 then loop m (fun i a => addAt a (ao + i + j * L) (xo + i) (alpha * y)) a else some a) a
      (fun k a' => Cols L (fun x y => if (r ≤ x ∧ x < r + m) ∧ c ≤ y ∧ y < c + k then f x y + f x d * (alpha * f e y) else f x y) a')
      (h.congr fun x y _ _ => by rw [if_neg (by omega)])
      (by
        intro k a' hk hP
        have hv : a'[yo + k * L]? = some (f e (c + k)) := by
          rw [hP.rd (k := yo + k * L) (i := e) (j := c + k) (by omega) (by omega) (by rw [hy]; ring)]
          beta_reduce
          rw [if_neg (by omega)]
        rw [bind_ok hv]
        have key : ∀ x y, axpy (fun x y => if (r ≤ x ∧ x < r + m) ∧ c ≤ y ∧ y < c + k then f x y + f x d * (alpha * f e y) else f x y) r m
            (c + k) d (alpha * f e (c + k)) x y =
            (fun x y => if (r ≤ x ∧ x < r + m) ∧ c ≤ y ∧ y < c + (k + 1) then f x y + f x d * (alpha * f e y) else f x y) x y := by
          intro x y
          unfold axpy
          by_cases h3 : y = c + k ∧ r ≤ x ∧ x < r + m
          · rw [if_pos h3]
            beta_reduce
            rw [if_neg (by omega), if_neg (by omega), if_pos (by omega), h3.1]
          · rw [if_neg h3]
            beta_reduce
            by_cases h4 : (r ≤ x ∧ x < r + m) ∧ c ≤ y ∧ y < c + k
            · rw [if_pos h4, if_pos (by omega)]
            · rw [if_neg h4, if_neg (by omega)]
        by_cases ht : f e (c + k) = 0
        · rw [if_neg (by simp [ht])]
          refine ⟨a', rfl, hP.congr fun x y _ _ => ?_⟩
          refine Eq.trans ?_ (key x y)
          rw [ht, mul_zero, axpy_zero]
        · rw [if_pos ht]
          obtain ⟨a2, h3, h4⟩ := axpy_ok hP (r := r) (m := m) (c := c + k) (d := d) hr (by omega) (by omega) (by omega) (alpha * f e (c + k))
            (op := fun i a => addAt a (ao + i + k * L) (xo + i) (alpha * f e (c + k))) (fun i a' _ _ => by
              congr 1
              · rw [ha]; ring
              · rw [hx]; ring)
          exact ⟨a2, h3, h4.congr fun x y _ _ => key x y⟩)
    exact ⟨a', h1, h2⟩

/-- `dgemv_`: a column plus a multiple of a product. -/
theorem dgemv_ok (h : Cols L f a) {c s n ao yo : Nat} {alpha : K} {rd : Nat → Option K} {v : Nat → K} (hrd : ∀ k < n, rd k = some (v k))
    (hs : s + n ≤ L) (hc : c < s) (hn : 0 < n) (ha : alpha ≠ 0) (hao : ao = s * L) (hyo : yo = c * L) :
    ∃ a', dgemv rd a L n alpha ao L yo = some a' ∧ Cols L (colSum f 0 L c s n fun l => alpha * v l) a' := by
  unfold dgemv
  rw [if_neg (by
    rintro (h | h | h)
    · omega
    · omega
    · exact ha h)]
  refine colSum_ok h (by omega) (by omega) hs (Or.inl hc) _ fun l a' hl _ => ?_
  rw [bind_ok (hrd l hl)]
  by_cases hv : v l = 0
  · rw [if_neg (by simp [hv]), if_neg (by simp [hv])]
  · rw [if_pos hv, if_pos (mul_ne_zero ha hv)]
    congr 1
    funext i a
    congr 1
    · omega
    · rw [hao]; ring

/-- Upper triangular product of a column: rows `r` to `r + k - 1` are done. -/
def trmv (f : Nat → Nat → K) (r d c k : Nat) : Nat → Nat → K :=
  fun x y => if y = c ∧ r ≤ x ∧ x < r + k then ∑ l ∈ Ico (x - r) k, f x (d + l) * f (r + l) c else f x y

/-- A loop of the steps of an upper triangular product. -/
theorem trmv_ok (h : Cols L f a) {r d c n : Nat} (hr : r + n ≤ L) (hc : c < L) (hd : d + n ≤ L) (hcd : d + n ≤ c) {op : Nat → List K → Option (List K)}
    (hop : ∀ j a' t, j < n → a'[r + j + c * L]? = some t → op j a' = if t ≠ 0 then (do
        let a ← loop j (fun i a => addAt a (r + i + c * L) (r + i + (d + j) * L) t) a'
        let x ← a[r + j + c * L]?
        let e ← a[r + j + (d + j) * L]?
        wr a (r + j + c * L) (x * e)) else some a') :
    ∃ a', loop n op a = some a' ∧ Cols L (trmv f r d c n) a' := by
  refine loop_inv n op a (fun k a' => Cols L (trmv f r d c k) a') (h.congr fun x y _ _ => ?_) ?_
  · unfold trmv
    rw [if_neg (by omega)]
  · intro j a' hj hP
    have hval : trmv f r d c j (r + j) c = f (r + j) c := by
      unfold trmv
      rw [if_neg (by omega)]
    rw [hop j a' (f (r + j) c) hj (by rw [hP.rd (i := r + j) (j := c) (by omega) hc rfl, hval])]
    have key : ∀ x y, (if x = r + j ∧ y = c then f (r + j) c * f (r + j) (d + j) else axpy (trmv f r d c j) r j c (d + j) (f (r + j) c) x y) =
        trmv f r d c (j + 1) x y := by
      intro x y
      by_cases h1 : x = r + j ∧ y = c
      · rw [if_pos h1]
        unfold trmv
        rw [if_pos (by omega), h1.1, show r + j - r = j by omega, Nat.Ico_succ_singleton, sum_singleton, mul_comm]
      · rw [if_neg h1]
        unfold axpy trmv
        by_cases h2 : y = c ∧ r ≤ x ∧ x < r + j
        · rw [if_pos h2, if_pos ⟨rfl, h2.2⟩, if_neg (by omega), if_pos (by omega), sum_Ico_succ_top (by omega)]
        · rw [if_neg h2, if_neg h2, if_neg (by omega)]
    by_cases ht : f (r + j) c = 0
    · rw [if_neg (by simp [ht])]
      refine ⟨a', rfl, hP.congr fun x y _ _ => ?_⟩
      rw [← key, ht, axpy_zero, zero_mul]
      split
      · next h1 => rw [h1.1, h1.2, hval, ht]
      · rfl
    · rw [if_pos ht]
      obtain ⟨a2, h1, h2⟩ := axpy_ok hP (r := r) (m := j) (c := c) (d := d + j) (by omega) hc (by omega) (by omega) (f (r + j) c)
        (op := fun i a => addAt a (r + i + c * L) (r + i + (d + j) * L) (f (r + j) c)) (fun _ _ _ _ => rfl)
      have h3 : axpy (trmv f r d c j) r j c (d + j) (f (r + j) c) (r + j) c = f (r + j) c := by
        unfold axpy
        rw [if_neg (by omega), hval]
      have h4 : axpy (trmv f r d c j) r j c (d + j) (f (r + j) c) (r + j) (d + j) = f (r + j) (d + j) := by
        unfold axpy trmv
        rw [if_neg (by omega), if_neg (by omega)]
      rw [bind_ok h1, bind_ok (h2.rd (i := r + j) (j := c) (by omega) hc rfl), bind_ok (h2.rd (i := r + j) (j := d + j) (by omega) (by omega) rfl), h3, h4]
      obtain ⟨a3, h5, h6⟩ := h2.wr (i := r + j) (j := c) (by omega) hc rfl (f (r + j) c * f (r + j) (d + j))
      exact ⟨a3, h5, h6.congr fun x y _ _ => key x y⟩

/-- `dtrmv_`. -/
theorem dtrmv_ok (h : Cols L f a) {r d c n ao xo : Nat} (hr : r + n ≤ L) (hc : c < L) (hd : d + n ≤ L) (hcd : d + n ≤ c) (ha : ao = r + d * L)
    (hx : xo = r + c * L) : ∃ a', dtrmv a n ao L xo = some a' ∧ Cols L (trmv f r d c n) a' := by
  unfold dtrmv
  refine trmv_ok h hr hc hd hcd fun j a' t hj ht => ?_
  have e1 : ∀ i, xo + i = r + i + c * L := fun i => by omega
  have e2 : ∀ i, ao + i + j * L = r + i + (d + j) * L := fun i => by rw [ha]; ring
  simp only [e1, e2]
  rw [bind_ok ht]

/-- `dtrmm_`. -/
theorem dtrmm_ok (h : Cols L f a) {d c m n ao bo : Nat} (hm : m ≤ L) (hc : c + n ≤ L) (hcd : d + m ≤ c) (ha : ao = d * L)
    (hb : bo = c * L) : ∃ a', dtrmm a m n ao L bo = some a' ∧
      Cols L (fun x y => if (c ≤ y ∧ y < c + n) ∧ x < m then ∑ l ∈ Ico x m, f x (d + l) * f l y else f x y) a' := by
  unfold dtrmm
  refine loop_inv n _ a
    (fun k a' => Cols L (fun x y => if (c ≤ y ∧ y < c + k) ∧ x < m then ∑ l ∈ Ico x m, f x (d + l) * f l y else f x y) a')
    (h.congr fun x y _ _ => by rw [if_neg (by omega)]) ?_
  intro j a1 hj hP
  obtain ⟨a2, h1, h2⟩ := trmv_ok hP (r := 0) (d := d) (c := c + j) (n := m) (by omega) (by omega) (by omega) (by omega) (op := fun k a => do
      let temp ← a[bo + k + j * L]?
      if temp ≠ 0 then do
        let a ← loop k (fun i a => addAt a (bo + i + j * L) (ao + i + k * L) temp) a
        let d ← a[ao + k + k * L]?
        wr a (bo + k + j * L) (temp * d)
      else some a) (by
        intro k a' t hk ht
        have e1 : ∀ i, bo + i + j * L = 0 + i + (c + j) * L := fun i => by rw [hb]; ring
        have e2 : ∀ i, ao + i + k * L = 0 + i + (d + k) * L := fun i => by rw [ha]; ring
        simp only [e1, e2]
        rw [bind_ok ht]
        by_cases h0 : t ≠ 0
        · rw [if_pos h0, if_pos h0]
          cases hl : loop k (fun i a => addAt a (0 + i + (c + j) * L) (0 + i + (d + k) * L) t) a' with
          | none => rfl
          | some b =>
            have hb : b[0 + k + (c + j) * L]? = some t := by
              clear h0
              have : ∀ p, p ≤ k → ∀ b, loop p (fun i a => addAt a (0 + i + (c + j) * L) (0 + i + (d + k) * L) t) a' = some b →
                  b[0 + k + (c + j) * L]? = some t := by
                intro p
                induction p with
                | zero =>
                  intro _ b hb
                  cases hb
                  exact ht
                | succ p ih =>
                  intro hp b hb
                  rw [loop] at hb
                  cases hl : loop p (fun i a => addAt a (0 + i + (c + j) * L) (0 + i + (d + k) * L) t) a' with
                  | none => rw [hl] at hb; cases hb
                  | some b' =>
                    rw [hl] at hb
                    simp only [Option.bind_some, addAt, Option.bind_eq_bind, Option.bind_eq_some_iff] at hb
                    obtain ⟨u, _, v, _, hw⟩ := hb
                    unfold wr at hw
                    split at hw
                    · cases hw
                      rw [List.getElem?_set_ne (by omega)]
                      exact ih (by omega) b' hl
                    · cases hw
              exact this k le_rfl b hl
            show (b[_]? >>= _) = (b[_]? >>= _)
            rw [bind_ok hb]
        · rw [if_neg h0, if_neg h0])
  refine ⟨a2, h1, h2.congr fun x y _ _ => ?_⟩
  unfold trmv
  by_cases h3 : y = c + j ∧ 0 ≤ x ∧ x < 0 + m
  · rw [if_pos h3, if_pos (by omega)]
    refine sum_congr (by rw [Nat.sub_zero]) fun l hl => ?_
    rw [mem_Ico] at hl
    beta_reduce
    rw [if_neg (by omega), if_neg (by omega), Nat.zero_add, h3.1]
  · rw [if_neg h3]
    beta_reduce
    by_cases h4 : (c ≤ y ∧ y < c + j) ∧ x < m
    · rw [if_pos h4, if_pos (by omega)]
    · rw [if_neg h4, if_neg (by omega)]

end QM.Lapack
