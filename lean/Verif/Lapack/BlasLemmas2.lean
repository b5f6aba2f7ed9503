import Verif.Lapack.BlasLemmas
import Verif.Lapack.Model
import Mathlib.Algebra.Group.End

/-!
# What the BLAS routines for blocks do to a matrix
-/

namespace QM.Lapack

open Finset Equiv

variable {K : Type} [Field K] [LinearOrder K] {L : Nat} {f : Nat → Nat → K} {a : List K}

/-- One column of `dtrsm_` with a unit lower triangle on the left. -/
theorem solveColumn_ok (h : Cols L f a) {r d c m : Nat} (hr : r + m ≤ L) (hc : c < L) (hd : d + m ≤ c) {op : Nat → List K → Option (List K)}
    (hop : ∀ k a', k < m → op k a' = (do
      let b ← a'[r + k + c * L]?
      if b ≠ 0 then loop (m - (k + 1)) (fun i a => do
        let b ← a[r + k + c * L]?
        subAt a (r + (k + 1 + i) + c * L) (r + (k + 1 + i) + (d + k) * L) b) a'
      else some a')) :
    ∃ a' g, loop m op a = some a' ∧ Cols L g a' ∧ (∀ x y, ¬(y = c ∧ r ≤ x ∧ x < r + m) → g x y = f x y) ∧
      ∀ i < m, f (r + i) c = ∑ l ∈ range i, f (r + i) (d + l) * g (r + l) c + g (r + i) c := by
  obtain ⟨a', h1, g, h2, h3, h4⟩ := loop_inv m op a (fun k a' => ∃ g, Cols L g a' ∧ (∀ x y, ¬(y = c ∧ r ≤ x ∧ x < r + m) → g x y = f x y) ∧
      ∀ i < m, f (r + i) c = ∑ l ∈ range (min i k), f (r + i) (d + l) * g (r + l) c + g (r + i) c)
    ⟨f, h, fun _ _ _ => rfl, fun i _ => by simp⟩
    (by
      rintro k a1 hk ⟨g, h2, h3, h4⟩
      have hb := h2.rd (i := r + k) (j := c) (by omega) hc rfl
      have key : ∃ a2, op k a1 = some a2 ∧ Cols L (axpy g (r + (k + 1)) (m - (k + 1)) c (d + k) (-g (r + k) c)) a2 := by
        rw [hop k a1 hk, bind_ok hb]
        by_cases h0 : g (r + k) c = 0
        · rw [if_neg (by simp [h0]), h0, neg_zero, axpy_zero]
          exact ⟨a1, rfl, h2⟩
        · rw [if_pos h0]
          refine axpy_ok h2 (by omega) hc (by omega) (by omega) _ fun i a2 hi h5 => ?_
          have hb2 : a2[r + k + c * L]? = some (g (r + k) c) := by
            rw [h5.rd (i := r + k) (j := c) (by omega) hc rfl]
            unfold axpy
            rw [if_neg (by omega)]
          rw [bind_ok hb2, subAt_eq]
          congr 2 <;> omega
      obtain ⟨a2, h5, h6⟩ := key
      refine ⟨a2, h5, _, h6, fun x y hxy => ?_, fun i hi => ?_⟩
      · unfold axpy
        rw [if_neg (by omega), h3 x y hxy]
      · have e : ∀ l ≤ k, axpy g (r + (k + 1)) (m - (k + 1)) c (d + k) (-g (r + k) c) (r + l) c = g (r + l) c := by
          intro l hl
          unfold axpy
          rw [if_neg (by omega)]
        have e2 : ∑ l ∈ range (min i (k + 1)), f (r + i) (d + l) * axpy g (r + (k + 1)) (m - (k + 1)) c (d + k) (-g (r + k) c) (r + l) c =
            ∑ l ∈ range (min i (k + 1)), f (r + i) (d + l) * g (r + l) c :=
          sum_congr rfl fun l hl => by rw [e l (by rw [mem_range] at hl; omega)]
        rw [e2]
        by_cases hik : i ≤ k
        · rw [e i hik, h4 i hi, Nat.min_eq_left hik, Nat.min_eq_left (by omega)]
        · have e3 : axpy g (r + (k + 1)) (m - (k + 1)) c (d + k) (-g (r + k) c) (r + i) c = g (r + i) c - f (r + i) (d + k) * g (r + k) c := by
            unfold axpy
            rw [if_pos (by omega), h3 (r + i) (d + k) (by omega)]
            ring
          rw [e3, h4 i hi, Nat.min_eq_right (by omega), Nat.min_eq_right (by omega), sum_range_succ]
          ring)
  exact ⟨a', g, h1, h2, h3, fun i hi => by rw [h4 i hi, Nat.min_eq_left (by omega)]⟩

/-- `dtrsm_` with a unit lower triangle on the left. -/
theorem dtrsmLeft_ok (h : Cols L f a) {r d c m n ao bo : Nat} (hr : r + m ≤ L) (hc : c + n ≤ L) (hd : d + m ≤ c) (ha : ao = r + d * L)
    (hb : bo = r + c * L) :
    ∃ a' g, dtrsmLeft a m n ao L bo = some a' ∧ Cols L g a' ∧ (∀ x y, ¬((r ≤ x ∧ x < r + m) ∧ c ≤ y ∧ y < c + n) → g x y = f x y) ∧
      ∀ i y, i < m → c ≤ y → y < c + n → f (r + i) y = ∑ l ∈ range i, f (r + i) (d + l) * g (r + l) y + g (r + i) y := by
  unfold dtrsmLeft
  obtain ⟨a', h1, g, h2, h3, h4⟩ := loop_inv n (fun j a => loop m (fun k a => do
      let b ← a[bo + k + j * L]?
      if b ≠ 0 then loop (m - (k + 1)) (fun i a => do
        let b ← a[bo + k + j * L]?
        subAt a (bo + (k + 1 + i) + j * L) (ao + (k + 1 + i) + k * L) b) a
      else some a) a) a
    (fun j a' => ∃ g, Cols L g a' ∧ (∀ x y, ¬((r ≤ x ∧ x < r + m) ∧ c ≤ y ∧ y < c + j) → g x y = f x y) ∧
      ∀ i y, i < m → c ≤ y → y < c + j → f (r + i) y = ∑ l ∈ range i, f (r + i) (d + l) * g (r + l) y + g (r + i) y)
    ⟨f, h, fun _ _ _ => rfl, fun i y _ _ _ => by omega⟩
    (by
      rintro j a1 hj ⟨g, h2, h3, h4⟩
      obtain ⟨a2, g2, h5, h6, h7, h8⟩ := solveColumn_ok h2 (r := r) (d := d) (c := c + j) (m := m) hr (by omega) (by omega) (op := fun k a => do
          let b ← a[bo + k + j * L]?
          if b ≠ 0 then loop (m - (k + 1)) (fun i a => do
            let b ← a[bo + k + j * L]?
            subAt a (bo + (k + 1 + i) + j * L) (ao + (k + 1 + i) + k * L) b) a
          else some a) (by
            intro k a' hk
            have e1 : ∀ i, bo + i + j * L = r + i + (c + j) * L := fun i => by rw [hb]; ring
            have e2 : ∀ i, ao + i + k * L = r + i + (d + k) * L := fun i => by rw [ha]; ring
            simp only [e1, e2])
      refine ⟨a2, h5, g2, h6, fun x y hxy => ?_, fun i y hi hy1 hy2 => ?_⟩
      · rw [h7 x y (by omega), h3 x y (by omega)]
      · by_cases e : y = c + j
        · subst e
          rw [← h3 (r + i) (c + j) (by omega), h8 i hi]
          congr 1
          exact sum_congr rfl fun l hl => by rw [mem_range] at hl; rw [h3 (r + i) (d + l) (by omega)]
        · rw [h7 (r + i) y (by omega), h4 i y hi hy1 (by omega)]
          congr 1
          exact sum_congr rfl fun l hl => by rw [h7 (r + l) y (by omega)])
  exact ⟨a', g, h1, h2, h3, h4⟩

/-- `dgemm_`: a block plus a multiple of a product. -/
theorem dgemm_ok (h : Cols L f a) {r m c n s k ao co ldb : Nat} {alpha : K} {rd : List K → Nat → Option K} {v : Nat → Nat → K} (hr : r + m ≤ L)
    (hc : c + n ≤ L) (hs : s + k ≤ L) (hcs : c + n ≤ s ∨ s + k ≤ c) (ha : ao = r + s * L) (hco : co = r + c * L)
    (hrd : ∀ g a', Cols L g a' → (∀ x y, ¬((r ≤ x ∧ x < r + m) ∧ c ≤ y ∧ y < c + n) → g x y = f x y) →
      ∀ l j, l < k → j < n → rd a' (l + j * ldb) = some (v l j)) (ha0 : alpha ≠ 0) :
    ∃ a', dgemm rd a m n k alpha ao L ldb co L = some a' ∧
      Cols L (fun x y => if (r ≤ x ∧ x < r + m) ∧ c ≤ y ∧ y < c + n then f x y + ∑ l ∈ range k, f x (s + l) * (alpha * v l (y - c)) else f x y) a' := by
  unfold dgemm
  by_cases hq : m = 0 ∨ n = 0 ∨ alpha = 0 ∨ k = 0
  · rw [if_pos hq]
    refine ⟨a, rfl, h.congr fun x y _ _ => ?_⟩
    split
    · next h3 =>
      have : k = 0 := by
        rcases hq with hq | hq | hq | hq
        · omega
        · omega
        · exact absurd hq ha0
        · exact hq
      simp [this]
    · rfl
  · rw [if_neg hq]
    refine loop_inv n _ a (fun j a' =>
      Cols L (fun x y => if (r ≤ x ∧ x < r + m) ∧ c ≤ y ∧ y < c + j then f x y + ∑ l ∈ range k, f x (s + l) * (alpha * v l (y - c)) else f x y) a')
      (h.congr fun x y _ _ => by rw [if_neg (by omega)]) ?_
    intro j a1 hj hP
    obtain ⟨a2, h1, h2⟩ := colSum_ok hP (r := r) (m := m) (c := c + j) (s := s) (n := k) hr (by omega) hs (by omega) (fun l => alpha * v l j)
      (op := fun l a => do
        let b ← rd a (l + j * ldb)
        if b ≠ 0 then loop m (fun i a => addAt a (co + i + j * L) (ao + i + l * L) (alpha * b)) a else some a) (by
        intro l a' hl hP'
        rw [bind_ok (hrd _ a' hP' (by
          intro x y hxy
          unfold colSum
          beta_reduce
          rw [if_neg (by omega), if_neg (by omega)]) l j hl hj)]
        have e1 : ∀ i, co + i + j * L = r + i + (c + j) * L := fun i => by rw [hco]; ring
        have e2 : ∀ i, ao + i + l * L = r + i + (s + l) * L := fun i => by rw [ha]; ring
        simp only [e1, e2]
        by_cases hv : v l j = 0
        · rw [if_neg (by simp [hv]), if_neg (by simp [hv])]
        · rw [if_pos hv, if_pos (mul_ne_zero ha0 hv)])
    refine ⟨a2, h1, h2.congr fun x y _ _ => ?_⟩
    unfold colSum
    beta_reduce
    by_cases h3 : y = c + j ∧ r ≤ x ∧ x < r + m
    · have e1 : ∑ l ∈ range k, (if (r ≤ x ∧ x < r + m) ∧ c ≤ s + l ∧ s + l < c + j then
            f x (s + l) + ∑ i ∈ range k, f x (s + i) * (alpha * v i (s + l - c)) else f x (s + l)) * (alpha * v l j) =
          ∑ l ∈ range k, f x (s + l) * (alpha * v l j) := by
        refine sum_congr rfl fun l hl => ?_
        rw [mem_range] at hl
        rw [if_neg (by omega)]
      rw [if_pos h3, e1, if_neg (by omega), if_pos (by omega), h3.1, show c + j - c = j by omega]
    · rw [if_neg h3]
      by_cases h4 : (r ≤ x ∧ x < r + m) ∧ c ≤ y ∧ y < c + j
      · rw [if_pos h4, if_pos (by omega)]
      · rw [if_neg h4, if_neg (by omega)]

/-- `dtrsm_` with a unit lower triangle on the right. -/
theorem dtrsmRightLower_ok (h : Cols L f a) {c n lda bo : Nat} {rd : Nat → Option K} {v : Nat → Nat → K} (hc : c + n ≤ L) (hb : bo = c * L)
    (hrd : ∀ k j, j < k → k < n → rd (k + j * lda) = some (v k j)) :
    ∃ a' g, dtrsmRightLower rd a L n lda bo L = some a' ∧ Cols L g a' ∧ (∀ x y, ¬(c ≤ y ∧ y < c + n) → g x y = f x y) ∧
      ∀ x j, x < L → j < n → f x (c + j) = g x (c + j) + ∑ k ∈ Ico (j + 1) n, g x (c + k) * v k j := by
  unfold dtrsmRightLower
  obtain ⟨a', h1, g, h2, h3, h4⟩ := loop_inv n (fun l a => do
      let j := n - 1 - l
      loop (n - (j + 1)) (fun k a => do
        let t ← rd (j + 1 + k + j * lda)
        if t ≠ 0 then loop L (fun i a => do
          let t ← rd (j + 1 + k + j * lda)
          subAt a (bo + i + j * L) (bo + i + (j + 1 + k) * L) t) a
        else some a) a) a
    (fun l a' => ∃ g, Cols L g a' ∧ (∀ x y, ¬(c + (n - l) ≤ y ∧ y < c + n) → g x y = f x y) ∧
      ∀ x j, x < L → j < n → n - l ≤ j → f x (c + j) = g x (c + j) + ∑ k ∈ Ico (j + 1) n, g x (c + k) * v k j)
    ⟨f, h, fun _ _ _ => rfl, fun x j _ _ _ => by omega⟩
    (by
      rintro l a1 hl ⟨g, h2, h3, h4⟩
      dsimp only
      generalize hj : n - 1 - l = j
      obtain ⟨a2, h5, h6⟩ := colSum_ok h2 (r := 0) (m := L) (c := c + j) (s := c + (j + 1)) (n := n - (j + 1)) (by omega) (by omega) (by omega) (by omega)
        (fun k => -v (j + 1 + k) j) (op := fun k a => do
          let t ← rd (j + 1 + k + j * lda)
          if t ≠ 0 then loop L (fun i a => do
            let t ← rd (j + 1 + k + j * lda)
            subAt a (bo + i + j * L) (bo + i + (j + 1 + k) * L) t) a
          else some a) (by
          intro k a' hk _
          have hr := hrd (j + 1 + k) j (by omega) (by omega)
          rw [bind_ok hr]
          by_cases hv : v (j + 1 + k) j = 0
          · rw [if_neg (by simp [hv]), if_neg (by simp [hv])]
          · rw [if_pos hv, if_pos (by simpa using hv)]
            congr 1
            funext i a
            rw [bind_ok hr, subAt_eq]
            congr 1
            · rw [hb]; ring
            · rw [hb]; ring)
      have e1 : ∀ x, x < L → colSum g 0 L (c + j) (c + (j + 1)) (n - (j + 1)) (fun k => -v (j + 1 + k) j) x (c + j) =
          g x (c + j) - ∑ k ∈ Ico (j + 1) n, g x (c + k) * v k j := by
        intro x hx
        unfold colSum
        rw [if_pos (by omega), sum_Ico_eq_sum_range, sub_eq_add_neg, ← sum_neg_distrib]
        congr 1
        refine sum_congr rfl fun k _ => ?_
        rw [Nat.add_assoc c]
        ring
      have e2 : ∀ x y, y ≠ c + j → colSum g 0 L (c + j) (c + (j + 1)) (n - (j + 1)) (fun k => -v (j + 1 + k) j) x y = g x y := by
        intro x y hy
        unfold colSum
        rw [if_neg (by omega)]
      refine ⟨a2, h5, _, h6, fun x y hxy => ?_, fun x j' hx hj' hl' => ?_⟩
      · rw [e2 x y (by omega), h3 x y (by omega)]
      · have e3 : ∑ k ∈ Ico (j' + 1) n, colSum g 0 L (c + j) (c + (j + 1)) (n - (j + 1)) (fun k => -v (j + 1 + k) j) x (c + k) * v k j' =
            ∑ k ∈ Ico (j' + 1) n, g x (c + k) * v k j' :=
          sum_congr rfl fun k hk => by
            rw [mem_Ico] at hk
            rw [e2 x (c + k) (by omega)]
        rw [e3]
        by_cases e : j' = j
        · subst e
          rw [e1 x hx, h3 x (c + j') (by omega)]
          ring
        · rw [e2 x (c + j') (by omega), h4 x j' hx hj' (by omega)])
  exact ⟨a', g, h1, h2, fun x y hxy => h3 x y (by omega), fun x j hx hj => h4 x j hx hj (by omega)⟩

/-- The permutation of rows by pivots `P`, from row `k` on. -/
def pivPerm (P : Nat → Nat) (k : Nat) : Nat → Perm Nat
  | 0 => 1
  | i + 1 => pivPerm P k i * swap (k + i) (P (k + i))

theorem pivPerm_add (P : Nat → Nat) (k i j : Nat) : pivPerm P k (i + j) = pivPerm P k i * pivPerm P (k + i) j := by
  induction j with
  | zero => rw [pivPerm, mul_one, Nat.add_zero]
  | succ j ih => rw [← Nat.add_assoc, pivPerm, ih, pivPerm, mul_assoc, Nat.add_assoc]

theorem pivPerm_congr {P Q : Nat → Nat} {k n : Nat} (h : ∀ i < n, P (k + i) = Q (k + i)) : pivPerm P k n = pivPerm Q k n := by
  induction n with
  | zero => rfl
  | succ n ih => rw [pivPerm, pivPerm, ih fun i hi => h i (by omega), h n (by omega)]

/-- The permutation moves only rows from `k` to `L - 1`. -/
theorem pivPerm_fix {P : Nat → Nat} {k n L : Nat} (hP : ∀ i < n, k + i ≤ P (k + i) ∧ P (k + i) < L) {x : Nat} (hx : x < k ∨ L ≤ x) :
    pivPerm P k n x = x := by
  induction n with
  | zero => rfl
  | succ n ih =>
    have := hP n (by omega)
    rw [pivPerm, Perm.mul_apply, swap_apply_of_ne_of_ne (by omega) (by omega), ih fun i hi => hP i (by omega)]

theorem pivPerm_mem {P : Nat → Nat} {k n L : Nat} (hP : ∀ i < n, k + i ≤ P (k + i) ∧ P (k + i) < L) {x : Nat} (h1 : k ≤ x) (h2 : x < L) :
    k ≤ pivPerm P k n x ∧ pivPerm P k n x < L := by
  by_contra hc
  have h3 : pivPerm P k n x < k ∨ L ≤ pivPerm P k n x := by omega
  have h4 := pivPerm_fix hP h3
  have h5 := (pivPerm P k n).injective h4
  omega

omit [LinearOrder K] in
/-- The exchanges of rows that the pivots stand for. -/
theorem swapRows_ok (h : Cols L f a) {n o c k1 k2 : Nat} {piv : List Nat} {P : Nat → Nat} (ho : o = c * L) (hc : c + n ≤ L)
    (hP : ∀ i, k1 ≤ i → i < k2 → piv[i]? = some (P i + 1) ∧ P i < L) (hk : k2 ≤ L) :
    ∃ a', swapRows a n o L k1 k2 piv = some a' ∧
      Cols L (fun x y => if c ≤ y ∧ y < c + n then f (pivPerm P k1 (k2 - k1) x) y else f x y) a' := by
  unfold swapRows
  refine loop_inv (k2 - k1) _ a (fun i a' => Cols L (fun x y => if c ≤ y ∧ y < c + n then f (pivPerm P k1 i x) y else f x y) a')
    (h.congr fun x y _ _ => by split <;> rfl) ?_
  intro i a1 hi h1
  have h2 := hP (k1 + i) (by omega) (by omega)
  rw [bind_ok h2.1]
  have key : ∀ x y, swapR (fun x y => if c ≤ y ∧ y < c + n then f (pivPerm P k1 i x) y else f x y) (k1 + i) (P (k1 + i)) c n x y =
      if c ≤ y ∧ y < c + n then f (pivPerm P k1 (i + 1) x) y else f x y := by
    intro x y
    unfold swapR
    beta_reduce
    by_cases hy : c ≤ y ∧ y < c + n
    · rw [if_pos hy, if_pos hy, if_pos hy, pivPerm, Perm.mul_apply]
    · rw [if_neg hy, if_neg hy, if_neg hy]
  by_cases he : P (k1 + i) + 1 = k1 + i + 1
  · rw [if_neg (by simp [he])]
    refine ⟨a1, rfl, h1.congr fun x y _ _ => ?_⟩
    rw [pivPerm, show P (k1 + i) = k1 + i by omega, swap_self]
    rfl
  · rw [if_pos he]
    obtain ⟨a2, h3, h4⟩ := swapLoop_ok h1 (p := k1 + i) (q := P (k1 + i)) (c := c) (n := n) (by omega) h2.2 hc
      (op := fun k a => swapAt a (o + (k1 + i) + k * L) (o + (P (k1 + i) + 1 - 1) + k * L)) (fun k a' => by
        congr 1
        · rw [ho]; ring
        · rw [ho, Nat.add_sub_cancel]; ring)
    exact ⟨a2, h3, h4.congr fun x y _ _ => key x y⟩

omit [LinearOrder K] in
/-- `dlaswp_`. -/
theorem dlaswp_ok (h : Cols L f a) {n o c k1 k2 : Nat} {piv : List Nat} {P : Nat → Nat} (ho : o = c * L) (hc : c + n ≤ L)
    (hP : ∀ i, k1 ≤ i → i < k2 → piv[i]? = some (P i + 1) ∧ P i < L) (hk : k2 ≤ L) :
    ∃ a', dlaswp a n o L k1 k2 piv = some a' ∧
      Cols L (fun x y => if c ≤ y ∧ y < c + n then f (pivPerm P k1 (k2 - k1) x) y else f x y) a' := by
  unfold dlaswp
  obtain ⟨a1, h1, h2⟩ := loop_inv (n / 32) (fun b a => swapRows a 32 (o + 32 * b * L) L k1 k2 piv) a
    (fun b a' => Cols L (fun x y => if c ≤ y ∧ y < c + 32 * b then f (pivPerm P k1 (k2 - k1) x) y else f x y) a')
    (h.congr fun x y _ _ => by rw [if_neg (by omega)])
    (by
      intro b a1 hb h1
      obtain ⟨a2, h2, h3⟩ := swapRows_ok h1 (n := 32) (o := o + 32 * b * L) (c := c + 32 * b) (k1 := k1) (k2 := k2) (piv := piv) (P := P)
        (by rw [ho]; ring) (by omega) hP hk
      refine ⟨a2, h2, h3.congr fun x y _ _ => ?_⟩
      beta_reduce
      by_cases h4 : c + 32 * b ≤ y ∧ y < c + 32 * b + 32
      · rw [if_pos h4, if_neg (by omega), if_pos (by omega)]
      · rw [if_neg h4]
        by_cases h5 : c ≤ y ∧ y < c + 32 * b
        · rw [if_pos h5, if_pos (by omega)]
        · rw [if_neg h5, if_neg (by omega)])
  rw [bind_ok h1]
  by_cases hr : n / 32 * 32 = n
  · rw [if_neg (by simp [hr])]
    exact ⟨a1, rfl, h2.congr fun x y _ _ => by rw [show 32 * (n / 32) = n by omega]⟩
  · rw [if_pos hr]
    obtain ⟨a2, h3, h4⟩ := swapRows_ok h2 (n := n - n / 32 * 32) (o := o + n / 32 * 32 * L) (c := c + n / 32 * 32) (k1 := k1) (k2 := k2) (piv := piv)
      (P := P) (by rw [ho]; ring) (by omega) hP hk
    refine ⟨a2, h3, h4.congr fun x y _ _ => ?_⟩
    beta_reduce
    by_cases h5 : c + n / 32 * 32 ≤ y ∧ y < c + n / 32 * 32 + (n - n / 32 * 32)
    · rw [if_pos h5, if_neg (by omega), if_pos (by omega)]
    · rw [if_neg h5]
      by_cases h6 : c ≤ y ∧ y < c + 32 * (n / 32)
      · rw [if_pos h6, if_pos (by omega)]
      · rw [if_neg h6, if_neg (by omega)]

end QM.Lapack
