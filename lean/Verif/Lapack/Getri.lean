import Verif.Lapack.Trtri

/-!
# The inverse from LU factors (`dgetri_`)
-/

namespace QM.Lapack

open Finset Equiv

variable {K : Type} [Field K] {L : Nat} {f g : Nat → Nat → K}

/-- One column of L goes to the work array. -/
theorem takeColumn_ok {s : Wk K} (h : Cols L f s.a) {w c : Nat} (hc : c < L) (hw : w + L ≤ s.work.length) :
    ∃ s', takeColumn L L w c s = some s' ∧ Cols L (fun x y => if y = c ∧ c < x then 0 else f x y) s'.a ∧ s'.work.length = s.work.length ∧
      (∀ i, c < i → i < L → s'.work[w + i]? = some (f i c)) ∧ ∀ i, i < w ∨ w + L ≤ i → s'.work[i]? = s.work[i]? := by
  unfold takeColumn
  obtain ⟨s', h1, h2, h3, h4, h5⟩ := loop_inv (L - (c + 1)) (fun i (s : Wk K) => do
      let x ← s.a[c + 1 + i + c * L]?
      let work ← wr s.work (w + (c + 1 + i)) x
      let a ← wr s.a (c + 1 + i + c * L) 0
      pure ⟨a, work⟩) s
    (fun k s' => Cols L (fun x y => if y = c ∧ c < x ∧ x < c + 1 + k then 0 else f x y) s'.a ∧ s'.work.length = s.work.length ∧
      (∀ i, c < i → i < c + 1 + k → s'.work[w + i]? = some (f i c)) ∧ ∀ i, i < w ∨ w + L ≤ i → s'.work[i]? = s.work[i]?)
    ⟨h.congr fun x y _ _ => by rw [if_neg (by omega)], rfl, fun i h1 h2 => by omega, fun _ _ => rfl⟩
    (by
      rintro k s1 hk ⟨h2, h3, h4, h5⟩
      rw [bind_ok (h2.rd (i := c + 1 + k) (j := c) (by omega) hc rfl)]
      have hlt : w + (c + 1 + k) < s1.work.length := by rw [h3]; omega
      rw [if_neg (by omega), bind_ok (wr_some _ hlt)]
      obtain ⟨a2, h6, h7⟩ := h2.wr (i := c + 1 + k) (j := c) (by omega) hc rfl 0
      rw [bind_ok h6]
      refine ⟨_, rfl, h7.congr fun x y _ _ => ?_, by simp [h3], fun i hi1 hi2 => ?_, fun i hi => ?_⟩
      · by_cases e : x = c + 1 + k ∧ y = c
        · rw [if_pos e, if_pos (by omega)]
        · rw [if_neg e]
          by_cases e2 : y = c ∧ c < x ∧ x < c + 1 + k
          · rw [if_pos e2, if_pos (by omega)]
          · rw [if_neg e2, if_neg (by omega)]
      · by_cases e : i = c + 1 + k
        · rw [e, List.getElem?_set_self hlt]
        · rw [List.getElem?_set_ne (by omega)]
          exact h4 i hi1 (by omega)
      · rw [List.getElem?_set_ne (by omega)]
        exact h5 i hi)
  refine ⟨s', h1, h2.congr fun x y _ _ => ?_, h3, fun i hi1 hi2 => h4 i hi1 (by omega), h5⟩
  by_cases e : y = c ∧ c < x
  · rw [if_pos (by omega), if_pos e]
  · rw [if_neg (by omega), if_neg e]

/-- The columns from `c` on are those of the inverse before the exchanges: `f` is the matrix that holds the inverse of U and the factor L. -/
def Solved (L : Nat) (f : Nat → Nat → K) (c : Nat) (g : Nat → Nat → K) : Prop :=
  (∀ x y, y < c → g x y = f x y) ∧ ∀ x y, x < L → c ≤ y → y < L → g x y + ∑ l ∈ Ico (y + 1) L, g x l * f l y = up f x y

variable [LinearOrder K]

/-- One column without blocks. -/
theorem getriColumn_ok {s : Wk K} {j : Nat} (h : Cols L g s.a) (hg : Solved L f (j + 1) g) (hj : j < L) (hw : L ≤ s.work.length) :
    ∃ s' g', getriColumn L L j s = some s' ∧ Cols L g' s'.a ∧ Solved L f j g' ∧ s'.work.length = s.work.length := by
  unfold getriColumn
  obtain ⟨s1, h1, h2, h3, h4, _⟩ := takeColumn_ok h (w := 0) (c := j) hj (by omega)
  rw [bind_ok h1]
  simp only [Nat.zero_add] at h4
  have hup : ∀ x, (if j < x then 0 else g x j) = up f x j := by
    intro x
    unfold up
    by_cases hx : j < x
    · rw [if_pos hx, if_neg (by omega)]
    · rw [if_neg hx, if_pos (by omega), hg.1 x j (by omega)]
  have key : ∃ a2, minusColumns L L j s1 = some a2 ∧
      Cols L (colSum (fun x y => if y = j ∧ j < x then 0 else g x y) 0 L j (j + 1) (L - (j + 1)) fun l => -1 * g (j + 1 + l) j) a2 := by
    unfold minusColumns
    by_cases hl : j + 1 < L
    · rw [if_pos hl]
      exact dgemv_ok h2 (c := j) (s := j + 1) (n := L - (j + 1)) (alpha := -1) (v := fun k => g (j + 1 + k) j)
        (fun k hk => h4 (j + 1 + k) (by omega) (by omega)) (by omega) (by omega) (by omega) (by simp) rfl rfl
    · rw [if_neg hl]
      refine ⟨_, rfl, h2.congr fun x y _ _ => ?_⟩
      unfold colSum
      rw [show L - (j + 1) = 0 by omega, sum_range_zero, add_zero]
      beta_reduce
      by_cases e : y = j ∧ 0 ≤ x ∧ x < 0 + L
      · rw [if_pos e, e.1]
      · rw [if_neg e]
  obtain ⟨a2, h5, h6⟩ := key
  rw [bind_ok h5]
  refine ⟨_, _, rfl, h6, ⟨fun x y hy => ?_, fun x y hx hy hyL => ?_⟩, h3⟩
  · unfold colSum
    beta_reduce
    rw [if_neg (by omega), if_neg (by omega), hg.1 x y (by omega)]
  · have e1 : ∑ l ∈ Ico (y + 1) L, colSum (fun x y => if y = j ∧ j < x then 0 else g x y) 0 L j (j + 1) (L - (j + 1))
        (fun l => -1 * g (j + 1 + l) j) x l * f l y = ∑ l ∈ Ico (y + 1) L, g x l * f l y := by
      refine sum_congr rfl fun l hl => ?_
      rw [mem_Ico] at hl
      unfold colSum
      beta_reduce
      rw [if_neg (by omega), if_neg (by omega)]
    rw [e1]
    unfold colSum
    beta_reduce
    by_cases e : y = j
    · subst e
      rw [if_pos (by omega)]
      have e2 : (if y = y ∧ y < x then 0 else g x y) = up f x y := by
        rw [← hup x]
        simp
      rw [e2, sum_Ico_eq_sum_range, add_assoc, ← sum_add_distrib]
      have e3 : ∀ l ∈ range (L - (y + 1)), (if y + 1 + l = y ∧ y < x then 0 else g x (y + 1 + l)) * (-1 * g (y + 1 + l) y) +
          g x (y + 1 + l) * f (y + 1 + l) y = 0 := by
        intro l hl
        rw [mem_range] at hl
        rw [if_neg (by omega), hg.1 (y + 1 + l) y (by omega)]
        ring
      rw [sum_congr rfl e3, sum_const_zero, add_zero]
    · rw [if_neg (by omega), if_neg (by omega)]
      exact hg.2 x y hx (by omega) hyL

omit [LinearOrder K] in
/-- The columns of a block of L go to the work array. -/
theorem takeColumns_ok {s : Wk K} (h : Cols L f s.a) {j w : Nat} (hj : j + w ≤ L) (hw : w * L ≤ s.work.length) :
    ∃ s', loop w (fun c s => takeColumn L L (c * L) (j + c) s) s = some s' ∧
      Cols L (fun x y => if (j ≤ y ∧ y < j + w) ∧ y < x then 0 else f x y) s'.a ∧ s'.work.length = s.work.length ∧
      ∀ c i, c < w → j + c < i → i < L → s'.work[c * L + i]? = some (f i (j + c)) := by
  refine loop_inv w _ s (fun k s' => Cols L (fun x y => if (j ≤ y ∧ y < j + k) ∧ y < x then 0 else f x y) s'.a ∧ s'.work.length = s.work.length ∧
      ∀ c i, c < k → j + c < i → i < L → s'.work[c * L + i]? = some (f i (j + c)))
    ⟨h.congr fun x y _ _ => by rw [if_neg (by omega)], rfl, fun c i h => by omega⟩ ?_
  rintro k s1 hk ⟨h1, h2, h3⟩
  have hkL : k * L + L ≤ w * L := by
    have := Nat.mul_le_mul_right L (show k + 1 ≤ w from hk)
    rwa [Nat.add_mul, Nat.one_mul] at this
  obtain ⟨s2, h4, h5, h6, h7, h8⟩ := takeColumn_ok h1 (w := k * L) (c := j + k) (by omega) (by rw [h2]; omega)
  refine ⟨s2, h4, h5.congr fun x y _ _ => ?_, by rw [h6, h2], fun c i hc hi1 hi2 => ?_⟩
  · beta_reduce
    by_cases e : y = j + k ∧ j + k < x
    · rw [if_pos e, if_pos (by omega)]
    · rw [if_neg e]
      by_cases e2 : (j ≤ y ∧ y < j + k) ∧ y < x
      · rw [if_pos e2, if_pos (by omega)]
      · rw [if_neg e2, if_neg (by omega)]
  · by_cases e : c = k
    · rw [e] at hi1 ⊢
      rw [h7 i hi1 hi2]
      beta_reduce
      rw [if_neg (by omega)]
    · have hck : c * L + L ≤ k * L := by
        have := Nat.mul_le_mul_right L (show c + 1 ≤ k by omega)
        rwa [Nat.add_mul, Nat.one_mul] at this
      rw [h8 _ (Or.inl (by omega))]
      exact h3 c i (by omega) hi1 hi2

/-- One block. -/
theorem getriBlock_ok {s : Wk K} {nb j w : Nat} (h : Cols L g s.a) (hw : w = min nb (L - j)) (hg : Solved L f (j + w) g) (hj : j + w ≤ L)
    (hwk : w * L ≤ s.work.length) :
    ∃ s' g', getriBlock nb L L j s = some s' ∧ Cols L g' s'.a ∧ Solved L f j g' ∧ s'.work.length = s.work.length := by
  unfold getriBlock
  dsimp only
  rw [← hw]
  obtain ⟨s1, h1, h2, h3, h4⟩ := takeColumns_ok h hj hwk
  rw [bind_ok h1]
  have key : ∃ a2 g2, minusBlocks L L j w s1 = some a2 ∧ Cols L g2 a2 ∧ (∀ x y, ¬(j ≤ y ∧ y < j + w) → g2 x y = g x y) ∧
      ∀ x y, x < L → j ≤ y → y < j + w → g2 x y = up f x y - ∑ l ∈ Ico (j + w) L, g x l * f l y := by
    have hup : ∀ x y, j ≤ y → y < j + w → (if (j ≤ y ∧ y < j + w) ∧ y < x then 0 else g x y) = up f x y := by
      intro x y hy1 hy2
      unfold up
      by_cases hx : y < x
      · rw [if_pos ⟨⟨hy1, hy2⟩, hx⟩, if_neg (by omega)]
      · rw [if_neg (by omega), if_pos (by omega), hg.1 x y hy2]
    unfold minusBlocks
    by_cases hl : j + w < L
    · rw [if_pos hl]
      obtain ⟨a2, h5, h6⟩ := dgemm_ok h2 (r := 0) (m := L) (c := j) (n := w) (s := j + w) (k := L - j - w) (ao := (j + w) * L) (co := j * L) (ldb := L)
        (alpha := -1) (rd := fun _ k => s1.work[j + w + k]?) (v := fun l c => f (j + w + l) (j + c)) (by omega) (by omega) (by omega) (by omega)
        (by omega) (by omega) (by
          intro _ _ _ _ l c hl hc
          have := h4 c (j + w + l) hc (by omega) (by omega)
          rw [hg.1 _ (j + c) (by omega)] at this
          rw [← this]
          congr 1
          ring) (by simp)
      refine ⟨a2, _, h5, h6, fun x y hxy => ?_, fun x y hx hy1 hy2 => ?_⟩
      · beta_reduce
        rw [if_neg (by omega), if_neg (by omega)]
      · beta_reduce
        rw [if_pos (by omega), hup x y hy1 hy2, sub_eq_add_neg, sum_Ico_eq_sum_range, ← sum_neg_distrib, Nat.sub_sub]
        congr 1
        refine sum_congr rfl fun l hl => ?_
        rw [if_neg (by omega), show j + (y - j) = y by omega]
        ring
    · rw [if_neg hl]
      refine ⟨_, _, rfl, h2, fun x y hxy => ?_, fun x y hx hy1 hy2 => ?_⟩
      · rw [if_neg (by omega)]
      · rw [hup x y hy1 hy2, Ico_eq_empty (by omega), sum_empty, sub_zero]
  obtain ⟨a2, g2, h5, h6, h7, h8⟩ := key
  rw [bind_ok h5]
  obtain ⟨a3, g3, h9, h10, h11, h12⟩ := dtrsmRightLower_ok h6 (c := j) (n := w) (lda := L) (bo := j * L) (rd := fun k => s1.work[j + k]?)
    (v := fun k c => f (j + k) (j + c)) hj rfl (by
      intro k c hck hk
      have := h4 c (j + k) (by omega) (by omega) (by omega)
      rw [hg.1 _ (j + c) (by omega)] at this
      rw [← this]
      congr 1
      ring)
  rw [bind_ok h9]
  have o3 : ∀ x y, ¬(j ≤ y ∧ y < j + w) → g3 x y = g x y := fun x y hxy => by rw [h11 x y hxy, h7 x y hxy]
  refine ⟨_, g3, rfl, h10, ⟨fun x y hy => ?_, fun x y hx hy hyL => ?_⟩, h3⟩
  · rw [o3 x y (by omega), hg.1 x y (by omega)]
  · by_cases hyw : y < j + w
    · obtain ⟨q, rfl⟩ : ∃ q, y = j + q := ⟨y - j, by omega⟩
      have h13 := h12 x q hx (by omega)
      rw [h8 x (j + q) hx (by omega) hyw] at h13
      rw [← sum_Ico_consecutive _ (show j + q + 1 ≤ j + w by omega) (show j + w ≤ L by omega)]
      have e1 : ∑ l ∈ Ico (j + q + 1) (j + w), g3 x l * f l (j + q) = ∑ k ∈ Ico (q + 1) w, g3 x (j + k) * f (j + k) (j + q) := by
        rw [sum_Ico_eq_sum_range, sum_Ico_eq_sum_range, show j + w - (j + q + 1) = w - (q + 1) by omega]
        exact sum_congr rfl fun l _ => by rw [Nat.add_assoc j q 1, Nat.add_assoc j]
      have e2 : ∑ l ∈ Ico (j + w) L, g3 x l * f l (j + q) = ∑ l ∈ Ico (j + w) L, g x l * f l (j + q) := by
        refine sum_congr rfl fun l hl => ?_
        rw [mem_Ico] at hl
        rw [o3 x l (by omega)]
      rw [e1, e2, ← add_assoc, ← h13]
      ring
    · rw [← hg.2 x y hx (by omega) hyL, o3 x y (by omega)]
      congr 1
      refine sum_congr rfl fun l hl => ?_
      rw [mem_Ico] at hl
      rw [o3 x l (by omega)]

/-- All columns. -/
theorem solveL_ok {s : Wk K} {nb lwork : Nat} (h : Cols L f s.a) (hL : 0 < L) (hl : L ≤ lwork) (hw : lwork = s.work.length) :
    ∃ s' g, solveL nb L L lwork s = some s' ∧ Cols L g s'.a ∧ Solved L f 0 g := by
  unfold solveL
  dsimp only
  generalize hn : (if 1 < nb ∧ nb < L ∧ lwork < max (L * nb) 1 then lwork / L else nb) = nb'
  by_cases hb : nb' < 2 ∨ L ≤ nb'
  · rw [if_pos hb]
    obtain ⟨s', h1, g, h2, h3, _⟩ := loop_inv L (fun k s => getriColumn L L (L - 1 - k) s) s
      (fun k s' => ∃ g, Cols L g s'.a ∧ Solved L f (L - k) g ∧ s'.work.length = s.work.length)
      ⟨f, h, ⟨fun _ _ _ => rfl, fun x y _ h1 h2 => by omega⟩, rfl⟩
      (by
        rintro k s1 hk ⟨g, h2, h3, h4⟩
        rw [show L - k = L - 1 - k + 1 by omega] at h3
        obtain ⟨s2, g2, h5, h6, h7, h8⟩ := getriColumn_ok h2 h3 (by omega) (by omega)
        refine ⟨s2, h5, g2, h6, ?_, by rw [h8, h4]⟩
        rw [show L - (k + 1) = L - 1 - k by omega]
        exact h7)
    rw [Nat.sub_self] at h3
    exact ⟨s', g, h1, h2, h3⟩
  · rw [if_neg hb]
    have hwk : nb' * L ≤ lwork := by
      by_cases hc : 1 < nb ∧ nb < L ∧ lwork < max (L * nb) 1
      · rw [if_pos hc] at hn
        rw [← hn]
        exact Nat.div_mul_le_self lwork L
      · rw [if_neg hc] at hn
        subst hn
        rw [Nat.mul_comm]
        omega
    generalize hq : (L - 1) / nb' = q
    have hq1 : q * nb' ≤ L - 1 := by rw [← hq]; exact Nat.div_mul_le_self _ _
    have hq2 : L ≤ q * nb' + nb' := by
      have h4 := Nat.div_add_mod (L - 1) nb'
      have h5 := Nat.mod_lt (L - 1) (show 0 < nb' by omega)
      rw [Nat.mul_comm, hq] at h4
      omega
    obtain ⟨s', h1, g, h2, h3, _⟩ := loop_inv (q + 1) (fun k s => getriBlock nb' L L (q * nb' - k * nb') s) s
      (fun k s' => ∃ g, Cols L g s'.a ∧ Solved L f (min L (q * nb' + nb' - k * nb')) g ∧ s'.work.length = s.work.length)
      ⟨f, h, ⟨fun _ _ _ => rfl, fun x y _ h1 h2 => by omega⟩, rfl⟩
      (by
        rintro k s1 hk ⟨g, h2, h3, h4⟩
        have hk1 : k * nb' ≤ q * nb' := Nat.mul_le_mul_right _ (by omega)
        have e1 : min L (q * nb' + nb' - k * nb') = q * nb' - k * nb' + min nb' (L - (q * nb' - k * nb')) := by omega
        rw [e1] at h3
        obtain ⟨s2, g2, h5, h6, h7, h8⟩ := getriBlock_ok h2 rfl h3 (by omega) (by
          rw [h4, ← hw]
          exact le_trans (Nat.mul_le_mul_right L (Nat.min_le_left _ _)) hwk)
        refine ⟨s2, h5, g2, h6, ?_, by rw [h8, h4]⟩
        rw [Nat.add_mul, Nat.one_mul, show min L (q * nb' + nb' - (k * nb' + nb')) = q * nb' - k * nb' by omega]
        exact h7)
    rw [Nat.add_mul, Nat.one_mul, Nat.sub_self, Nat.min_zero] at h3
    exact ⟨s', g, h1, h2, h3⟩

omit [LinearOrder K] in
/-- The exchanges of columns. -/
theorem swapColumns_ok {a : List K} {piv : List Nat} {P : Nat → Nat} (h : Cols L f a) (hP : ∀ i < L, piv[i]? = some (P i + 1) ∧ P i < L)
    (hlast : ∀ i, i + 1 = L → P i = i) : ∃ a', swapColumns L L piv a = some a' ∧ Cols L (fun x y => f x ((pivPerm P 0 L)⁻¹ y)) a' := by
  unfold swapColumns
  rcases Nat.eq_zero_or_pos L with rfl | hL
  · exact ⟨a, rfl, h.congr fun x y hx => by omega⟩
  obtain ⟨a', h1, h2⟩ := loop_inv (L - 1) (fun k a => do
      let j := L - 2 - k
      let jp ← piv[j]?
      if jp ≠ j + 1 then dswap a L (j * L) 1 ((jp - 1) * L) 1 else some a) a
    (fun k a' => Cols L (fun x y => f x ((pivPerm P (L - 1 - k) k)⁻¹ y)) a') (h.congr fun _ _ _ _ => rfl)
    (by
      intro k a1 hk h1
      dsimp only
      generalize hj : L - 2 - k = j
      have h2 := hP j (by omega)
      rw [bind_ok h2.1]
      have e1 : pivPerm P (L - 1 - (k + 1)) (k + 1) = swap j (P j) * pivPerm P (L - 1 - k) k := by
        rw [show L - 1 - (k + 1) = j by omega, show L - 1 - k = j + 1 by omega, Nat.add_comm k 1, pivPerm_add, pivPerm, pivPerm, one_mul, Nat.add_zero]
      have e2 : ∀ y, (pivPerm P (L - 1 - (k + 1)) (k + 1))⁻¹ y = (pivPerm P (L - 1 - k) k)⁻¹ (swap j (P j) y) := by
        intro y
        rw [e1, mul_inv_rev, swap_inv, Perm.mul_apply]
      by_cases he : P j = j
      · rw [if_neg (by simp [he])]
        refine ⟨a1, rfl, h1.congr fun x y _ _ => ?_⟩
        rw [e2, he, swap_self]
        rfl
      · rw [if_pos (by omega), Nat.add_sub_cancel]
        obtain ⟨a2, h3, h4⟩ := dswap_cols h1 (p := j) (q := P j) (by omega) h2.2 rfl rfl
        exact ⟨a2, h3, h4.congr fun x y _ _ => by rw [e2]⟩)
  refine ⟨a', h1, h2.congr fun x y _ _ => ?_⟩
  have e : pivPerm P 0 L = pivPerm P (L - 1 - (L - 1)) (L - 1) := by
    conv_lhs => rw [show L = L - 1 + 1 by omega]
    rw [pivPerm, Nat.zero_add, hlast (L - 1) (by omega), swap_self, Nat.sub_self]
    exact mul_one _
  rw [e]

/-- `dgetri_` on nonsingular factors. -/
theorem dgetri_ok {a work : List K} {piv : List Nat} {P : Nat → Nat} {nb nbt lwork : Nat} (h : Cols L f a) (hL : 0 < L) (hl : L ≤ lwork)
    (hw : lwork = work.length) (hP : ∀ i < L, piv[i]? = some (P i + 1) ∧ P i < L) (hlast : ∀ i, i + 1 = L → P i = i) (hd : ∀ i < L, f i i ≠ 0) :
    ∃ a' V X, dgetri nb nbt L L lwork a piv work = some (a', 0) ∧ Cols L (fun x y => X x ((pivPerm P 0 L)⁻¹ y)) a' ∧ Inverted f V 0 L ∧ Solved L V 0 X := by
  unfold dgetri
  rw [bind_ok (wr_some _ (by omega))]
  obtain ⟨a1, V, h1, h2, h3⟩ := dtrtri_ok nbt h hd
  rw [bind_ok h1]
  rw [if_neg (by simp)]
  obtain ⟨s, X, h4, h5, h6⟩ := solveL_ok (s := ⟨a1, work.set 0 ((L * nb : Nat) : K)⟩) (nb := nb) (lwork := lwork) h2 hL hl (by simp [hw])
  rw [bind_ok h4]
  obtain ⟨a2, h7, h8⟩ := swapColumns_ok h5 hP hlast
  rw [bind_ok h7]
  exact ⟨a2, V, X, rfl, h8, h3, h6⟩

/-- `dgetri_` on singular factors. -/
theorem dgetri_singular {a work : List K} {piv : List Nat} {nb nbt lwork : Nat} (h : Cols L f a) (hl : L ≤ lwork) (hw : lwork = work.length) {i : Nat}
    (hi : i < L) (hd : f i i = 0) : ∃ info, 0 < info ∧ FirstZero L (fun i => f i i) info ∧
      dgetri nb nbt L L lwork a piv work = some (a, info) := by
  obtain ⟨info, h1, h3, h2⟩ := dtrtri_singular nbt h hi hd
  refine ⟨info, h1, h3, ?_⟩
  unfold dgetri
  rw [bind_ok (wr_some _ (by omega)), bind_ok h2, if_pos h1]

end QM.Lapack
