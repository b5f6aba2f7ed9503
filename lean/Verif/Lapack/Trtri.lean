import Verif.Lapack.Getf2

/-!
# The inverse of an upper triangle (`dtrtri_`)
-/

namespace QM.Lapack

open Finset

variable {K : Type} [Field K] [LinearOrder K] {L : Nat} {f g : Nat → Nat → K} {a : List K}

theorem scaleB_ok (h : Cols L f a) {m c j bo : Nat} (alpha : K) (hm : m ≤ L) (hc : c + j < L) (hb : bo = c * L) :
    ∃ a', scaleB a m alpha L bo j = some a' ∧ Cols L (fun x y => if y = c + j ∧ x < m then alpha * f x y else f x y) a' := by
  unfold scaleB
  by_cases h1 : alpha = 1
  · rw [if_neg (by simp [h1])]
    exact ⟨a, rfl, h.congr fun x y _ _ => by rw [h1, one_mul, ite_self]⟩
  · rw [if_pos h1]
    obtain ⟨a', h2, h3⟩ := scaleLoop_ok h (r := 0) (m := m) (c := c + j) (by omega) hc alpha (op := fun i a => scaleAt a alpha (bo + i + j * L))
      (fun i a' => by congr 1; rw [hb]; ring)
    refine ⟨a', h2, h3.congr fun x y _ _ => ?_⟩
    by_cases h4 : y = c + j ∧ x < m
    · rw [if_pos (by omega), if_pos h4, h4.1]
    · rw [if_neg (by omega), if_neg h4]

/-- `dtrsm_` with an upper triangle on the right. -/
theorem dtrsmRightUpper_ok (h : Cols L f a) {c m n ao bo : Nat} (alpha : K) (hc : c + n ≤ L) (hm : m ≤ c) (ha : ao = c + c * L) (hb : bo = c * L)
    (hd : ∀ j < n, f (c + j) (c + j) ≠ 0) :
    ∃ a' g, dtrsmRightUpper a m n alpha ao L bo = some a' ∧ Cols L g a' ∧ (∀ x y, ¬(x < m ∧ c ≤ y ∧ y < c + n) → g x y = f x y) ∧
      ∀ x j, x < m → j < n → alpha * f x (c + j) = ∑ k ∈ range (j + 1), g x (c + k) * f (c + k) (c + j) := by
  unfold dtrsmRightUpper
  refine (fun ⟨a', h1, g, h2, h3, h4⟩ => ⟨a', g, h1, h2, h3, h4⟩) (loop_inv n _ a
    (fun k a' => ∃ g, Cols L g a' ∧ (∀ x y, ¬(x < m ∧ c ≤ y ∧ y < c + k) → g x y = f x y) ∧
      ∀ x j, x < m → j < k → alpha * f x (c + j) = ∑ k ∈ range (j + 1), g x (c + k) * f (c + k) (c + j))
    ⟨f, h, fun _ _ _ => rfl, fun x j _ hj => by omega⟩ ?_)
  rintro j a1 hj ⟨g, h2, h3, h4⟩
  obtain ⟨a2, h5, h6⟩ := scaleB_ok h2 (m := m) (c := c) (j := j) (bo := bo) alpha (by omega) (by omega) hb
  rw [bind_ok h5]
  generalize hg2 : (fun x y => if y = c + j ∧ x < m then alpha * g x y else g x y) = g2 at h6
  have v2 : ∀ x y, y ≠ c + j ∨ m ≤ x → g2 x y = g x y := fun x y hxy => by rw [← hg2]; beta_reduce; rw [if_neg (by omega)]
  have v2' : ∀ x, x < m → g2 x (c + j) = alpha * f x (c + j) := fun x hx => by
    rw [← hg2]; beta_reduce; rw [if_pos ⟨rfl, hx⟩, h3 x (c + j) (by omega)]
  obtain ⟨a3, h7, h8⟩ := colSum_ok h6 (r := 0) (m := m) (c := c + j) (s := c) (n := j) (by omega) (by omega) (by omega) (Or.inr le_rfl)
    (fun k => -f (c + k) (c + j)) (op := fun k a => do
      let t ← a[ao + k + j * L]?
      if t ≠ 0 then loop m (fun i a => do
        let t ← a[ao + k + j * L]?
        subAt a (bo + i + j * L) (bo + i + k * L) t) a
      else some a) (by
      intro k a' hk h7
      have hrd : ∀ {q a''}, Cols L (axpy (colSum g2 0 m (c + j) c k (fun k => -f (c + k) (c + j))) 0 q (c + j) (c + k) (-f (c + k) (c + j))) a'' → q ≤ m →
          a''[ao + k + j * L]? = some (f (c + k) (c + j)) := by
        intro q a'' h8 hq
        rw [h8.rd (i := c + k) (j := c + j) (by omega) (by omega) (by rw [ha]; ring)]
        unfold axpy colSum
        rw [if_neg (by omega), if_neg (by omega), v2 _ _ (Or.inr (by omega)), h3 _ _ (by omega)]
      have h8 := hrd (q := 0) (a'' := a') (h7.congr fun x y _ _ => by
        unfold axpy
        rw [if_neg (by omega)]) (by omega)
      rw [bind_ok h8]
      by_cases hv : f (c + k) (c + j) = 0
      · rw [if_neg (by simp [hv]), if_neg (by simp [hv])]
      · rw [if_pos hv, if_pos (by simpa using hv)]
        have e1 : ∀ i, bo + i + j * L = 0 + i + (c + j) * L := fun i => by rw [hb]; ring
        have e2 : ∀ i, bo + i + k * L = 0 + i + (c + k) * L := fun i => by rw [hb]; ring
        simp only [e1, e2]
        obtain ⟨b1, h9, _⟩ := axpy_ok h7 (r := 0) (m := m) (c := c + j) (d := c + k) (by omega) (by omega) (by omega) (by omega) (-f (c + k) (c + j))
          (op := fun i a => do
            let t ← a[ao + k + j * L]?
            subAt a (0 + i + (c + j) * L) (0 + i + (c + k) * L) t) (fun i a'' hi h10 => by
            rw [bind_ok (hrd h10 (by omega)), subAt_eq])
        obtain ⟨b2, h11, _⟩ := axpy_ok h7 (r := 0) (m := m) (c := c + j) (d := c + k) (by omega) (by omega) (by omega) (by omega) (-f (c + k) (c + j))
          (op := fun i a => addAt a (0 + i + (c + j) * L) (0 + i + (c + k) * L) (-f (c + k) (c + j))) (fun i a'' hi h10 => rfl)
        rename_i h10 h12
        rw [h9, h11]
        congr 1
        refine List.ext_getElem? fun i => ?_
        by_cases hi : i < L * L
        · have hL : 0 < L := Nat.pos_of_ne_zero (by rintro rfl; simp at hi)
          have e3 : i = i % L + i / L * L := by rw [Nat.mul_comm]; exact (Nat.mod_add_div i L).symm
          have e4 : i / L < L := Nat.div_lt_of_lt_mul hi
          rw [h10.rd (Nat.mod_lt i hL) e4 e3, h12.rd (Nat.mod_lt i hL) e4 e3]
        · rw [List.getElem?_eq_none (by rw [h10.1]; omega), List.getElem?_eq_none (by rw [h12.1]; omega)])
  rw [bind_ok h7]
  have hdj := hd j hj
  have v3 : ∀ x y, y ≠ c + j ∨ m ≤ x → colSum g2 0 m (c + j) c j (fun k => -f (c + k) (c + j)) x y = g x y := fun x y hxy => by
    unfold colSum
    rw [if_neg (by omega), v2 x y hxy]
  rw [bind_ok (h8.rd (i := c + j) (j := c + j) (by omega) (by omega) (by rw [ha]; ring)), v3 _ _ (Or.inr (by omega)), h3 _ _ (by omega),
    bind_ok (dv_ok 1 hdj)]
  obtain ⟨a4, h9, h10⟩ := scaleLoop_ok h8 (r := 0) (m := m) (c := c + j) (by omega) (by omega) (1 / f (c + j) (c + j))
    (op := fun i a => scaleAt a (1 / f (c + j) (c + j)) (bo + i + j * L)) (fun i a' => by congr 1; rw [hb]; ring)
  refine ⟨a4, h9, _, h10, fun x y hxy => ?_, fun x j' hx hj' => ?_⟩
  · beta_reduce
    rw [if_neg (by omega), v3 x y (by omega), h3 x y (by omega)]
  · beta_reduce
    by_cases e : j' = j
    · subst e
      rw [sum_range_succ, if_pos (by omega)]
      have e1 : ∑ k ∈ range j', (if c + k = c + j' ∧ 0 ≤ x ∧ x < 0 + m then
            1 / f (c + j') (c + j') * colSum g2 0 m (c + j') c j' (fun k => -f (c + k) (c + j')) x (c + j')
          else colSum g2 0 m (c + j') c j' (fun k => -f (c + k) (c + j')) x (c + k)) * f (c + k) (c + j') =
          ∑ k ∈ range j', g x (c + k) * f (c + k) (c + j') := by
        refine sum_congr rfl fun k hk => ?_
        rw [mem_range] at hk
        rw [if_neg (by omega), v3 _ _ (Or.inl (by omega))]
      have e2 : colSum g2 0 m (c + j') c j' (fun k => -f (c + k) (c + j')) x (c + j') =
          alpha * f x (c + j') - ∑ k ∈ range j', g x (c + k) * f (c + k) (c + j') := by
        unfold colSum
        rw [if_pos (by omega), v2' x hx, sub_eq_add_neg, ← sum_neg_distrib]
        congr 1
        refine sum_congr rfl fun k hk => ?_
        rw [mem_range] at hk
        rw [v2 _ _ (Or.inl (by omega))]
        ring
      rw [e1, e2]
      field_simp
      ring
    · rw [h4 x j' hx (by omega)]
      refine sum_congr rfl fun k hk => ?_
      rw [mem_range] at hk
      rw [if_neg (by omega), v3 _ _ (Or.inl (by omega))]

/-- The upper triangle of the block of `f` that starts at row and column `c` has been inverted as far as column `k`: `g` is the matrix
now. -/
def Inverted (f g : Nat → Nat → K) (c k : Nat) : Prop :=
  (∀ x y, ¬(c ≤ x ∧ x ≤ y ∧ y < c + k) → g x y = f x y) ∧
    ∀ i j, i ≤ j → j < k → ∑ l ∈ Ico i (j + 1), g (c + i) (c + l) * f (c + l) (c + j) = if i = j then 1 else 0

/-- `dtrti2_` inverts an upper triangle. -/
theorem dtrti2_ok (h : Cols L f a) {c n o : Nat} (hc : c + n ≤ L) (ho : o = c + c * L) (hd : ∀ j < n, f (c + j) (c + j) ≠ 0) :
    ∃ a' g, dtrti2 n o L a = some a' ∧ Cols L g a' ∧ Inverted f g c n := by
  unfold dtrti2
  refine (fun ⟨a', h1, g, h2, h3⟩ => ⟨a', g, h1, h2, h3⟩) (loop_inv n _ a (fun k a' => ∃ g, Cols L g a' ∧ Inverted f g c k)
    ⟨f, h, fun _ _ _ => rfl, fun i j _ hj => by omega⟩ ?_)
  rintro j a1 hj ⟨g, h1, h2, h3⟩
  have ho' : o + j + j * L = c + j + (c + j) * L := by rw [ho]; ring
  have hoc : o + j * L = c + (c + j) * L := by rw [ho]; ring
  have hdj := hd j hj
  rw [bind_ok (h1.rd (i := c + j) (j := c + j) (by omega) (by omega) ho'), h2 (c + j) (c + j) (by omega), bind_ok (dv_ok 1 hdj)]
  obtain ⟨a2, h4, h5⟩ := h1.wr (i := c + j) (j := c + j) (by omega) (by omega) ho' (1 / f (c + j) (c + j))
  rw [bind_ok h4, bind_ok (h5.rd (i := c + j) (j := c + j) (by omega) (by omega) ho')]
  obtain ⟨a3, h6, h7⟩ := dtrmv_ok h5 (r := c) (d := c) (c := c + j) (n := j) (ao := o) (xo := o + j * L) (by omega) (by omega) (by omega) le_rfl ho hoc
  rw [bind_ok h6]
  beta_reduce
  rw [if_pos ⟨rfl, rfl⟩]
  obtain ⟨a4, h8, h9⟩ := dscal_ok h7 (r := c) (m := j) (c := c + j) (by omega) (by omega) (-(1 / f (c + j) (c + j))) hoc
  refine ⟨a4, h8, _, h9, fun x y hxy => ?_, fun i j' hij hj' => ?_⟩
  · beta_reduce
    unfold trmv
    beta_reduce
    rw [if_neg (by omega), if_neg (by omega), if_neg (by omega), h2 x y (by omega)]
  · beta_reduce
    by_cases e : j' = j
    · subst e
      by_cases hi : i = j'
      · subst hi
        rw [if_pos rfl, Nat.Ico_succ_singleton, sum_singleton]
        unfold trmv
        beta_reduce
        rw [if_neg (by omega), if_neg (by omega), if_pos ⟨rfl, rfl⟩, one_div, inv_mul_cancel₀ hdj]
      · have e1 : ∑ l ∈ Ico i j', (if c + l = c + j' ∧ c ≤ c + i ∧ c + i < c + j' then
              -(1 / f (c + j') (c + j')) * trmv (fun x y => if x = c + j' ∧ y = c + j' then 1 / f (c + j') (c + j') else g x y) c c (c + j') j' (c + i) (c + j')
            else trmv (fun x y => if x = c + j' ∧ y = c + j' then 1 / f (c + j') (c + j') else g x y) c c (c + j') j' (c + i) (c + l)) *
              f (c + l) (c + j') = ∑ l ∈ Ico i j', g (c + i) (c + l) * f (c + l) (c + j') := by
          refine sum_congr rfl fun l hl => ?_
          rw [mem_Ico] at hl
          rw [if_neg (by omega)]
          unfold trmv
          beta_reduce
          rw [if_neg (by omega), if_neg (by omega)]
        have e2 : trmv (fun x y => if x = c + j' ∧ y = c + j' then 1 / f (c + j') (c + j') else g x y) c c (c + j') j' (c + i) (c + j') =
            ∑ l ∈ Ico i j', g (c + i) (c + l) * f (c + l) (c + j') := by
          unfold trmv
          beta_reduce
          rw [if_pos (by omega), Nat.add_sub_cancel_left]
          refine sum_congr rfl fun l hl => ?_
          rw [mem_Ico] at hl
          rw [if_neg (by omega), if_neg (by omega), h2 (c + l) (c + j') (by omega)]
        rw [sum_Ico_succ_top hij, e1, if_pos (by omega), e2, if_neg hi]
        field_simp
        ring
    · rw [← h3 i j' hij (by omega)]
      refine sum_congr rfl fun l hl => ?_
      rw [mem_Ico] at hl
      unfold trmv
      beta_reduce
      rw [if_neg (by omega), if_neg (by omega), if_neg (by omega)]

/-- One block of `dtrtri_`. -/
theorem trtriStep_ok {nb n b j w : Nat} (h : Cols L g a) (hg : Inverted f g 0 j) (hj : j = b * nb) (hw : w = min nb (n - j)) (hn : j + w ≤ n) (hL : n ≤ L)
    (hd : ∀ i < n, f i i ≠ 0) : ∃ a' g', trtriStep nb n L b a = some a' ∧ Cols L g' a' ∧ Inverted f g' 0 (j + w) := by
  unfold trtriStep
  dsimp only
  rw [← hj, ← hw]
  obtain ⟨hg1, hg2⟩ := hg
  simp only [Nat.zero_add, Nat.zero_le, true_and] at hg1 hg2
  obtain ⟨a1, h1, h2⟩ := dtrmm_ok h (d := 0) (c := j) (m := j) (n := w) (ao := 0) (bo := j * L) (by omega) (by omega) (by omega) (by omega) rfl
  rw [bind_ok h1]
  have hd2 : ∀ i < w, (fun x y => if (j ≤ y ∧ y < j + w) ∧ x < j then ∑ l ∈ Ico x j, g x (0 + l) * g l y else g x y) (j + i) (j + i) ≠ 0 := by
    intro i hi
    beta_reduce
    rw [if_neg (by omega), hg1 _ _ (by omega)]
    exact hd _ (by omega)
  obtain ⟨a2, g2, h3, h4, h5, h6⟩ := dtrsmRightUpper_ok h2 (c := j) (m := j) (n := w) (ao := j + j * L) (bo := j * L) (-1) (by omega) le_rfl rfl rfl hd2
  rw [bind_ok h3]
  beta_reduce at h5 h6
  have o2 : ∀ x y, ¬(x < j ∧ j ≤ y ∧ y < j + w) → g2 x y = g x y := fun x y hxy => by rw [h5 x y hxy, if_neg (by omega)]
  have hd3 : ∀ i < w, g2 (j + i) (j + i) ≠ 0 := by
    intro i hi
    rw [o2 _ _ (by omega), hg1 _ _ (by omega)]
    exact hd _ (by omega)
  obtain ⟨a3, g3, h7, h8, h9, h10⟩ := dtrti2_ok h4 (c := j) (n := w) (o := j + j * L) (by omega) rfl hd3
  have o3 : ∀ x y, x < j → g3 x y = g2 x y := fun x y hx => h9 x y (by omega)
  refine ⟨a3, g3, h7, h8, fun x y hxy => ?_, fun i y hiy hy => ?_⟩
  · rw [h9 x y (by omega), o2 x y (by omega), hg1 x y (by omega)]
  · simp only [Nat.zero_add]
    by_cases hyj : y < j
    · rw [← hg2 i y hiy hyj]
      refine sum_congr rfl fun l hl => ?_
      rw [mem_Ico] at hl
      rw [o3 _ _ (by omega), o2 _ _ (by omega)]
    · obtain ⟨q, rfl⟩ : ∃ q, y = j + q := ⟨y - j, by omega⟩
      by_cases hij : i < j
      · rw [if_neg (by omega), ← sum_Ico_consecutive _ (show i ≤ j by omega) (show j ≤ j + q + 1 by omega)]
        have e1 : ∑ l ∈ Ico i j, g3 i l * f l (j + q) = ∑ l ∈ Ico i j, g i l * g l (j + q) := by
          refine sum_congr rfl fun l hl => ?_
          rw [mem_Ico] at hl
          rw [o3 _ _ hij, o2 _ _ (by omega), hg1 l (j + q) (by omega)]
        have e2 : ∑ l ∈ Ico j (j + q + 1), g3 i l * f l (j + q) = -∑ l ∈ Ico i j, g i l * g l (j + q) := by
          have h11 := h6 i q hij (by omega)
          rw [if_pos (by omega)] at h11
          simp only [Nat.zero_add] at h11
          rw [neg_one_mul] at h11
          rw [h11, sum_Ico_eq_sum_range, show j + q + 1 - j = q + 1 by omega]
          refine sum_congr rfl fun k hk => ?_
          rw [mem_range] at hk
          rw [o3 _ _ hij, if_neg (by omega), hg1 (j + k) (j + q) (by omega)]
        rw [e1, e2]
        ring
      · obtain ⟨p, rfl⟩ : ∃ p, i = j + p := ⟨i - j, by omega⟩
        have h11 := h10 p q (by omega) (by omega)
        simp only [Nat.add_left_cancel_iff]
        rw [← h11, sum_Ico_eq_sum_range, sum_Ico_eq_sum_range,
          show j + q + 1 - (j + p) = q + 1 - p by omega]
        refine sum_congr rfl fun k hk => ?_
        rw [mem_range] at hk
        rw [← Nat.add_assoc, o2 _ _ (by omega), hg1 _ _ (by omega)]

/-- The inverse of the upper triangle. -/
theorem invertUpper_ok (nb : Nat) (h : Cols L f a) (hd : ∀ i < L, f i i ≠ 0) : ∃ a' g, invertUpper nb L L a = some a' ∧ Cols L g a' ∧ Inverted f g 0 L := by
  unfold invertUpper
  by_cases hn : nb ≤ 1 ∨ L ≤ nb
  · rw [if_pos hn]
    exact dtrti2_ok h (by omega) (by omega) (by simpa using hd)
  · rw [if_neg hn]
    obtain ⟨a', h1, g, h2, h3⟩ := loop_inv ((L + nb - 1) / nb) (fun b a => trtriStep nb L L b a) a
      (fun b a' => ∃ g, Cols L g a' ∧ Inverted f g 0 (min (b * nb) L))
      ⟨f, h, by
        rw [Nat.zero_mul, Nat.zero_min]
        exact ⟨fun _ _ _ => rfl, fun _ _ _ h => absurd h (by omega)⟩⟩
      (by
        rintro b s hb ⟨g, h2, h3⟩
        have hbL : b * nb < L := by
          have h4 : b + 1 ≤ (L + nb - 1) / nb := hb
          rw [Nat.le_div_iff_mul_le (by omega), Nat.add_mul] at h4
          omega
        rw [Nat.min_eq_left hbL.le] at h3
        obtain ⟨s', g', h5, h6, h7⟩ := trtriStep_ok h2 h3 rfl rfl (by omega) le_rfl hd
        refine ⟨s', h5, g', h6, ?_⟩
        rw [Nat.add_mul, Nat.one_mul, show min (b * nb + nb) L = b * nb + min nb (L - b * nb) by omega]
        exact h7)
    rw [Nat.min_eq_right (by
      have h4 := Nat.div_add_mod (L + nb - 1) nb
      have h5 := Nat.mod_lt (L + nb - 1) (show 0 < nb by omega)
      rw [Nat.mul_comm] at h4
      omega)] at h3
    exact ⟨a', g, h1, h2, h3⟩

theorem zeroDiag_ok (h : Cols L f a) : ∃ info, zeroDiag L L a = some info ∧ FirstZero L (fun i => f i i) info := by
  unfold zeroDiag
  refine loop_inv L _ 0 (fun k info => FirstZero k (fun i => f i i) info) (FirstZero.zero _) ?_
  intro k info hk hP
  have hs := hP.succ (fun _ _ => rfl)
  by_cases h0 : info = 0
  · rw [if_neg (by simp [h0]), bind_ok (h.rd (i := k) (j := k) hk hk rfl)]
    refine ⟨_, rfl, ?_⟩
    simpa [h0] using hs
  · rw [if_pos h0]
    refine ⟨info, rfl, ?_⟩
    rwa [if_neg (by simp [h0])] at hs

/-- `dtrtri_` inverts a nonsingular upper triangle. -/
theorem dtrtri_ok (nb : Nat) (h : Cols L f a) (hd : ∀ i < L, f i i ≠ 0) :
    ∃ a' g, dtrtri nb L L a = some (a', 0) ∧ Cols L g a' ∧ Inverted f g 0 L := by
  obtain ⟨info, h1, h2⟩ := zeroDiag_ok h
  obtain ⟨a', g, h3, h4⟩ := invertUpper_ok nb h hd
  refine ⟨a', g, ?_, h4⟩
  unfold dtrtri
  rw [bind_ok h1, if_neg (by simp [h2.iff.mpr hd]), bind_ok h3]
  rfl

/-- `dtrtri_` leaves a singular upper triangle as it is. -/
theorem dtrtri_singular (nb : Nat) (h : Cols L f a) {i : Nat} (hi : i < L) (hd : f i i = 0) : ∃ info, 0 < info ∧ FirstZero L (fun i => f i i) info ∧
    dtrtri nb L L a = some (a, info) := by
  obtain ⟨info, h1, h2⟩ := zeroDiag_ok h
  have h0 : info ≠ 0 := fun h => h2.iff.mp h i hi hd
  refine ⟨info, Nat.pos_of_ne_zero h0, h2, ?_⟩
  unfold dtrtri
  rw [bind_ok h1, if_pos h0]

end QM.Lapack
