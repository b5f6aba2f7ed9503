import Verif.Segment.Mpeg7
import Verif.Common.Tri2

namespace QM.Segment

open Finset

/-- The value of a magnitude in decibels. -/
noncomputable def decibels (v : ℝ) : ℝ := 10 * Real.logb 10 (v + 2⁻¹ ^ 52)

/-- The length of a row of `m` values. -/
noncomputable def norm (m : Nat) (r : Nat → ℝ) : ℝ := Real.sqrt (∑ j ∈ range m, r j ^ 2)

/-- The greatest of `n` numbers that are not negative. -/
noncomputable def greatest (n : Nat) (e : Nat → ℝ) : ℝ := Nat.rec 0 (fun i s => max s (e i)) n

theorem le_greatest {n i : Nat} {e : Nat → ℝ} (h : i < n) : e i ≤ greatest n e := by
  induction n with
  | zero => omega
  | succ n ih =>
    show e i ≤ max (greatest n e) (e n)
    by_cases hi : i < n
    · exact (ih hi).trans (le_max_left _ _)
    · obtain rfl : i = n := by omega
      exact le_max_right _ _

theorem greatest_eq {n : Nat} {e : Nat → ℝ} (h : 0 < n) (he : ∀ i, i < n → 0 ≤ e i) : ∃ i, i < n ∧ e i = greatest n e := by
  induction n with
  | zero => omega
  | succ n ih =>
    show ∃ i, i < n + 1 ∧ e i = max (greatest n e) (e n)
    rcases Nat.eq_zero_or_pos n with rfl | hn
    · exact ⟨0, by omega, (max_eq_right (he 0 (by omega))).symm⟩
    · obtain ⟨i, hi, h1⟩ := ih hn fun i hi => he i (by omega)
      rcases le_total (greatest n e) (e n) with h2 | h2
      · exact ⟨n, by omega, (max_eq_right h2).symm⟩
      · exact ⟨i, by omega, by rw [h1, max_eq_left h2]⟩

variable {n m : Nat} {X : Nat → Nat → ℝ} {f : List (List ℝ)}

theorem toDecibels_ok (hf : Holds2 n (m + 1) X f) (hX : ∀ i j, i < n → j < m → 0 ≤ X i j) :
    ∃ f', toDecibels n m f = some f' ∧ Holds2 n (m + 1) (fun i j => if j < m then decibels (X i j) else X i j) f' := by
  unfold toDecibels
  obtain ⟨f', h1, h2⟩ := loop_inv (n := n) (s := f) (f := fun i (f : List (List ℝ)) => loop m (fun j (f : List (List ℝ)) => do
      let v ← rd2 f i j
      let l ← log10? (v + dblEpsilon)
      wr2 f i j (10 * l)) f)
    (P := fun k f' => Holds2 n (m + 1) (fun i j => if i < k ∧ j < m then decibels (X i j) else X i j) f')
    (hf.congr fun i j _ _ => by simp)
    (by
      intro i g hi hg
      obtain ⟨g', e1, e2⟩ := hg.fillRow hi m (by omega) (fun j => decibels (X i j)) (fun j (f : List (List ℝ)) => do
          let v ← rd2 f i j
          let l ← log10? (v + dblEpsilon)
          wr2 f i j (10 * l)) (by
        intro j M hj hM
        have hr := hM.rd hi (show j < m + 1 by omega)
        simp only [lt_irrefl, and_false, if_false, false_and] at hr
        have hp : 0 < X i j + dblEpsilon := by
          have := hX i j hi hj
          have : (0 : ℝ) < dblEpsilon := by unfold dblEpsilon; positivity
          linarith
        rw [bind_ok hr, bind_ok (show log10? _ = some _ from if_pos hp)]
        rfl)
      refine ⟨g', e1, e2.congr fun a b _ _ => ?_⟩
      by_cases h1 : a = i
      · subst h1; simp
      · have : a < i + 1 ↔ a < i := by omega
        simp [h1, this])
  refine ⟨f', h1, h2.congr fun i j hi _ => by simp [hi]⟩

/-- A row after the normalisation. -/
noncomputable def unit (m : Nat) (D : Nat → Nat → ℝ) (i j : Nat) : ℝ := if j < m then D i j / norm m (D i) else norm m (D i)

theorem normaliseRows_some (hf : Holds2 n (m + 1) X f) {k : Nat} (hk : k ≤ n) (hX : ∀ i, i < k → norm m (X i) ≠ 0) :
    ∃ f', normaliseRows k m f = some (f', greatest k (fun i => norm m (X i))) ∧
      Holds2 n (m + 1) (fun i j => if i < k then unit m X i j else X i j) f' := by
  unfold normaliseRows
  obtain ⟨⟨f', M⟩, h1, h2, h3⟩ := loop_inv (n := k) (s := (f, (0 : ℝ))) (f := fun i (s : List (List ℝ) × ℝ) => do
      let ss ← sumSquares m i s.1
      let env := Real.sqrt ss
      let f ← loop m (fun j (f : List (List ℝ)) => do
        let v ← rd2 f i j
        let w ← div? v env
        wr2 f i j w) s.1
      let f ← wr2 f i m env
      pure (f, if s.2 < env then env else s.2))
    (P := fun k s => Holds2 n (m + 1) (fun i j => if i < k then unit m X i j else X i j) s.1 ∧ s.2 = greatest k (fun i => norm m (X i)))
    ⟨hf.congr fun i j _ _ => by simp, rfl⟩
    (by
      rintro i ⟨g, mx⟩ hik ⟨hg, hmx⟩
      have hi : i < n := by omega
      dsimp only at hg hmx ⊢
      have hs : sumSquares m i g = some (∑ j ∈ range m, X i j ^ 2) := by
        unfold sumSquares
        rw [loop_sum m _ (fun j => X i j ^ 2) 0 (by
          intro j acc hj
          have hr := hg.rd hi (show j < m + 1 by omega)
          simp only [lt_irrefl, if_false] at hr
          rw [bind_ok hr, sq]
          rfl), zero_add]
      obtain ⟨g1, e1, e2⟩ := hg.fillRow hi m (by omega) (fun j => X i j / norm m (X i)) (fun j (f : List (List ℝ)) => do
          let v ← rd2 f i j
          let w ← div? v (norm m (X i))
          wr2 f i j w) (by
        intro j M hj hM
        have hr := hM.rd hi (show j < m + 1 by omega)
        simp only [lt_irrefl, and_false, if_false] at hr
        rw [bind_ok hr, bind_ok (show div? _ _ = some _ from if_neg (hX i hik))])
      obtain ⟨g2, k1, k2⟩ := e2.wr hi (show m < m + 1 by omega) (norm m (X i))
      refine ⟨(g2, if mx < norm m (X i) then norm m (X i) else mx), ?_, k2.congr ?_, ?_⟩
      · rw [bind_ok hs]
        show (do
          let f ← loop m (fun j (f : List (List ℝ)) => do
            let v ← rd2 f i j
            let w ← div? v (norm m (X i))
            wr2 f i j w) g
          let f ← wr2 f i m (norm m (X i))
          pure (f, if mx < norm m (X i) then norm m (X i) else mx) : Option (List (List ℝ) × ℝ)) = _
        rw [bind_ok e1, bind_ok k1]
        rfl
      · intro a b ha hb
        by_cases h1 : a = i
        · subst h1
          unfold unit
          by_cases h2 : b = m
          · subst h2; simp
          · have : b < m := by omega
            simp [h2, this]
        · have : a < i + 1 ↔ a < i := by omega
          simp [h1, this]
      · show _ = max (greatest i _) (norm m (X i))
        rw [← hmx]
        dsimp only
        split_ifs with h
        · exact (max_eq_right h.le).symm
        · exact (max_eq_left (not_lt.mp h)).symm)
  dsimp only at h2 h3
  rw [h3] at h1
  exact ⟨f', h1, h2⟩

theorem normaliseRows_ok (hf : Holds2 n (m + 1) X f) (hX : ∀ i, i < n → norm m (X i) ≠ 0) :
    ∃ f', normaliseRows n m f = some (f', greatest n (fun i => norm m (X i))) ∧ Holds2 n (m + 1) (unit m X) f' := by
  obtain ⟨f', h1, h2⟩ := normaliseRows_some hf (le_refl n) hX
  exact ⟨f', h1, h2.congr fun i j hi _ => by simp [hi]⟩

theorem norm_nonneg (m : Nat) (r : Nat → ℝ) : 0 ≤ norm m r := Real.sqrt_nonneg _

theorem norm_div (m : Nat) (r : Nat → ℝ) (c : ℝ) (hc : 0 ≤ c) : norm m (fun j => r j / c) = norm m r / c := by
  unfold norm
  simp only [div_pow]
  rw [← Finset.sum_div, Real.sqrt_div' _ (sq_nonneg c), Real.sqrt_sq hc]

/-- The length of row `i` in decibels. -/
noncomputable def loudness (m : Nat) (X : Nat → Nat → ℝ) (i : Nat) : ℝ := norm m (fun j => decibels (X i j))

/-- **C67** Magnitudes that are not negative, in rows with one place more than there are coefficients, and no row whose values
are all 0 dB: the normalisation stays inside the rows, replaces every row by its decibel values divided by their length, and puts this length, divided by the
greatest length, in the last place. -/
theorem C67_mpeg7 (hn : 0 < n) (hf : Holds2 n (m + 1) X f) (hX : ∀ i j, i < n → j < m → 0 ≤ X i j)
    (hs : ∀ i, i < n → ∃ j, j < m ∧ decibels (X i j) ≠ 0) :
    ∃ f' G, mpeg7 f n m = some f' ∧ IsGreatest {e | ∃ i, i < n ∧ e = loudness m X i} G ∧ (∀ i, i < n → 0 < loudness m X i) ∧
      Holds2 n (m + 1) (fun i j => if j < m then decibels (X i j) / loudness m X i else loudness m X i / G) f' := by
  set D : Nat → Nat → ℝ := fun i j => if j < m then decibels (X i j) else X i j with hD
  have hDl : ∀ i, norm m (D i) = loudness m X i := by
    intro i
    unfold loudness norm
    congr 1
    refine sum_congr rfl fun j hj => ?_
    simp only [hD, mem_range.mp hj, if_true]
  have hnz : ∀ i, i < n → 0 < norm m (D i) := by
    intro i hi
    obtain ⟨j, hj, h⟩ := hs i hi
    unfold norm
    refine Real.sqrt_pos.mpr (Finset.sum_pos' (fun _ _ => sq_nonneg _) ⟨j, mem_range.mpr hj, ?_⟩)
    simp only [hD, hj, if_true]
    positivity
  obtain ⟨f1, e1, e2⟩ := toDecibels_ok hf hX
  obtain ⟨f2, k1, k2⟩ := normaliseRows_ok (X := D) e2 (fun i hi => (hnz i hi).ne')
  set G := greatest n (fun i => norm m (D i)) with hG
  obtain ⟨i0, hi0, hg0⟩ := greatest_eq hn (e := fun i => norm m (D i)) fun i hi => (hnz i hi).le
  have hGpos : 0 < G := by rw [hG, ← hg0]; exact hnz i0 hi0
  obtain ⟨f3, l1, l2⟩ := loop_inv (n := n) (s := f2) (f := fun i (f : List (List ℝ)) => do
      let v ← rd2 f i m
      let w ← div? v G
      wr2 f i m w)
    (P := fun k f' => Holds2 n (m + 1) (fun i j => if i < k ∧ j = m then norm m (D i) / G else unit m D i j) f')
    (k2.congr fun i j _ _ => by simp)
    (by
      intro i g hi hg
      have hr := hg.rd hi (show m < m + 1 by omega)
      simp only [lt_irrefl, false_and, if_false] at hr
      obtain ⟨g', e1, e2⟩ := hg.wr hi (show m < m + 1 by omega) (norm m (D i) / G)
      refine ⟨g', ?_, e2.congr fun a b _ _ => ?_⟩
      · rw [bind_ok hr, bind_ok (show div? _ _ = some _ from if_neg hGpos.ne')]
        rw [← e1]
        simp [unit]
      · by_cases h1 : a = i
        · subst h1
          by_cases h2 : b = m <;> simp [h2]
        · have : a < i + 1 ↔ a < i := by omega
          simp [h1, this])
  refine ⟨f3, G, ?_, ⟨⟨i0, hi0, ?_⟩, ?_⟩, fun i hi => hDl i ▸ hnz i hi, l2.congr ?_⟩
  · unfold mpeg7
    rw [bind_ok e1, bind_ok k1]
    exact l1
  · rw [← hDl i0]; exact hg0.symm
  · rintro e ⟨i, hi, rfl⟩
    rw [← hDl i]
    exact le_greatest (e := fun i => norm m (D i)) hi
  · intro i j hi hj
    rw [← hDl i]
    by_cases h : j = m
    · subst h
      simp [hi]
    · have : j < m := by omega
      simp [h, this, unit, hD]

/-- **C67** So the coefficients of every row have length one, and the last column is in (0, 1] and reaches 1. -/
theorem C67_normalised (hn : 0 < n) (hf : Holds2 n (m + 1) X f) (hX : ∀ i j, i < n → j < m → 0 ≤ X i j)
    (hs : ∀ i, i < n → ∃ j, j < m ∧ decibels (X i j) ≠ 0) :
    ∃ f' Y, mpeg7 f n m = some f' ∧ Holds2 n (m + 1) Y f' ∧ (∀ i, i < n → ∑ j ∈ range m, Y i j ^ 2 = 1) ∧
      (∀ i, i < n → 0 < Y i m ∧ Y i m ≤ 1) ∧ ∃ i, i < n ∧ Y i m = 1 := by
  obtain ⟨f', G, h1, ⟨⟨i0, hi0, hG⟩, h2⟩, h3, h4⟩ := C67_mpeg7 hn hf hX hs
  have hGpos : 0 < G := hG ▸ h3 i0 hi0
  refine ⟨f', _, h1, h4, ?_, ?_, ⟨i0, hi0, ?_⟩⟩
  · intro i hi
    have e1 : norm m (fun j => decibels (X i j) / loudness m X i) = 1 := by
      rw [norm_div _ _ _ (h3 i hi).le]
      exact div_self (h3 i hi).ne'
    unfold norm at e1
    rw [Real.sqrt_eq_one] at e1
    rw [← e1]
    refine sum_congr rfl fun j hj => ?_
    simp only [mem_range.mp hj, if_true]
  · intro i hi
    simp only [lt_irrefl, if_false]
    exact ⟨div_pos (h3 i hi) hGpos, (div_le_one hGpos).mpr (h2 ⟨i, hi, rfl⟩)⟩
  · simp only [lt_irrefl, if_false]
    rw [← hG, div_self hGpos.ne']

/-- **C67** A row whose values are all exactly 0 dB is divided by zero. -/
theorem C67_zero_row (hm : 0 < m) (hf : Holds2 n (m + 1) X f) (hX : ∀ i j, i < n → j < m → 0 ≤ X i j) {i : Nat} (hi : i < n)
    (hz : ∀ j, j < m → decibels (X i j) = 0) : mpeg7 f n m = none := by
  obtain ⟨f1, e1, e2⟩ := toDecibels_ok hf hX
  unfold mpeg7
  rw [bind_ok e1]
  suffices h : normaliseRows n m f1 = none by rw [h]; rfl
  set D : Nat → Nat → ℝ := fun i j => if j < m then decibels (X i j) else X i j with hD
  have hz' : norm m (D i) = 0 := by
    unfold norm
    rw [Finset.sum_eq_zero, Real.sqrt_zero]
    intro j hj
    have hj := mem_range.mp hj
    simp [hD, hj, hz j hj]
  obtain ⟨i, hi, hmin⟩ : ∃ i, (i < n ∧ norm m (D i) = 0) ∧ ∀ k, k < i → norm m (D k) ≠ 0 := by
    classical
    have hex : ∃ i, i < n ∧ norm m (D i) = 0 := ⟨i, hi, hz'⟩
    refine ⟨Nat.find hex, Nat.find_spec hex, fun k hk h => Nat.find_min hex hk ⟨?_, h⟩⟩
    have := (Nat.find_spec hex).1
    omega
  obtain ⟨g, k1, k2⟩ := normaliseRows_some (X := D) e2 hi.1.le hmin
  have hlast : normaliseRows (i + 1) m f1 = none := by
    unfold normaliseRows at k1 ⊢
    rw [loop, k1, Option.bind_some]
    beta_reduce
    have hs : sumSquares m i g = some (∑ j ∈ range m, D i j ^ 2) := by
      unfold sumSquares
      rw [loop_sum m _ (fun j => D i j ^ 2) 0 (by
        intro j acc hj
        have hr := k2.rd hi.1 (show j < m + 1 by omega)
        simp only [lt_irrefl, if_false] at hr
        rw [bind_ok hr, sq]
        rfl), zero_add]
    rw [bind_ok hs]
    have h0 : Real.sqrt (∑ j ∈ range m, D i j ^ 2) = 0 := hi.2
    dsimp only
    rw [h0, loop_none_of_le (m := 1) hm (by
      rw [loop, loop]
      have hr := k2.rd hi.1 (show 0 < m + 1 by omega)
      show (do
        let v ← rd2 g i 0
        let w ← div? v 0
        wr2 g i 0 w) = none
      rw [bind_ok hr]
      unfold div?
      rw [if_pos rfl]
      rfl)]
    rfl
  exact loop_none_of_le (m := i + 1) hi.1 hlast

/-- **C67** Rows without the extra place are overrun. -/
theorem C67_no_room (hn : 0 < n) (hf : Holds2 n m X f) : mpeg7 f n m = none := by
  apply Tri.none_of
  unfold mpeg7
  refine Tri.bind (P := Shape2 n m) ?_ (fun f1 h1 => ?_)
  · unfold toDecibels
    refine Tri.loop (fun _ f => Shape2 n m f) hf.shape (fun i f1 hi h1 => Tri.loop (fun _ f => Shape2 n m f) h1 (fun j f2 hj h2 => ?_))
    refine Tri.bind (Tri.rd2 h2 False.elim) (fun v _ => Tri.bind (P := fun _ => True) ?_ (fun l _ => (Tri.wr2 h2 False.elim).mono fun _ h => h.2))
    unfold log10?
    split_ifs
    · trivial
    · exact id
  · have : normaliseRows n m f1 = none := by
      unfold normaliseRows
      refine loop_none_of_le (m := 1) hn ?_
      rw [loop, loop]
      apply Tri.none_of
      rw [Option.bind_some]
      beta_reduce
      refine Tri.bind (P := fun _ => True) ?_ (fun ss _ => ?_)
      · cases sumSquares m 0 f1
        · exact id
        · trivial
      · refine Tri.bind (P := Shape2 n m) ?_ (fun f2 h2 => ?_)
        · refine Tri.loop (fun _ f => Shape2 n m f) h1 (fun j f2 hj h2 => ?_)
          refine Tri.bind (Tri.rd2 h2 False.elim) (fun v _ => Tri.bind (P := fun _ => True) ?_ (fun l _ => (Tri.wr2 h2 False.elim).mono fun _ h => h.2))
          unfold div?
          split_ifs
          · exact id
          · trivial
        · rw [wr2_none_col h2 (le_refl m)]
          exact id
    rw [this]
    exact id

/-- Two rows of two magnitudes. -/
def demoRows : List (List ℝ) := [[3, 0, 7], [0, 2, 9]]

theorem demo_decibels : decibels 0 ≠ 0 := by
  unfold decibels
  rw [zero_add]
  have : Real.logb 10 ((2⁻¹ : ℝ) ^ 52) < 0 := Real.logb_neg (by norm_num) (by positivity) (by norm_num)
  linarith [this] 

example : ∃ f' Y, mpeg7 demoRows 2 2 = some f' ∧ Holds2 2 3 Y f' ∧ (∀ i, i < 2 → ∑ j ∈ range 2, Y i j ^ 2 = 1) ∧
    (∀ i, i < 2 → 0 < Y i 2 ∧ Y i 2 ≤ 1) ∧ ∃ i, i < 2 ∧ Y i 2 = 1 := by
  refine C67_normalised (X := fun i j => (demoRows.getD i []).getD j 0) (by norm_num) ?_ ?_ ?_
  · refine ⟨rfl, fun i hi => ?_⟩
    match i, hi with
    | 0, _ => exact ⟨_, rfl, rfl, fun j hj => by match j, hj with | 0, _ => rfl | 1, _ => rfl | 2, _ => rfl⟩
    | 1, _ => exact ⟨_, rfl, rfl, fun j hj => by match j, hj with | 0, _ => rfl | 1, _ => rfl | 2, _ => rfl⟩
  · intro i j hi hj
    match i, j, hi, hj with
    | 0, 0, _, _ => simp [demoRows]
    | 0, 1, _, _ => simp [demoRows]
    | 1, 0, _, _ => simp [demoRows]
    | 1, 1, _, _ => simp [demoRows]
  · intro i hi
    match i, hi with
    | 0, _ => exact ⟨1, by norm_num, by simpa [demoRows] using demo_decibels⟩
    | 1, _ => exact ⟨0, by norm_num, by simpa [demoRows] using demo_decibels⟩

end QM.Segment
