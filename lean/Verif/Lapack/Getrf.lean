import Verif.Lapack.Getf2Loop

/-!
# LU factors of a square matrix, in blocks (`dgetrf_`)
-/

namespace QM.Lapack

open Finset Equiv

variable {K : Type} [Field K]

/-- One block of columns in terms of matrices: `G'` from `G`, where `t` is the permutation of rows. -/
theorem Elim.block {L j b : Nat} {F G G' : Nat → Nat → K} {t : Nat → Nat} (h : Elim L L j F G) (hb : j + b ≤ L) (hfix : ∀ x < j, t x = x)
    (hmem : ∀ x, j ≤ x → x < L → j ≤ t x ∧ t x < L) (hleft : ∀ x y, x < L → y < j → G' x y = G (t x) y) (htop : ∀ x y, x < j → y < L → G' x y = G x y)
    (hpan : ∀ i c, i < L - j → c < b → G (t (j + i)) (j + c) = ∑ l ∈ range b, lo G' (j + i) (j + l) * up G' (j + l) (j + c))
    (hur : ∀ i y, i < b → j + b ≤ y → y < L → G (t (j + i)) y = ∑ l ∈ range i, G' (j + i) (j + l) * G' (j + l) y + G' (j + i) y)
    (htr : ∀ x y, j + b ≤ x → x < L → j + b ≤ y → y < L → G' x y = G (t x) y - ∑ l ∈ range b, G' x (j + l) * G' (j + l) y) :
    Elim L L (j + b) (fun i c => F (t i) c) G' := by
  intro i c hi hc
  beta_reduce
  have ht : t i < L := by
    by_cases hij : i < j
    · rw [hfix i hij]; exact hi
    · exact (hmem i (by omega) hi).2
  have htj : j ≤ t i ↔ j ≤ i := by
    by_cases hij : i < j
    · rw [hfix i hij]
    · have := hmem i (by omega) hi
      omega
  rw [h (t i) c ht hc, sum_range_add]
  have e1 : ∑ l ∈ range j, lo G (t i) l * up G l c = ∑ l ∈ range j, lo G' i l * up G' l c := by
    refine sum_congr rfl fun l hl => ?_
    rw [mem_range] at hl
    have e : (t i = l ↔ i = l) ∧ (l < t i ↔ l < i) := by
      by_cases hij : i < j
      · rw [hfix i hij]; exact ⟨Iff.rfl, Iff.rfl⟩
      · have := hmem i (by omega) hi
        omega
    unfold lo up
    rw [hleft i l hi hl, htop l c hl hc]
    simp only [e.1, e.2]
  rw [e1, add_assoc]
  congr 1
  by_cases hij : j ≤ i ∧ j ≤ c
  · rw [if_pos (by omega)]
    obtain ⟨i', rfl⟩ : ∃ i', i = j + i' := ⟨i - j, by omega⟩
    by_cases hcb : c < j + b
    · obtain ⟨c', rfl⟩ : ∃ c', c = j + c' := ⟨c - j, by omega⟩
      rw [hpan i' c' (by omega) (by omega), if_neg (by omega), add_zero]
    · have e2 : ∀ l ∈ range b, up G' (j + l) c = G' (j + l) c := by
        intro l hl
        rw [mem_range] at hl
        unfold up
        rw [if_pos (by omega)]
      rw [sum_congr rfl fun l hl => by rw [e2 l hl]]
      by_cases hib : i' < b
      · rw [hur i' c hib (by omega) hc, if_neg (by omega), add_zero]
        have e3 : range b = range (i' + 1 + (b - (i' + 1))) := by rw [show i' + 1 + (b - (i' + 1)) = b by omega]
        rw [e3, sum_range_add, sum_range_succ]
        have e4 : ∑ l ∈ range (b - (i' + 1)), lo G' (j + i') (j + (i' + 1 + l)) * G' (j + (i' + 1 + l)) c = 0 := by
          refine sum_eq_zero fun l _ => ?_
          unfold lo
          rw [if_neg (by omega), if_neg (by omega), zero_mul]
        rw [e4, add_zero]
        congr 1
        · refine sum_congr rfl fun l hl => ?_
          rw [mem_range] at hl
          unfold lo
          rw [if_neg (by omega), if_pos (by omega)]
        · unfold lo
          rw [if_pos rfl, one_mul]
      · rw [if_pos (by omega), htr (j + i') c (by omega) hi (by omega) hc]
        have e5 : ∑ l ∈ range b, lo G' (j + i') (j + l) * G' (j + l) c = ∑ l ∈ range b, G' (j + i') (j + l) * G' (j + l) c := by
          refine sum_congr rfl fun l hl => ?_
          rw [mem_range] at hl
          unfold lo
          rw [if_neg (by omega), if_pos (by omega)]
        rw [e5]
        ring
  · rw [if_neg (by omega), if_neg (by omega), add_zero]
    symm
    refine sum_eq_zero fun l _ => ?_
    unfold lo up
    by_cases hij' : i < j
    · rw [if_neg (by omega), if_neg (by omega), zero_mul]
    · rw [if_neg (show ¬ j + l ≤ c by omega), mul_zero]

variable [LinearOrder K] [IsStrictOrderedRing K] {L : Nat} {f g : Nat → Nat → K} {a : List K}

/-- What has been done to the matrix `f` after `k` columns: `g` is the matrix now, `P` the pivots. -/
structure Fact (L : Nat) (f : Nat → Nat → K) (len k : Nat) (g : Nat → Nat → K) (P : Nat → Nat) (pv : List Nat) (inf : Nat) : Prop where
  rows : ∀ i < k, i ≤ P i ∧ P i < L
  elim : Elim L L k (fun i j => f (pivPerm P 0 k i) j) g
  len : pv.length = len
  piv : ∀ i < k, pv[i]? = some (P i + 1)
  small : ∀ i l, l < k → l < i → i < L → |g i l| ≤ 1
  info : FirstZero k (fun i => g i i) inf

omit [IsStrictOrderedRing K] in
theorem Panel.fact {piv0 pv : List Nat} {P : Nat → Nat} {inf k : Nat} (h : Panel f 0 0 L L 0 piv0 k g P pv inf) : Fact L f piv0.length k g P pv inf := by
  obtain ⟨_, h2, h3, h4, h5, _, h7, h8⟩ := h
  simp only [Nat.zero_add, Nat.sub_zero] at *
  exact ⟨h2, h3, h4, h5, h7, h8⟩

/-- The pivots of a block become row numbers of the matrix. -/
theorem shift_ok {j b : Nat} {piv : List Nat} {P : Nat → Nat} (hp : ∀ i < b, piv[j + i]? = some (P (j + i) + 1 - j)) (hP : ∀ i < b, j ≤ P (j + i)) :
    ∃ pv, loop b (fun i (piv : List Nat) => do
        let p ← piv[j + i]?
        wr piv (j + i) (j + p)) piv = some pv ∧ pv.length = piv.length ∧ (∀ i < b, pv[j + i]? = some (P (j + i) + 1)) ∧
      ∀ i, i < j → pv[i]? = piv[i]? := by
  obtain ⟨pv, h1, h2, h3, h4, _⟩ := loop_inv b (fun i (piv : List Nat) => do
        let p ← piv[j + i]?
        wr piv (j + i) (j + p)) piv (fun k pv => pv.length = piv.length ∧ (∀ i < k, pv[j + i]? = some (P (j + i) + 1)) ∧
      (∀ i, i < j → pv[i]? = piv[i]?) ∧ ∀ i, j + k ≤ i → pv[i]? = piv[i]?)
    ⟨rfl, fun _ h => absurd h (by omega), fun _ _ => rfl, fun _ _ => rfl⟩
    (by
      rintro k pv hk ⟨h1, h2, h3, h4⟩
      have h5 := hp k hk
      rw [bind_ok ((h4 (j + k) le_rfl).trans h5)]
      have hlt : j + k < pv.length := by
        rw [h1]
        exact (List.getElem?_eq_some_iff.mp h5).1
      refine ⟨_, wr_some _ hlt, by simp [h1], fun i hi => ?_, fun i hi => ?_, fun i hi => ?_⟩
      · by_cases e : i = k
        · have := hP k hk
          rw [e, List.getElem?_set_self hlt]
          congr 1
          omega
        · rw [List.getElem?_set_ne (by omega), h2 i (by omega)]
      · rw [List.getElem?_set_ne (by omega), h3 i hi]
      · rw [List.getElem?_set_ne (by omega), h4 i (by omega)])
  exact ⟨pv, h1, h2, h3, h4⟩

/-- The block column of U and the trailing submatrix. -/
theorem updateRight_ok (h : Cols L f a) {j b : Nat} {piv : List Nat} {P : Nat → Nat} (hb : j + b ≤ L)
    (hP : ∀ i, j ≤ i → i < j + b → piv[i]? = some (P i + 1) ∧ P i < L) :
    ∃ a' g, updateRight a L L L j b piv = some a' ∧ Cols L g a' ∧ (∀ x y, y < j + b → g x y = f x y) ∧
      (∀ x y, x < j → j + b ≤ y → y < L → g x y = f (pivPerm P j b x) y) ∧
      (∀ i y, i < b → j + b ≤ y → y < L → f (pivPerm P j b (j + i)) y = ∑ l ∈ range i, f (j + i) (j + l) * g (j + l) y + g (j + i) y) ∧
      ∀ x y, j + b ≤ x → x < L → j + b ≤ y → y < L → g x y = f (pivPerm P j b x) y - ∑ l ∈ range b, f x (j + l) * g (j + l) y := by
  unfold updateRight
  by_cases hn : j + b < L
  · rw [if_pos hn]
    obtain ⟨a1, h1, h2⟩ := dlaswp_ok h (n := L - j - b) (o := (j + b) * L) (c := j + b) (k1 := j) (k2 := j + b) rfl (by omega) hP hb
    rw [bind_ok h1]
    rw [Nat.add_sub_cancel_left] at h2
    obtain ⟨a2, g, h3, h4, h5, h6⟩ := dtrsmLeft_ok h2 (r := j) (d := j) (c := j + b) (m := b) (n := L - j - b) (by omega) (by omega) le_rfl rfl rfl
    rw [bind_ok h3, if_pos hn]
    beta_reduce at h5 h6
    obtain ⟨a3, h7, h8⟩ := dgemm_ok h4 (r := j + b) (m := L - j - b) (c := j + b) (n := L - j - b) (s := j) (k := b) (ldb := L) (alpha := -1)
      (rd := fun a k => a[j + (j + b) * L + k]?) (v := fun l c => g (j + l) (j + b + c)) (by omega) (by omega) (by omega) (by omega)
      rfl rfl (by
        intro g' a' hc hg l c hl hc'
        beta_reduce
        rw [hc.rd (i := j + l) (j := j + b + c) (by omega) (by omega) (by ring), hg _ _ (by omega)]) (by simp)
    refine ⟨a3, _, h7, h8, fun x y hy => ?_, fun x y hx hy hyL => ?_, fun i y hi hy hyL => ?_, fun x y hx hxL hy hyL => ?_⟩
    · beta_reduce
      rw [if_neg (by omega), h5 x y (by omega), if_neg (by omega)]
    · beta_reduce
      rw [if_neg (by omega), h5 x y (by omega), if_pos (by omega)]
    · beta_reduce
      have h9 := h6 i y hi hy (by omega)
      rw [if_pos (by omega)] at h9
      rw [h9, if_neg (by omega)]
      congr 1
      refine sum_congr rfl fun l hl => ?_
      rw [mem_range] at hl
      rw [if_neg (by omega), if_neg (by omega)]
    · beta_reduce
      rw [if_pos (by omega), h5 x y (by omega), if_pos (by omega), sub_eq_add_neg, ← sum_neg_distrib]
      congr 1
      refine sum_congr rfl fun l hl => ?_
      rw [mem_range] at hl
      rw [if_neg (by omega), h5 x (j + l) (by omega), if_neg (by omega), show j + b + (y - (j + b)) = y by omega]
      ring
  · rw [if_neg hn]
    exact ⟨a, f, rfl, h, fun _ _ _ => rfl, fun _ _ _ _ _ => by omega, fun _ _ _ _ _ => by omega, fun _ _ _ _ _ _ => by omega⟩

/-- One block more. -/
theorem getrfStep_ok (sfmin : K) {nb b len j w : Nat} {s : Lu K} {P : Nat → Nat} (h : Cols L g s.a) (hf : Fact L f len j g P s.piv s.info)
    (hlen : L ≤ len) (hj : j = b * nb) (hw : w = min (L - j) nb) (hw0 : j + w ≤ L) :
    ∃ s' g' P', getrfStep sfmin nb L L L b s = some s' ∧ Cols L g' s'.a ∧ Fact L f len (j + w) g' P' s'.piv s'.info := by
  unfold getrfStep
  dsimp only
  rw [Nat.min_self, ← hj, ← hw]
  obtain ⟨s1, g1, P1, h1, h2, h3⟩ := dgetf2_ok sfmin h (r := j) (c := j) (m := L - j) (n := w) (o := j + j * L) (po := j) (piv := s.piv) (by omega) (by omega)
    (by omega) rfl (by rw [hf.len]; omega)
  rw [bind_ok h1, Nat.min_eq_right hw0, Nat.add_sub_cancel_left]
  have hrows : ∀ i < w, j + i ≤ P1 (j + i) ∧ P1 (j + i) < L := fun i hi => by have := h3.rows i hi; omega
  obtain ⟨pv, h4, h5, h6, h7⟩ := shift_ok (P := P1) h3.piv fun i hi => by have := h3.rows i hi; omega
  rw [bind_ok h4]
  have hP : ∀ i, j ≤ i → i < j + w → pv[i]? = some (P1 i + 1) ∧ P1 i < L := by
    intro i hi1 hi2
    obtain ⟨i', rfl⟩ : ∃ i', i = j + i' := ⟨i - j, by omega⟩
    exact ⟨h6 i' (by omega), (hrows i' (by omega)).2⟩
  obtain ⟨a2, h8, h9⟩ := dlaswp_ok h2 (n := j) (o := 0) (c := 0) (k1 := j) (k2 := j + w) (by omega) (by omega) hP hw0
  rw [bind_ok h8]
  rw [Nat.add_sub_cancel_left] at h9
  obtain ⟨a3, g3, h10, h11, h12, h13, h14, h15⟩ := updateRight_ok h9 hw0 hP
  rw [bind_ok h10]
  beta_reduce at h12 h13 h14 h15
  generalize ht : pivPerm P1 j w = t at *
  have hfix : ∀ x < j, t x = x := fun x hx => by rw [← ht]; exact pivPerm_fix hrows (Or.inl hx)
  have hmem : ∀ x, j ≤ x → x < L → j ≤ t x ∧ t x < L := fun x hx1 hx2 => by rw [← ht]; exact pivPerm_mem hrows hx1 hx2
  have o1 : ∀ x y, y < j → g1 x y = g x y := fun x y hy => h3.out x y (by omega)
  have o2 : ∀ x y, j + w ≤ y → g1 x y = g x y := fun x y hy => h3.out x y (by omega)
  have o3 : ∀ x y, x < j → g1 x y = g x y := fun x y hx => h3.out x y (by omega)
  have left : ∀ x y, y < j → g3 x y = g (t x) y := fun x y hy => by rw [h12 x y (by omega), if_pos (by omega), o1 _ y hy]
  have mid : ∀ x y, j ≤ y → y < j + w → g3 x y = g1 x y := fun x y hy1 hy2 => by rw [h12 x y hy2, if_neg (by omega)]
  have top : ∀ x y, x < j → y < L → g3 x y = g x y := by
    intro x y hx hy
    by_cases hy1 : y < j
    · rw [left x y hy1, hfix x hx]
    · by_cases hy2 : y < j + w
      · rw [mid x y (by omega) hy2, o3 x y hx]
      · rw [h13 x y hx (by omega) hy, if_neg (by omega), hfix x hx, o3 x y hx]
  have hlo : ∀ i l, l < w → lo g3 (j + i) (j + l) = lo (fun i c => g1 (j + i) (j + c)) i l := by
    intro i l hl
    unfold lo
    rw [mid _ (j + l) (by omega) (by omega)]
    simp only [Nat.add_left_cancel_iff, Nat.add_lt_add_iff_left]
  have hup : ∀ l c, c < w → up g3 (j + l) (j + c) = up (fun i c => g1 (j + i) (j + c)) l c := by
    intro l c hc
    unfold up
    rw [mid _ (j + c) (by omega) (by omega)]
    simp only [Nat.add_le_add_iff_left]
  have hel := hf.elim.block (b := w) (G' := g3) (t := t) hw0 hfix hmem (fun x y _ hy => left x y hy) top
    (by
      intro i c hi hc
      have := h3.elim i c (by omega) hc
      beta_reduce at this
      rw [ht] at this
      rw [this, if_neg (by omega), add_zero]
      exact sum_congr rfl fun l hl => by rw [hlo i l (mem_range.mp hl), hup l c hc])
    (by
      intro i y hi hy hyL
      have := h14 i y hi hy hyL
      rw [if_neg (by omega), o2 _ y hy] at this
      rw [this]
      congr 1
      refine sum_congr rfl fun l hl => ?_
      rw [mem_range] at hl
      rw [if_neg (by omega), mid _ (j + l) (by omega) (by omega)])
    (by
      intro x y hx hxL hy hyL
      rw [h15 x y hx hxL hy hyL, if_neg (by omega), o2 _ y hy]
      congr 1
      refine sum_congr rfl fun l hl => ?_
      rw [mem_range] at hl
      rw [if_neg (by omega), mid _ (j + l) (by omega) (by omega)])
  obtain ⟨Q, hPl, hPr⟩ : ∃ Q : Nat → Nat, (∀ i < j, Q i = P i) ∧ ∀ i, j ≤ i → Q i = P1 i :=
    ⟨fun i => if i < j then P i else P1 i, fun i hi => if_pos hi, fun i hi => if_neg (by omega)⟩
  have hperm : pivPerm Q 0 (j + w) = pivPerm P 0 j * t := by
    rw [pivPerm_add, pivPerm_congr (Q := P) (n := j) (by simpa using fun i hi => hPl i hi), Nat.zero_add,
      pivPerm_congr (Q := P1) (k := j) (n := w) (fun i _ => hPr (j + i) (by omega)), ht]
  refine ⟨_, g3, Q, rfl, h11, ?_, ?_, ?_, ?_, ?_, ?_⟩
  · intro i hi
    by_cases hij : i < j
    · rw [hPl i hij]
      exact hf.rows i hij
    · rw [hPr i (by omega)]
      have := hrows (i - j) (by omega)
      rwa [show j + (i - j) = i by omega] at this
  · rw [hperm]
    exact hel
  · rw [h5, h3.len, hf.len]
  · intro i hi
    by_cases hij : i < j
    · rw [hPl i hij, h7 i hij, h3.rest i (Or.inl hij), hf.piv i hij]
    · rw [hPr i (by omega), (hP i (by omega) hi).1]
  · intro i l hl hli hi
    by_cases hlj : l < j
    · rw [left i l hlj]
      by_cases hij : i < j
      · rw [hfix i hij]
        exact hf.small i l hlj hli hi
      · have := hmem i (by omega) hi
        exact hf.small (t i) l hlj (by omega) this.2
    · rw [mid i l (by omega) hl]
      have := h3.small (i - j) (l - j) (by omega) (by omega) (by omega)
      rwa [show j + (i - j) = i by omega, show j + (l - j) = l by omega] at this
  · have e1 : ∀ i < j, g3 i i = g i i := fun i hi => top i i hi (by omega)
    have e2 : ∀ i < w, g3 (j + i) (j + i) = g1 (j + i) (j + i) := fun i hi => mid _ _ (by omega) (by omega)
    exact FirstZero.append (hf.info.congr e1) (h3.info.congr e2)

/-- `dgetrf_` factors a square matrix. -/
theorem dgetrf_ok (nb : Nat) (sfmin : K) (h : Cols L f a) {piv : List Nat} (hp : L ≤ piv.length) :
    ∃ s g P, dgetrf nb sfmin L L L a piv = some s ∧ Cols L g s.a ∧ Fact L f piv.length L g P s.piv s.info := by
  unfold dgetrf
  rw [Nat.min_self]
  by_cases hn : nb ≤ 1 ∨ L ≤ nb
  · rw [if_pos hn]
    obtain ⟨s, g, P, h1, h2, h3⟩ := dgetf2_ok sfmin h (r := 0) (c := 0) (m := L) (n := L) (o := 0) (po := 0) (piv := piv) (by omega) (by omega) le_rfl
      (by omega) (by omega)
    exact ⟨s, g, P, h1, h2, h3.fact⟩
  · rw [if_neg hn]
    obtain ⟨s, h1, g, P, h2, h3⟩ := loop_inv ((L + nb - 1) / nb) (fun b s => getrfStep sfmin nb L L L b s) ⟨a, piv, 0⟩
      (fun b s => ∃ g P, Cols L g s.a ∧ Fact L f piv.length (min (b * nb) L) g P s.piv s.info)
      ⟨f, id, h, by
        rw [Nat.zero_mul, Nat.zero_min]
        exact ⟨fun _ h => absurd h (by omega), fun i j _ _ => by simp [pivPerm], rfl, fun _ h => absurd h (by omega), fun _ _ h => absurd h (by omega), FirstZero.zero _⟩⟩
      (by
        rintro b s hb ⟨g, P, h2, h3⟩
        have hbL : b * nb < L := by
          have h4 : b + 1 ≤ (L + nb - 1) / nb := hb
          rw [Nat.le_div_iff_mul_le (by omega), Nat.add_mul] at h4
          omega
        rw [Nat.min_eq_left hbL.le] at h3
        obtain ⟨s', g', P', h5, h6, h7⟩ := getrfStep_ok sfmin h2 h3 hp rfl rfl (by omega)
        refine ⟨s', h5, g', P', h6, ?_⟩
        rw [Nat.add_mul, Nat.one_mul, show min (b * nb + nb) L = b * nb + min (L - b * nb) nb by omega]
        exact h7)
    rw [Nat.min_eq_right (by
      have h4 := Nat.div_add_mod (L + nb - 1) nb
      have h5 := Nat.mod_lt (L + nb - 1) (show 0 < nb by omega)
      rw [Nat.mul_comm] at h4
      omega)] at h3
    exact ⟨s, g, P, h1, h2, h3⟩

end QM.Lapack
