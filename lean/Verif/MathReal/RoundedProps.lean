import Verif.MathReal.RoundedLemmas
import Verif.ConstantQ.RoundedLemmas

/-!
# C99: statistics, rounding and normalisation in double precision
-/

namespace QM.MathReal.Rounded

open QM.Double

variable {fl : ℝ → ℝ}

/-! ## Rounding to an integer -/

/-- **C99** (partial) `round` gives the nearest integer, halves away from zero, for every double below `2^52` in magnitude other than the largest one below one half. -/
theorem C99_round_partial (hfl : Nearest fl) {x : ℝ} (hx : IsDbl x) (h1 : |x| < 2 ^ 52) (h2 : |x| ≠ 1 / 2 - 1 / 2 ^ 54) :
    |(round fl x : ℝ) - x| ≤ 1 / 2 ∧ (|(round fl x : ℝ) - x| = 1 / 2 → |x| < |(round fl x : ℝ)|) := by
  have key : ∀ y : ℝ, IsDbl y → 0 ≤ y → y < 2 ^ 52 → y ≠ 1 / 2 - 1 / 2 ^ 54 →
      |((⌊fl (y + 1 / 2)⌋ : ℤ) : ℝ) - y| ≤ 1 / 2 ∧ (|((⌊fl (y + 1 / 2)⌋ : ℤ) : ℝ) - y| = 1 / 2 → |y| < |((⌊fl (y + 1 / 2)⌋ : ℤ) : ℝ)|) := by
    intro y hy h0 h1 h2
    rw [floor_half hfl hy h0 h1 h2]
    have a1 := Int.floor_le (y + 1 / 2)
    have a2 := Int.lt_floor_add_one (y + 1 / 2)
    refine ⟨abs_le.mpr ⟨by linarith, by linarith⟩, fun h => ?_⟩
    rcases abs_eq (by norm_num) |>.mp h with h | h
    · rw [abs_of_nonneg h0, abs_of_nonneg (by linarith)]; linarith
    · linarith
  unfold round
  split
  · rename_i hneg
    rw [abs_of_neg hneg] at h1 h2
    obtain ⟨g1, g2⟩ := key (-x) (isDbl_neg hx) (by linarith) h1 h2
    have e1 : |((-⌊fl (-x + 1 / 2)⌋ : ℤ) : ℝ) - x| = |((⌊fl (-x + 1 / 2)⌋ : ℤ) : ℝ) - -x| := by
      rw [← abs_neg]; push_cast; congr 1; ring
    have e2 : |((-⌊fl (-x + 1 / 2)⌋ : ℤ) : ℝ)| = |((⌊fl (-x + 1 / 2)⌋ : ℤ) : ℝ)| := by
      push_cast; rw [abs_neg]
    rw [e1, e2]
    rw [abs_neg] at g2
    exact ⟨g1, g2⟩
  · rename_i hpos
    rw [not_lt] at hpos
    rw [abs_of_nonneg hpos] at h1 h2
    exact key x hx hpos h1 h2

/-- **C99** (violation) The largest double below one half is rounded to 1, and above `2^52` odd integers are changed: `2^52 + 1` gives `2^52 + 2`. -/
theorem C99_round_violation (hfl : TiesEven fl) :
    IsDbl (1 / 2 - 1 / 2 ^ 54) ∧ round fl (1 / 2 - 1 / 2 ^ 54) = 1 ∧ IsDbl (2 ^ 52 + 1) ∧ round fl (2 ^ 52 + 1) = 2 ^ 52 + 2 := by
  refine ⟨?_, ?_, ?_, ?_⟩
  · have := isDbl_of_le (2 ^ 53 - 1) (-54) (by norm_num) (by norm_num)
    rw [zpow_neg] at this
    norm_num at this ⊢
    exact this
  · have h := hfl.even (2 ^ 53 - 1) (-53) (by norm_num) (by norm_num) (by norm_num)
    rw [if_neg (by decide)] at h
    have e1 : (((2 ^ 53 - 1 : ℤ) : ℝ) + 1 / 2) * (2 : ℝ) ^ (-53 : ℤ) = 1 / 2 - 1 / 2 ^ 54 + 1 / 2 := by
      rw [zpow_neg]; norm_num
    have e2 : (((2 ^ 53 - 1 : ℤ) + 1 : ℤ) : ℝ) * (2 : ℝ) ^ (-53 : ℤ) = 1 := by
      rw [zpow_neg]; norm_num
    rw [e1, e2] at h
    unfold round
    rw [if_neg (by norm_num), h]
    norm_num
  · have := isDbl_int (2 ^ 52 + 1) (by norm_num)
    norm_num at this ⊢
    exact this
  · have h := hfl.even (2 ^ 52 + 1) 0 (by norm_num) (by norm_num) (by norm_num)
    rw [if_neg (by decide)] at h
    have e1 : (((2 ^ 52 + 1 : ℤ) : ℝ) + 1 / 2) * (2 : ℝ) ^ (0 : ℤ) = 2 ^ 52 + 1 + 1 / 2 := by
      norm_num
    have e2 : (((2 ^ 52 + 1 : ℤ) + 1 : ℤ) : ℝ) * (2 : ℝ) ^ (0 : ℤ) = ((2 ^ 52 + 2 : ℤ) : ℝ) := by
      norm_num
    rw [e1, e2] at h
    unfold round
    rw [if_neg (by norm_num), h, Int.floor_intCast]

/-- Rounding to nearest, ties to even, exists, and 2.5 is a double that `round` handles. -/
example : TiesEven rne ∧ IsDbl (5 / 2) ∧ |(5 / 2 : ℝ)| < 2 ^ 52 ∧ |(5 / 2 : ℝ)| ≠ 1 / 2 - 1 / 2 ^ 54 := by
  refine ⟨tiesEven_rne, ?_, ?_, ?_⟩
  · have := isDbl_half 5 (by norm_num)
    push_cast at this
    exact this
  · rw [abs_of_pos (by norm_num)]; norm_num
  · rw [abs_of_pos (by norm_num)]; norm_num

/-! ## Median -/

/-- **C99** The median of doubles lies between the two middle ones, so it is never below the least or above the greatest; it is a middle one if there is an odd number. The
sum of two of them must not overflow: exponents have no upper limit in the model. -/
theorem C99_median (hfl : Nearest fl) (src s : List ℝ) (hd : ∀ x ∈ src, IsDbl x) (hne : src ≠ []) (hperm : s.Perm src) (hsort : s.Pairwise (· ≤ ·)) :
    ∃ (m : ℝ) (h : src.length / 2 < s.length), median fl src = some m ∧ s[(src.length - 1) / 2] ≤ m ∧ m ≤ s[src.length / 2] ∧ ∀ a b, (∀ x ∈ src, a ≤ x ∧ x ≤ b) → a ≤ m ∧ m ≤ b := by
  have hlen : s.length = src.length := hperm.length_eq
  have hpos : 0 < src.length := List.length_pos_of_ne_nil hne
  have hm : src.mergeSort (fun a b => decide (a ≤ b)) = s := by
    apply List.Perm.eq_of_pairwise' (r := (· ≤ ·)) _ hsort ((List.mergeSort_perm _ _).trans hperm.symm)
    have := List.pairwise_mergeSort (le := fun a b : ℝ => decide (a ≤ b))
      (by intro a b c; simp; exact le_trans) (by intro a b; simp; exact le_total a b) src
    simpa using this
  have h1 : src.length / 2 < s.length := by omega
  have h2 : (src.length - 1) / 2 < s.length := by omega
  have hmem : ∀ (i : Nat) (h : i < s.length), s[i] ∈ src := fun i h => hperm.mem_iff.mp (List.getElem_mem h)
  suffices h : ∃ m, median fl src = some m ∧ s[(src.length - 1) / 2] ≤ m ∧ m ≤ s[src.length / 2] by
    obtain ⟨m, g1, g2, g3⟩ := h
    exact ⟨m, h1, g1, g2, g3, fun a b hab => ⟨(hab _ (hmem _ h2)).1.trans g2, g3.trans (hab _ (hmem _ h1)).2⟩⟩
  unfold median
  rw [if_neg (by omega)]
  dsimp only
  rw [hm]
  rcases Nat.mod_two_eq_zero_or_one src.length with h | h
  · rw [if_pos h]
    have e : (src.length - 1) / 2 = src.length / 2 - 1 := by omega
    have h3 : src.length / 2 - 1 < s.length := by omega
    simp only [e]
    rw [List.getElem?_eq_getElem h1, List.getElem?_eq_getElem h3]
    refine ⟨_, rfl, ?_⟩
    have hle : s[src.length / 2 - 1] ≤ s[src.length / 2] := List.pairwise_iff_getElem.mp hsort _ _ h3 h1 (by omega)
    have d1 := hd _ (hmem _ h1)
    have d2 := hd _ (hmem _ h3)
    have a1 := hfl.ge (isDbl_double d2) (x := s[src.length / 2] + s[src.length / 2 - 1]) (by linarith)
    have a2 := hfl.le (isDbl_double d1) (x := s[src.length / 2] + s[src.length / 2 - 1]) (by linarith)
    exact ⟨hfl.ge d2 (by linarith), hfl.le d1 (by linarith)⟩
  · rw [if_neg (by omega)]
    have e : (src.length - 1) / 2 = src.length / 2 := by omega
    rw [List.getElem?_eq_getElem h1]
    refine ⟨_, rfl, ?_, le_rfl⟩
    simp only [e]
    exact le_rfl

/-! ## Mean -/

/-- **C99** The mean is off by at most six units in the last place of the sum of the magnitudes. -/
theorem C99_mean (hfl : Rounds fl) {M : ℝ} (hM : Scale M) (src : List ℝ) (hne : src ≠ []) (hn : (src.length : ℝ) ≤ 2 ^ 40) (hs : (src.map abs).sum ≤ M) :
    |mean fl src - src.sum / src.length| ≤ 6 * (M / 2 ^ 53) := by
  have hpos : 0 < src.length := List.length_pos_of_ne_nil hne
  have hL : (1 : ℝ) ≤ src.length := by exact_mod_cast hpos
  have h1 := sum_near hfl hM src hn hs
  have hw := unit_pos hM
  have hMp := hM.pos
  have hS : |src.sum| ≤ M := by
    refine le_trans ?_ hs
    clear h1 hs hn hne hpos hL
    induction src with
    | nil => simp
    | cons x l ih =>
      rw [List.sum_cons, List.map_cons, List.sum_cons]
      exact (abs_add_le _ _).trans (by linarith)
  have h3 : 3 * (src.length : ℝ) * (M / 2 ^ 53) ≤ M := by
    have : 3 * (src.length : ℝ) * (M / 2 ^ 53) ≤ 2 ^ 42 * (M / 2 ^ 53) := mul_le_mul_of_nonneg_right (by linarith) hw
    have e : (2 : ℝ) ^ 42 * (M / 2 ^ 53) = M / 2 ^ 11 := by ring
    have : M / 2 ^ 11 ≤ M := div_le_self hMp.le (by norm_num)
    linarith
  have h2 : |sum fl src| ≤ 2 * M := by
    have := abs_le_of_sub _ _ _ _ h1 hS
    linarith
  have hL0 : (0 : ℝ) < src.length := by linarith
  have h4 : |sum fl src / src.length| ≤ 2 * M := by
    rw [abs_div, abs_of_pos hL0]
    exact (div_le_self (abs_nonneg _) hL).trans h2
  have h5 := rnd hfl hM _ 2 (by norm_num) h4
  have h6 : |sum fl src / src.length - src.sum / src.length| ≤ 3 * (M / 2 ^ 53) := by
    rw [← sub_div, abs_div, abs_of_pos hL0, div_le_iff₀ hL0]
    linarith
  unfold mean
  rw [if_neg (by omega)]
  have := abs_add_le (fl (sum fl src / src.length) - sum fl src / src.length) (sum fl src / src.length - src.sum / src.length)
  rw [sub_add_sub_cancel] at this
  linarith

/-- The double next to 0.1. -/
noncomputable def tenth : ℝ := 7205759403792794 / 2 ^ 56

/-- **C99** (violation) The mean of three equal doubles need not be that double: of 0.1, 0.1 and 0.1 it is not, however the tie is rounded. So the mean can exceed the greatest
element or fall below the least. -/
theorem C99_mean_violation (hfl : Nearest fl) : IsDbl tenth ∧ mean fl [tenth, tenth, tenth] ≠ tenth := by
  have hz : ∀ m : ℤ, |m| ≤ 2 ^ 53 → IsDbl ((m : ℝ) / 2 ^ 56) := by
    intro m hm
    have := isDbl_of_le m (-56) hm (by norm_num)
    rw [zpow_neg] at this
    rw [div_eq_mul_inv]
    exact_mod_cast this
  have ht : IsDbl tenth := by
    have := hz 7205759403792794 (by norm_num)
    unfold tenth
    push_cast at this
    exact this
  refine ⟨ht, ?_⟩
  have e1 : fl (0 + tenth) = tenth := by rw [zero_add]; exact hfl.exact ht
  have e2 : fl (tenth + tenth) = 2 * tenth := by rw [← two_mul]; exact hfl.exact (isDbl_double ht)
  -- the third sum lies in the middle between two doubles
  have hlo : IsDbl (21617278211378380 / 2 ^ 56) := by
    have := isDbl_of_le 5404319552844595 (-54) (by norm_num) (by norm_num)
    rw [zpow_neg] at this
    norm_num at this ⊢
    exact this
  have hhi : IsDbl (21617278211378384 / 2 ^ 56) := by
    have := isDbl_of_le 5404319552844596 (-54) (by norm_num) (by norm_num)
    rw [zpow_neg] at this
    norm_num at this ⊢
    exact this
  have hs : fl (2 * tenth + tenth) ≤ 21617278211378380 / 2 ^ 56 ∨ 21617278211378384 / 2 ^ 56 ≤ fl (2 * tenth + tenth) := by
    have := no_between (m := 5404319552844595) (e := -54) (by norm_num) (hfl.dbl (2 * tenth + tenth))
    rw [zpow_neg] at this
    norm_num at this ⊢
    exact this
  have e3 : sum fl [tenth, tenth, tenth] = fl (2 * tenth + tenth) := by
    simp only [sum, List.foldl_cons, List.foldl_nil]
    rw [e1, e2]
  unfold mean
  rw [if_neg (by simp), e3]
  have hlen : (([tenth, tenth, tenth] : List ℝ).length : ℝ) = 3 := by simp
  rw [hlen]
  rcases hs with h | h
  · have h1 := hfl.mono (show fl (2 * tenth + tenth) / 3 ≤ 21617278211378380 / 2 ^ 56 / 3 from div_le_div_of_nonneg_right h (by norm_num))
    have h2 := hfl.near (21617278211378380 / 2 ^ 56 / 3) _ (hz 7205759403792793 (by norm_num))
    have h3 := (le_abs_self _).trans h2
    rw [abs_of_nonpos (by norm_num)] at h3
    intro hc
    rw [hc] at h1
    unfold tenth at h1
    norm_num at h1 h3
    linarith
  · have h1 := hfl.mono (show 21617278211378384 / 2 ^ 56 / 3 ≤ fl (2 * tenth + tenth) / 3 from div_le_div_of_nonneg_right h (by norm_num))
    have h2 := hfl.near (21617278211378384 / 2 ^ 56 / 3) _ (hz 7205759403792795 (by norm_num))
    have h3 := (neg_abs_le _).trans' (neg_le_neg h2)
    rw [abs_of_nonneg (by norm_num)] at h3
    intro hc
    rw [hc] at h1
    unfold tenth at h1
    norm_num at h1 h3
    linarith

/-! ## Normalisation -/

/-- **C99** Normalising to unit maximum gives values between -1 and 1 exactly, one of them exactly 1 or -1, in the same order as before, zeros remain zeros, and a second
normalisation changes no bit. -/
theorem C99_unitMax (hfl : Nearest fl) (data : List ℝ) (hne : ∃ x ∈ data, x ≠ 0) :
    (normalise fl data .unitMax).length = data.length ∧ (∀ y ∈ normalise fl data .unitMax, |y| ≤ 1) ∧ (∃ y ∈ normalise fl data .unitMax, |y| = 1) ∧
      (∀ (i j : Nat) (x x' y y' : ℝ), data[i]? = some x → data[j]? = some x' → (normalise fl data .unitMax)[i]? = some y → (normalise fl data .unitMax)[j]? = some y' →
        (x ≤ x' → y ≤ y') ∧ (x = 0 → y = 0)) ∧
      normalise fl (normalise fl data .unitMax) .unitMax = normalise fl data .unitMax := by
  obtain ⟨h0, h1, h2⟩ := maxAbs_spec data
  have hm : 0 < maxAbs data := by
    obtain ⟨x, hx, hx0⟩ := hne
    exact (abs_pos.mpr hx0).trans_le (h1 x hx)
  have e : normalise fl data .unitMax = data.map (fun x => fl (x / maxAbs data)) := by
    unfold normalise
    dsimp only
    rw [if_pos hm.ne']
  have hle : ∀ y ∈ data.map (fun x => fl (x / maxAbs data)), |y| ≤ 1 := by
    intro y hy
    obtain ⟨x, hx, rfl⟩ := List.mem_map.mp hy
    have := abs_le.mp (h1 x hx)
    refine abs_le.mpr ⟨hfl.ge (isDbl_neg isDbl_one) ?_, hfl.le isDbl_one ?_⟩
    · rw [le_div_iff₀ hm]; linarith
    · rw [div_le_iff₀ hm]; linarith
  have hex : ∃ y ∈ data.map (fun x => fl (x / maxAbs data)), |y| = 1 := by
    rcases h2 with h2 | ⟨x, hx, h2⟩
    · exact absurd h2 hm.ne'
    · refine ⟨_, List.mem_map.mpr ⟨x, hx, rfl⟩, ?_⟩
      have hx0 : x ≠ 0 := by
        rintro rfl
        rw [abs_zero] at h2
        exact hm.ne' h2
      rw [h2]
      rcases abs_choice x with h | h
      · rw [h, div_self hx0, hfl.exact isDbl_one, abs_one]
      · rw [h, div_neg, div_self hx0, hfl.exact (isDbl_neg isDbl_one), abs_neg, abs_one]
  rw [e]
  refine ⟨by simp, hle, hex, ?_, ?_⟩
  · intro i j x x' y y' a1 a2 a3 a4
    rw [List.getElem?_map, a1, Option.map_some, Option.some.injEq] at a3
    rw [List.getElem?_map, a2, Option.map_some, Option.some.injEq] at a4
    rw [← a3, ← a4]
    refine ⟨fun h => hfl.mono (div_le_div_of_nonneg_right h hm.le), ?_⟩
    rintro rfl
    rw [zero_div, hfl.exact isDbl_zero]
  · have hone : maxAbs (data.map (fun x => fl (x / maxAbs data))) = 1 := by
      obtain ⟨g0, g1, g2⟩ := maxAbs_spec (data.map (fun x => fl (x / maxAbs data)))
      obtain ⟨y, hy, hy1⟩ := hex
      have := g1 y hy
      rw [hy1] at this
      refine le_antisymm ?_ this
      rcases g2 with g2 | ⟨z, hz, g2⟩
      · rw [g2]; norm_num
      · rw [g2]; exact hle z hz
    unfold normalise
    dsimp only
    rw [if_pos (by rw [hone]; norm_num), hone]
    conv_rhs => rw [← List.map_id (data.map (fun x => fl (x / maxAbs data)))]
    apply List.map_congr_left
    intro y hy
    obtain ⟨x, _, rfl⟩ := List.mem_map.mp hy
    rw [div_one]
    exact hfl.exact (hfl.dbl _)

/-- **C99** Normalising non-negative values to unit sum gives values whose sum differs from one by at most four units of 2^-53 per value and one more. -/
theorem C99_unitSum (hfl : Rounds fl) (data : List ℝ) (h0 : ∀ x ∈ data, 0 ≤ x) (h1 : 1 / 2 ^ 1000 ≤ data.sum) (h2 : data.sum ≤ 2 ^ 1000) (hn : (data.length : ℝ) ≤ 2 ^ 40) :
    |(normalise fl data .unitSum).sum - 1| ≤ (4 * data.length + 1) / 2 ^ 53 := by
  have hM := scale_of data.sum h1 h2
  have hS := hM.pos
  have habs : (data.map abs).sum = data.sum := by
    congr 1
    conv_rhs => rw [← List.map_id data]
    exact List.map_congr_left fun x hx => abs_of_nonneg (h0 x hx)
  have hne : data ≠ [] := by
    rintro rfl
    simp at hS
  have hL : (1 : ℝ) ≤ data.length := by exact_mod_cast List.length_pos_of_ne_nil hne
  have hs := sum_near hfl hM data hn habs.le
  obtain ⟨S, hSdef⟩ : ∃ S, S = data.sum := ⟨_, rfl⟩
  obtain ⟨s, hsdef⟩ : ∃ s, s = sum fl data := ⟨_, rfl⟩
  obtain ⟨n, hndef⟩ : ∃ n : ℝ, n = data.length := ⟨_, rfl⟩
  rw [← hSdef] at hs hS
  rw [← hsdef, ← hndef] at hs
  rw [← hndef] at hn hL ⊢
  obtain ⟨hs1, hs2⟩ := abs_le.mp hs
  have hsmall : 3 * n * (S / 2 ^ 53) ≤ S / 2 ^ 11 := by
    have : 3 * n * (S / 2 ^ 53) ≤ 2 ^ 42 * (S / 2 ^ 53) := mul_le_mul_of_nonneg_right (by linarith) (by positivity)
    have e : (2 : ℝ) ^ 42 * (S / 2 ^ 53) = S / 2 ^ 11 := by ring
    linarith
  have hspos : 0 < s := by
    have : S / 2 ^ 11 < S := div_lt_self hS (by norm_num)
    linarith
  have hratio : S / s ≤ 1.001 := by
    rw [div_le_iff₀ hspos]
    norm_num at hsmall ⊢
    linarith
  -- each quotient
  have hbig : ∀ x ∈ data, |fl (x / s) - x / s| ≤ (x / s) / 2 ^ 53 + 1 / 2 ^ 1075 := by
    intro x hx
    have hxS : x ≤ S := by rw [hSdef]; exact List.single_le_sum h0 x hx
    have hq : 0 ≤ x / s := div_nonneg (h0 x hx) hspos.le
    have := hfl (x / s) (by
      rw [abs_of_nonneg hq]
      have : x / s ≤ 1.001 := (div_le_div_of_nonneg_right hxS hspos.le).trans hratio
      exact (this.trans (by norm_num : (1.001 : ℝ) ≤ 20)).trans huge)
    rwa [abs_of_nonneg hq] at this
  have hsum : ∀ l : List ℝ, (∀ x ∈ l, |fl (x / s) - x / s| ≤ (x / s) / 2 ^ 53 + 1 / 2 ^ 1075) →
      |(l.map fun x => fl (x / s)).sum - l.sum / s| ≤ (l.sum / s) / 2 ^ 53 + l.length * (1 / 2 ^ 1075) := by
    intro l
    induction l with
    | nil => intro _; simp
    | cons x l ih =>
      intro hl
      have a1 := ih fun y hy => hl y (by simp [hy])
      have a2 := hl x (by simp)
      have a3 := abs_add_le (fl (x / s) - x / s) ((l.map fun x => fl (x / s)).sum - l.sum / s)
      rw [List.map_cons, List.sum_cons, List.sum_cons, List.length_cons]
      rw [show fl (x / s) + (l.map fun x => fl (x / s)).sum - (x + l.sum) / s = fl (x / s) - x / s + ((l.map fun x => fl (x / s)).sum - l.sum / s) by ring]
      push_cast
      calc _ ≤ _ := a3
        _ ≤ (x / s / 2 ^ 53 + 1 / 2 ^ 1075) + (l.sum / s / 2 ^ 53 + l.length * (1 / 2 ^ 1075)) := add_le_add a2 a1
        _ = _ := by ring
  have hfin := hsum data hbig
  rw [← hSdef, ← hndef] at hfin
  have hd : |S / s - 1| ≤ 3.01 * n / 2 ^ 53 := by
    rw [show S / s - 1 = (S - s) / s by field_simp, abs_div, abs_of_pos hspos, div_le_iff₀ hspos, abs_sub_comm]
    have : 3 * n * (S / 2 ^ 53) = 3 * n / 2 ^ 53 * S := by ring
    have hs3 : S ≤ 1.001 * s := by rwa [div_le_iff₀ hspos] at hratio
    have hc : 0 ≤ 3 * n / 2 ^ 53 := by positivity
    calc |s - S| ≤ 3 * n / 2 ^ 53 * S := by rw [← this]; exact hs
      _ ≤ 3 * n / 2 ^ 53 * (1.001 * s) := mul_le_mul_of_nonneg_left hs3 hc
      _ = 3.003 * n / 2 ^ 53 * s := by ring
      _ ≤ 3.01 * n / 2 ^ 53 * s := by
        refine mul_le_mul_of_nonneg_right ?_ hspos.le
        exact div_le_div_of_nonneg_right (by linarith) (by norm_num)
  have hres : normalise fl data .unitSum = data.map fun x => fl (x / s) := by
    unfold normalise
    dsimp only
    rw [← hsdef, if_pos hspos.ne']
  rw [hres]
  have h3 := abs_add_le ((data.map fun x => fl (x / s)).sum - S / s) (S / s - 1)
  rw [sub_add_sub_cancel] at h3
  have ht : n * (1 / 2 ^ 1075) ≤ 0.5 * n / 2 ^ 53 := by
    have := mul_le_mul_of_nonneg_left tiny (show 0 ≤ n by linarith)
    calc n * (1 / 2 ^ 1075) ≤ n * (1 / 2 ^ 54) := this
      _ = 0.5 * n / 2 ^ 53 := by ring
  have hq : S / s / 2 ^ 53 ≤ 1.001 / 2 ^ 53 := div_le_div_of_nonneg_right hratio (by norm_num)
  have hlast : 3.01 * n / 2 ^ 53 + 0.5 * n / 2 ^ 53 + 1.001 / 2 ^ 53 ≤ (4 * n + 1) / 2 ^ 53 := by
    rw [← add_div, ← add_div]
    exact div_le_div_of_nonneg_right (by linarith) (by norm_num)
  linarith

/-- Three values: rounding to nearest, in the range of the theorems. -/
example : Nearest rn ∧ Rounds rn ∧ (∃ x ∈ [1, 2, (5 : ℝ)], x ≠ 0) ∧ (∀ x ∈ [1, 2, (5 : ℝ)], 0 ≤ x) ∧ (1 : ℝ) / 2 ^ 1000 ≤ [1, 2, (5 : ℝ)].sum ∧ [1, 2, (5 : ℝ)].sum ≤ 2 ^ 1000 ∧
    (∀ x ∈ [1, 2, (5 : ℝ)], IsDbl x) ∧ [1, 2, (5 : ℝ)].Pairwise (· ≤ ·) := by
  refine ⟨nearest_rn, rounds_rn, ⟨1, by simp, by norm_num⟩, by simp, ?_, ?_, ?_, ?_⟩
  · have : (1 : ℝ) / 2 ^ 1000 ≤ 1 := (div_le_one (by positivity)).mpr (one_le_pow₀ (by norm_num))
    norm_num
    exact this.trans' (by norm_num) |>.trans (by norm_num)
  · have : (2 : ℝ) ^ 3 ≤ 2 ^ 1000 := pow_le_pow_right₀ (by norm_num) (by norm_num)
    refine le_trans ?_ this
    norm_num
  · intro x hx
    simp only [List.mem_cons, List.not_mem_nil, or_false] at hx
    rcases hx with rfl | rfl | rfl
    · exact isDbl_one
    · simpa using isDbl_nat 2 (by norm_num)
    · simpa using isDbl_nat 5 (by norm_num)
  · norm_num

end QM.MathReal.Rounded
