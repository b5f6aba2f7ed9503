import Verif.MathReal.Rounded
import Verif.MathReal.Props
import Verif.Common.DoubleSum
import Mathlib.Tactic.NormNum
import Mathlib.Algebra.Ring.Parity

/-! Lemmas about rounding to nearest, for C99. -/

namespace QM.Double

theorem isDbl_neg {d : ℝ} (h : IsDbl d) : IsDbl (-d) := by
  obtain ⟨m, e, h1, h2, rfl⟩ := h
  exact ⟨-m, e, by rwa [abs_neg], h2, by push_cast; ring⟩

theorem isDbl_abs {d : ℝ} (h : IsDbl d) : IsDbl |d| := by
  rcases abs_choice d with e | e <;> rw [e]
  · exact h
  · exact isDbl_neg h

theorem isDbl_double {d : ℝ} (h : IsDbl d) : IsDbl (2 * d) := by
  obtain ⟨m, e, h1, h2, rfl⟩ := h
  refine ⟨m, e + 1, h1, by omega, ?_⟩
  rw [zpow_add₀ (by norm_num)]
  ring

theorem isDbl_zero : IsDbl 0 := by simpa using isDbl_int 0 (by norm_num)
theorem isDbl_one : IsDbl 1 := by simpa using isDbl_int 1 (by norm_num)

/-- Half integers up to `2 ^ 52`. -/
theorem isDbl_half (k : ℤ) (h : |k| ≤ 2 ^ 53) : IsDbl (k / 2) := by
  have := isDbl_of_le k (-1) h (by norm_num)
  rwa [zpow_neg, zpow_one, ← div_eq_mul_inv] at this

/-- Rounding as IEEE 754 defines it: to nearest, in the middle to the even one. `m * 2 ^ e` and `(m + 1) * 2 ^ e` are neighbours. -/
structure TiesEven (fl : ℝ → ℝ) : Prop extends Nearest fl where
  even : ∀ m e : ℤ, 2 ^ 52 ≤ m → m < 2 ^ 53 → -1074 ≤ e → fl ((m + 1 / 2) * (2 : ℝ) ^ e) = (if Even m then m else m + 1 : ℤ) * (2 : ℝ) ^ e

/-- No double lies between two neighbours. -/
theorem no_between {m e : ℤ} (h1 : 2 ^ 52 ≤ m) {d : ℝ} (h : IsDbl d) : d ≤ m * (2 : ℝ) ^ e ∨ (m + 1) * (2 : ℝ) ^ e ≤ d := by
  obtain ⟨m', e', g1, g2, rfl⟩ := h
  have hp : (0 : ℝ) < (2 : ℝ) ^ e := zpow_pos (by norm_num) _
  rcases lt_or_ge e' e with he | he
  · left
    have hm' : (m' : ℝ) ≤ 2 ^ 53 := by
      have := (le_abs_self m').trans g1.le
      exact_mod_cast this
    have hm : (2 : ℝ) ^ 52 ≤ m := by exact_mod_cast h1
    have hz : (2 : ℝ) ^ e' ≤ 2 ^ e / 2 := by
      have : (2 : ℝ) ^ e' ≤ 2 ^ (e - 1) := zpow_le_zpow_right₀ (by norm_num) (by omega)
      rwa [zpow_sub_one₀ (by norm_num), ← div_eq_mul_inv] at this
    have hp' : (0 : ℝ) < (2 : ℝ) ^ e' := zpow_pos (by norm_num) _
    calc (m' : ℝ) * 2 ^ e' ≤ 2 ^ 53 * 2 ^ e' := mul_le_mul_of_nonneg_right hm' hp'.le
      _ ≤ 2 ^ 53 * (2 ^ e / 2) := mul_le_mul_of_nonneg_left hz (by norm_num)
      _ = 2 ^ 52 * 2 ^ e := by ring
      _ ≤ m * 2 ^ e := mul_le_mul_of_nonneg_right hm hp.le
  · obtain ⟨n, hn⟩ := Int.eq_ofNat_of_zero_le (show 0 ≤ e' - e by omega)
    have e1 : (m' : ℝ) * 2 ^ e' = ((m' * 2 ^ n : ℤ) : ℝ) * 2 ^ e := by
      rw [show e' = n + e by omega, zpow_add₀ (by norm_num), zpow_natCast]
      push_cast
      ring
    rw [e1]
    rcases le_or_gt (m' * 2 ^ n) m with h | h
    · left
      exact mul_le_mul_of_nonneg_right (by exact_mod_cast h) hp.le
    · right
      exact mul_le_mul_of_nonneg_right (by exact_mod_cast h) hp.le

/-- A tie. -/
def Tie (x : ℝ) : Prop := ∃ p : ℤ × ℤ, 2 ^ 52 ≤ p.1 ∧ p.1 < 2 ^ 53 ∧ -1074 ≤ p.2 ∧ x = (p.1 + 1 / 2) * (2 : ℝ) ^ p.2

open Classical in
/-- Rounding to nearest, ties to even (for positive numbers). -/
noncomputable def rne (x : ℝ) : ℝ :=
  if h : Tie x then ((if Even h.choose.1 then h.choose.1 else h.choose.1 + 1 : ℤ) : ℝ) * (2 : ℝ) ^ h.choose.2 else rn x

theorem tie_unique {m e m' e' : ℤ} (h1 : 2 ^ 52 ≤ m) (h2 : m < 2 ^ 53) (g1 : 2 ^ 52 ≤ m') (g2 : m' < 2 ^ 53)
    (h : ((m : ℝ) + 1 / 2) * (2 : ℝ) ^ e = (m' + 1 / 2) * (2 : ℝ) ^ e') : m = m' ∧ e = e' := by
  have aux : ∀ m e m' e' : ℤ, 2 ^ 52 ≤ m' → m < 2 ^ 53 → e < e' → ((m : ℝ) + 1 / 2) * (2 : ℝ) ^ e < (m' + 1 / 2) * (2 : ℝ) ^ e' := by
    intro m e m' e' a1 a2 a3
    have hp : (0 : ℝ) < (2 : ℝ) ^ e := zpow_pos (by norm_num) _
    have hz : (2 : ℝ) ^ e * 2 ≤ 2 ^ e' := by
      have : (2 : ℝ) ^ (e + 1) ≤ 2 ^ e' := zpow_le_zpow_right₀ (by norm_num) (by omega)
      rwa [zpow_add_one₀ (by norm_num)] at this
    have b1 : (2 : ℝ) ^ 52 ≤ m' := by exact_mod_cast a1
    have b2 : (m : ℝ) + 1 ≤ 2 ^ 53 := by exact_mod_cast a2
    calc ((m : ℝ) + 1 / 2) * 2 ^ e < 2 ^ 53 * 2 ^ e := mul_lt_mul_of_pos_right (by linarith) hp
      _ = 2 ^ 52 * (2 ^ e * 2) := by ring
      _ ≤ 2 ^ 52 * 2 ^ e' := mul_le_mul_of_nonneg_left hz (by norm_num)
      _ ≤ (m' + 1 / 2) * 2 ^ e' := mul_le_mul_of_nonneg_right (by linarith) (zpow_pos (by norm_num) _).le
  have he : e = e' := by
    rcases lt_trichotomy e e' with hl | hl | hl
    · exact absurd h (aux m e m' e' g1 h2 hl).ne
    · exact hl
    · exact absurd h (aux m' e' m e h1 g2 hl).ne'
  subst he
  have hp : (2 : ℝ) ^ e ≠ 0 := (zpow_pos (by norm_num) _).ne'
  have := mul_right_cancel₀ hp h
  refine ⟨?_, rfl⟩
  have : (m : ℝ) = m' := by linarith
  exact_mod_cast this

theorem tiesEven_rne : TiesEven rne where
  dbl x := by
    unfold rne
    split
    · rename_i h
      obtain ⟨h1, h2, h3, _⟩ := h.choose_spec
      refine isDbl_of_le _ _ ?_ h3
      rw [abs_of_nonneg]
      · split <;> omega
      · split <;> omega
    · exact isDbl_rn x
  near x d hd := by
    unfold rne
    split
    · rename_i h
      obtain ⟨h1, h2, h3, h4⟩ := h.choose_spec
      generalize h.choose.1 = m at *
      generalize h.choose.2 = e at *
      have hp : (0 : ℝ) < (2 : ℝ) ^ e := zpow_pos (by norm_num) _
      have e1 : |((if Even m then m else m + 1 : ℤ) : ℝ) * (2 : ℝ) ^ e - x| = 2 ^ e / 2 := by
        rw [h4]
        split
        · rw [show (m : ℝ) * 2 ^ e - (m + 1 / 2) * 2 ^ e = -(2 ^ e / 2) by ring, abs_neg, abs_of_pos (by linarith)]
        · push_cast
          rw [show ((m : ℝ) + 1) * 2 ^ e - (m + 1 / 2) * 2 ^ e = 2 ^ e / 2 by ring, abs_of_pos (by linarith)]
      rw [e1]
      rcases no_between (e := e) h1 hd with h | h
      · rw [abs_sub_comm]
        refine le_trans ?_ (le_abs_self _)
        rw [h4]; nlinarith
      · refine le_trans ?_ (le_abs_self _)
        rw [h4]; nlinarith
    · exact nearest_rn.near x d hd
  even m e h1 h2 h3 := by
    have h : Tie ((m + 1 / 2) * (2 : ℝ) ^ e) := ⟨(m, e), h1, h2, h3, rfl⟩
    unfold rne
    rw [dif_pos h]
    obtain ⟨g1, g2, g3, g4⟩ := h.choose_spec
    obtain ⟨a1, a2⟩ := tie_unique h1 h2 g1 g2 g4
    rw [← a1, ← a2]

end QM.Double

namespace QM.MathReal.Rounded

open QM.Double

variable {fl : ℝ → ℝ}

/-- Adding one half to a double and rounding keeps the integer part, but for one number. -/
theorem floor_half (hfl : Nearest fl) {x : ℝ} (hx : IsDbl x) (h0 : 0 ≤ x) (h1 : x < 2 ^ 52) (hne : x ≠ 1 / 2 - 1 / 2 ^ 54) : ⌊fl (x + 1 / 2)⌋ = ⌊x + 1 / 2⌋ := by
  obtain ⟨k, hk⟩ : ∃ k, k = ⌊x + 1 / 2⌋ := ⟨_, rfl⟩
  have hk1 : (k : ℝ) ≤ x + 1 / 2 := by rw [hk]; exact Int.floor_le _
  have hk2 : x + 1 / 2 < k + 1 := by rw [hk]; exact Int.lt_floor_add_one _
  have hk0 : 0 ≤ k := by rw [hk]; exact Int.floor_nonneg.mpr (by linarith)
  have hkb : k ≤ 2 ^ 52 := by
    have : (k : ℝ) < 2 ^ 52 + 1 := by linarith
    have : k < 2 ^ 52 + 1 := by exact_mod_cast this
    omega
  rw [← hk, Int.floor_eq_iff]
  refine ⟨hfl.ge (isDbl_int k (by rw [abs_of_nonneg hk0]; omega)) hk1, ?_⟩
  -- a double not above and below the next integer
  suffices h : ∃ d, IsDbl d ∧ x + 1 / 2 ≤ d ∧ d < k + 1 by
    obtain ⟨d, d1, d2, d3⟩ := h
    exact (hfl.le d1 d2).trans_lt d3
  obtain ⟨m, e, hm, he, hxe⟩ := hx
  have hp : (0 : ℝ) < (2 : ℝ) ^ e := zpow_pos (by norm_num) _
  have hmp : (m : ℝ) < 2 ^ 53 := by
    have := (le_abs_self m).trans_lt hm
    exact_mod_cast this
  rcases le_or_gt (-1) e with h | h
  · -- a multiple of one half
    obtain ⟨n, hn⟩ := Int.eq_ofNat_of_zero_le (show 0 ≤ e + 1 by omega)
    have hh : x + 1 / 2 = ((m * 2 ^ n + 1 : ℤ) : ℝ) / 2 := by
      rw [hxe, show e = (n : ℤ) + (-1) by omega, zpow_add₀ (by norm_num), zpow_natCast, zpow_neg, zpow_one]
      push_cast
      ring
    refine ⟨x + 1 / 2, ?_, le_rfl, hk2⟩
    rw [hh]
    apply isDbl_half
    have a1 : (0 : ℝ) ≤ ((m * 2 ^ n + 1 : ℤ) : ℝ) := by linarith
    have a2 : ((m * 2 ^ n + 1 : ℤ) : ℝ) < 2 ^ 53 + 1 := by linarith
    have a1' : (0 : ℤ) ≤ m * 2 ^ n + 1 := by exact_mod_cast a1
    have a2' : (m * 2 ^ n + 1 : ℤ) < 2 ^ 53 + 1 := by exact_mod_cast a2
    rw [abs_of_nonneg a1']
    omega
  · rcases le_or_gt 1 k with hk' | hk'
    · -- at least one half
      have hxh : 1 / 2 ≤ x := by
        have : (1 : ℝ) ≤ k := by exact_mod_cast hk'
        linarith
      have he53 : 0 ≤ 53 + e := by
        by_contra hc
        have : (2 : ℝ) ^ e ≤ 2 ^ (-54 : ℤ) := zpow_le_zpow_right₀ (by norm_num) (by omega)
        have h3 : x < 2 ^ 53 * 2 ^ (-54 : ℤ) := by
          rw [hxe]
          calc (m : ℝ) * 2 ^ e < 2 ^ 53 * 2 ^ e := mul_lt_mul_of_pos_right hmp hp
            _ ≤ _ := mul_le_mul_of_nonneg_left this (by norm_num)
        rw [zpow_neg] at h3
        norm_num at h3
        linarith
      obtain ⟨q, hq⟩ := Int.eq_ofNat_of_zero_le (show 0 ≤ -e by omega)
      obtain ⟨r, hr⟩ := Int.eq_ofNat_of_zero_le he53
      have hq2 : 2 ≤ q := by omega
      have heq : (2 : ℝ) ^ e = 1 / 2 ^ q := by
        rw [show e = -(q : ℤ) by omega, zpow_neg, zpow_natCast, one_div]
      rcases le_or_gt ((k + 1) * 2 ^ q) (2 ^ 53) with hc | hc
      · -- the next integer less one unit of x
        refine ⟨(((k + 1) * 2 ^ q - 1 : ℤ) : ℝ) * 2 ^ e, isDbl_of_le _ _ ?_ he, ?_, ?_⟩
        · rw [abs_of_nonneg]
          · omega
          · have : (1 : ℤ) ≤ 2 ^ q := one_le_pow₀ (by norm_num)
            nlinarith
        · have hlt : (m : ℝ) < (k + 1 / 2) * 2 ^ q := by
            have : x < k + 1 / 2 := by linarith
            rw [hxe, heq, mul_one_div, div_lt_iff₀ (by positivity)] at this
            exact this
          obtain ⟨p, rfl⟩ : ∃ p, q = p + 1 := ⟨q - 1, by omega⟩
          have hlt' : (m : ℤ) < (2 * k + 1) * 2 ^ p := by
            have : (m : ℝ) < (((2 * k + 1) * 2 ^ p : ℤ) : ℝ) := by
              push_cast
              calc (m : ℝ) < (k + 1 / 2) * 2 ^ (p + 1) := hlt
                _ = (2 * k + 1) * 2 ^ p := by rw [pow_succ]; ring
            exact_mod_cast this
          have hle : (m : ℝ) ≤ (((2 * k + 1) * 2 ^ p - 1 : ℤ) : ℝ) := by
            have : m ≤ (2 * k + 1) * 2 ^ p - 1 := by omega
            exact_mod_cast this
          push_cast at hle ⊢
          rw [hxe]
          have h12 : (1 : ℝ) / 2 = 2 ^ p * 2 ^ e := by
            rw [heq, pow_succ]
            field_simp
          rw [h12, ← add_mul]
          refine mul_le_mul_of_nonneg_right ?_ hp.le
          rw [pow_succ]
          linarith
        · push_cast
          rw [sub_mul, heq]
          have : (k + 1 : ℝ) * 2 ^ q * (1 / 2 ^ q) = k + 1 := by field_simp
          rw [this]
          have : (0 : ℝ) < 1 * (1 / 2 ^ q) := by positivity
          linarith
      · -- x lies below a power of two not above k
        have hpow : (2 : ℝ) ^ 53 * 2 ^ e = 2 ^ r := by
          have : (2 : ℝ) ^ (53 + e) = 2 ^ r := by rw [hr]; exact zpow_natCast _ _
          rw [zpow_add₀ (by norm_num)] at this
          rw [← this]; norm_num
        have hxr : x < 2 ^ r := by
          rw [hxe, ← hpow]
          exact mul_lt_mul_of_pos_right hmp hp
        have hkr : (2 : ℝ) ^ r ≤ k := by
          have : (2 : ℝ) ^ r < k + 1 := by
            rw [← hpow, heq, mul_one_div, div_lt_iff₀ (by positivity)]
            exact_mod_cast hc
          have : (2 : ℤ) ^ r < k + 1 := by exact_mod_cast this
          have : (2 : ℤ) ^ r ≤ k := by omega
          exact_mod_cast this
        have hr51 : (2 : ℝ) ^ r ≤ 2 ^ 51 := pow_le_pow_right₀ (by norm_num) (by omega)
        have hk51 : k ≤ 2 ^ 51 := by
          have : (k : ℝ) < 2 ^ 51 + 1 := by linarith
          have : k < 2 ^ 51 + 1 := by exact_mod_cast this
          omega
        refine ⟨((2 * k + 1 : ℤ) : ℝ) / 2, isDbl_half _ (by rw [abs_of_nonneg (by omega)]; omega), ?_, ?_⟩
        · push_cast; linarith
        · push_cast; linarith
    · -- below one half
      have hk00 : k = 0 := by omega
      have hx12 : x < 1 / 2 := by rw [hk00] at hk2; push_cast at hk2; linarith
      have hb : x ≤ 1 / 2 - 1 / 2 ^ 53 := by
        rcases lt_trichotomy e (-54) with he' | he' | he'
        · have : (2 : ℝ) ^ e ≤ 2 ^ (-55 : ℤ) := zpow_le_zpow_right₀ (by norm_num) (by omega)
          have h3 : x < 2 ^ 53 * 2 ^ (-55 : ℤ) := by
            rw [hxe]
            calc (m : ℝ) * 2 ^ e < 2 ^ 53 * 2 ^ e := mul_lt_mul_of_pos_right hmp hp
              _ ≤ _ := mul_le_mul_of_nonneg_left this (by norm_num)
          rw [zpow_neg] at h3
          norm_num at h3 ⊢
          linarith
        · have hz : (2 : ℝ) ^ e = 1 / 2 ^ 54 := by rw [he', zpow_neg, one_div]; norm_cast
          rw [hz] at hxe
          have : m ≠ 2 ^ 53 - 1 := by
            rintro rfl
            apply hne
            rw [hxe]
            norm_num
          have hm2 : m < 2 ^ 53 := (le_abs_self m).trans_lt hm
          have hm3 : (m : ℝ) ≤ ((2 ^ 53 - 2 : ℤ) : ℝ) := by
            have : m ≤ 2 ^ 53 - 2 := by omega
            exact_mod_cast this
          push_cast at hm3
          rw [hxe]
          norm_num at hm3 ⊢
          linarith
        · obtain ⟨n, hn⟩ := Int.eq_ofNat_of_zero_le (show 0 ≤ e + 53 by omega)
          have hz : x = ((m * 2 ^ n : ℤ) : ℝ) / 2 ^ 53 := by
            rw [hxe, show e = (n : ℤ) + (-53) by omega, zpow_add₀ (by norm_num), zpow_natCast, zpow_neg]
            push_cast
            norm_num
            ring
          have h3 : ((m * 2 ^ n : ℤ) : ℝ) < 2 ^ 52 := by
            rw [hz, div_lt_iff₀ (by norm_num)] at hx12
            linarith
          have h4 : (m * 2 ^ n : ℤ) < 2 ^ 52 := by exact_mod_cast h3
          have h5 : ((m * 2 ^ n : ℤ) : ℝ) ≤ ((2 ^ 52 - 1 : ℤ) : ℝ) := by
            have : (m * 2 ^ n : ℤ) ≤ 2 ^ 52 - 1 := by omega
            exact_mod_cast this
          rw [hz]
          push_cast at h5 ⊢
          rw [div_le_iff₀ (by norm_num)]
          linarith
      refine ⟨1 - 1 / 2 ^ 53, ?_, by linarith, ?_⟩
      · have := isDbl_of_le (2 ^ 53 - 1) (-53) (by norm_num) (by norm_num)
        rw [zpow_neg] at this
        norm_num at this ⊢
        exact this
      · rw [hk00]
        norm_num

/-! ## Sums -/

theorem sum_flSum (src : List ℝ) : sum fl src = flSum fl (fun i => src.getD i 0) src.length := by
  have key : ∀ n, n ≤ src.length → (src.take n).foldl (fun retVal x => fl (retVal + x)) 0 = flSum fl (fun i => src.getD i 0) n := by
    intro n
    induction n with
    | zero => intro _; simp [flSum]
    | succ n ih =>
      intro hn
      rw [List.take_succ_eq_append_getElem (by omega), List.foldl_append, ih (by omega), flSum]
      simp [List.getD_eq_getElem?_getD, show n < src.length by omega]
  have := key src.length le_rfl
  rwa [List.take_length] at this

theorem sum_getD (f : ℝ → ℝ) (src : List ℝ) : ∑ i ∈ Finset.range src.length, f (src.getD i 0) = (src.map f).sum := by
  induction src with
  | nil => simp
  | cons x l ih =>
    rw [List.length_cons, Finset.sum_range_succ', List.map_cons, List.sum_cons, ← ih, add_comm]
    simp

/-- The error of a sum. -/
theorem sum_near (hfl : Rounds fl) {M : ℝ} (hM : Scale M) (src : List ℝ) (hn : (src.length : ℝ) ≤ 2 ^ 40) (hs : (src.map abs).sum ≤ M) :
    |sum fl src - src.sum| ≤ 3 * src.length * (M / 2 ^ 53) := by
  have h1 := sum_getD abs src
  have h2 := sum_getD id src
  simp only [id, List.map_id_fun', List.map_id] at h2
  have := flSum_exact hfl hM (fun i => src.getD i 0) src.length hn (by rw [h1]; exact hs)
  rwa [h2, ← sum_flSum] at this

end QM.MathReal.Rounded
