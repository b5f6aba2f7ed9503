import Verif.FFT.RoundedReal

/-!
# Lemmas for C84: `kiss_fftri` in floating point
-/

namespace QM.FFT

open Complex QM.DFT QM.Kiss QM.Double

variable {fl cosF sinF : ℝ → ℝ}

/-- The sizes of the two bins that are mixed. -/
noncomputable def pairSize (nc : Nat) (h : Nat → ℂ) (k : Nat) : ℝ := ‖h k‖ + ‖h (nc - k)‖ + 2 * (1 / 2 ^ 1022)

theorem herm_add_norm {nc : Nat} (hn : nc ≠ 0) (c : Nat → ℂ) (k : Nat) (hk : k < nc) :
    ‖herm nc c (nc + k)‖ = ‖herm nc c (nc - k)‖ := by
  by_cases h0 : k = 0
  · subst h0; simp
  · have := herm_conj hn c (nc - k) (by omega) (by omega)
    rw [show 2 * nc - (nc - k) = nc + k by omega] at this
    rw [this, Complex.norm_conj]

theorem total_herm {nc : Nat} (hn : nc ≠ 0) (c : Nat → ℂ) :
    total (2 * nc) (herm nc c) = ∑ k ∈ Finset.range nc, pairSize nc (herm nc c) k := by
  unfold total pairSize
  rw [show 2 * nc = nc + nc by ring, Finset.sum_range_add, ← Finset.sum_add_distrib]
  refine Finset.sum_congr rfl fun k hk => ?_
  rw [Finset.mem_range] at hk
  rw [herm_add_norm hn c k hk]
  ring

theorem pair_sub {nc k : Nat} (h : Nat → ℂ) (hk : k ≤ nc) : pairSize nc h (nc - k) = pairSize nc h k := by
  unfold pairSize
  rw [show nc - (nc - k) = k by omega]
  ring

theorem norm_mixed_le (nc : Nat) (c : Nat → ℂ) (k : Nat) :
    ‖mixed nc c k‖ ≤ 2 * (‖herm nc c k‖ + ‖herm nc c (nc - k)‖) := by
  unfold mixed
  have h1 := norm_add_le (herm nc c k + (starRingEnd ℂ) (herm nc c (nc - k)))
    ((herm nc c k - (starRingEnd ℂ) (herm nc c (nc - k))) * (I * root true (2 * nc) ^ k))
  have h2 := norm_add_le (herm nc c k) ((starRingEnd ℂ) (herm nc c (nc - k)))
  have h3 := norm_sub_le (herm nc c k) ((starRingEnd ℂ) (herm nc c (nc - k)))
  have h4 : ‖I * root true (2 * nc) ^ k‖ = 1 := by rw [norm_mul, norm_root_pow]; simp
  rw [norm_mul, h4, mul_one] at h1
  rw [Complex.norm_conj] at h2 h3
  linarith

theorem dft_sub_sum (inv : Bool) (n : Nat) (x y : Nat → ℂ) (k : Nat) :
    ‖dft inv n x k - dft inv n y k‖ ≤ ∑ j ∈ Finset.range n, ‖x j - y j‖ := by
  have : dft inv n x k - dft inv n y k = dft inv n (fun j => x j - y j) k := by
    rw [dft_eq, dft_eq, dft_eq, ← Finset.sum_sub_distrib]
    exact Finset.sum_congr rfl fun j _ => by ring
  rw [this]
  exact norm_dft_le inv n _ k

variable (hfl : Rounds fl) (hlib : Libm cosF sinF)

include hfl hlib in
/-- `kiss_fftri` computes the inverse transform (not scaled) of the conjugate-symmetric extension of bins `0 … nc`, up to
rounding. -/
theorem fftriF_ok {nc : Nat} (h1 : 1 ≤ nc) (h2 : nc ≤ 1073741823) {st : RPlan} (hst : RPlanNear fl cosF sinF st nc true)
    (freq : List ℂ) (time : List ℝ) (ht : 2 * nc ≤ time.length) (hf : nc + 1 ≤ freq.length)
    (hS : total (2 * nc) (herm nc (fun k => freq.getD k 0)) ≤ 2 ^ 990) :
    ∃ st' time', fftriF fl st freq time = some (st', time') ∧ time'.length = time.length ∧
      (∀ l, l < 2 * nc → ∃ v : ℝ, time'[l]? = some v ∧
        ‖(v : ℂ) - dft true (2 * nc) (herm nc (fun k => freq.getD k 0)) l‖ ≤
          1300 * radixSum nc / 2 ^ 53 * total (2 * nc) (herm nc (fun k => freq.getD k 0))) ∧
      (∀ l, 2 * nc ≤ l → time'[l]? = time[l]?) := by
  obtain ⟨q1, q2, q3, q4, q5, q6⟩ := allocF_facts nc true hfl hlib h1 h2 st.sub hst.sub
  have hn : nc ≠ 0 := by omega
  obtain ⟨c, hc⟩ : ∃ c : Nat → ℂ, c = fun k => freq.getD k 0 := ⟨_, rfl⟩
  rw [← hc] at hS ⊢
  have hcf : ∀ k, k ≤ nc → freq[k]? = some (c k) := by
    intro k hk
    rw [hc]; simp [List.getElem?_eq_getElem (show k < freq.length by omega)]
  have hh : ∀ k, 0 < k → k < nc → herm nc c k = c k := by
    intro k h0 hk
    unfold herm; rw [if_neg (by omega), if_pos hk]
  have hh0 : herm nc c 0 = ((c 0).re : ℂ) := by simp [herm]
  have hhn : herm nc c nc = ((c nc).re : ℂ) := by simp [herm, hn]
  have hm0 : mixed nc c 0 = ⟨(c 0).re + (c nc).re, (c 0).re - (c nc).re⟩ := by
    unfold mixed herm
    simp only [if_true, Nat.sub_zero, if_neg hn, lt_irrefl, if_false]
    apply Complex.ext <;> simp
  obtain ⟨S, hSd⟩ : ∃ S, S = total (2 * nc) (herm nc c) := ⟨_, rfl⟩
  have hSsum : S = ∑ k ∈ Finset.range nc, pairSize nc (herm nc c) k := by rw [hSd]; exact total_herm hn c
  obtain ⟨P, hP⟩ : ∃ P, P = pairSize nc (herm nc c) := ⟨_, rfl⟩
  rw [← hP] at hSsum
  rw [← hSd] at hS ⊢
  have hκ : (0 : ℝ) < 1 / 2 ^ 1022 := by positivity
  have hPd : ∀ k, P k = ‖herm nc c k‖ + ‖herm nc c (nc - k)‖ + 2 * (1 / 2 ^ 1022) := by intro k; rw [hP]; rfl
  have hPκ : ∀ k, 1 / 2 ^ 1022 ≤ P k := by
    intro k
    have := norm_nonneg (herm nc c k)
    have := norm_nonneg (herm nc c (nc - k))
    rw [hPd]; linarith
  have hP0 : ∀ k, 0 ≤ P k := fun k => hκ.le.trans (hPκ k)
  have hPS : ∀ k, k < nc → P k ≤ S := by
    intro k hk
    rw [hSsum]
    exact Finset.single_le_sum (fun j _ => hP0 j) (Finset.mem_range.mpr hk)
  have hPsub : ∀ k, k ≤ nc → P (nc - k) = P k := by intro k hk; rw [hP]; exact pair_sub _ hk
  have hle : (2 : ℝ) ^ 990 ≤ 2 ^ 1000 := pow_le_pow_right₀ (by norm_num) (by norm_num)
  have hM : ∀ k, k < nc → Scale (2 * P k) := fun k hk =>
    scale_mul 2 (by norm_num) (by norm_num) (hPκ k) ((hPS k hk).trans (hS.trans hle))
  have hS0 : 0 ≤ S := by rw [hSd]; exact total_nonneg _ _
  have hconj : ∀ a b : ℂ, ‖(starRingEnd ℂ) a - (starRingEnd ℂ) b‖ = ‖a - b‖ := by
    intro a b; rw [← map_sub, Complex.norm_conj]
  obtain ⟨z0, hz0⟩ : ∃ z0 : ℂ, z0 = ⟨fl ((c 0).re + (c nc).re), fl ((c 0).re - (c nc).re)⟩ := ⟨_, rfl⟩
  have hmix0 : ‖z0 - mixed nc c 0‖ ≤ 276 * (P 0 / 2 ^ 53) := by
    have hM0 := hM 0 (by omega)
    have hab : |(c 0).re| + |(c nc).re| ≤ P 0 := by
      rw [hPd, Nat.sub_zero, hh0, hhn, Complex.norm_real, Complex.norm_real, Real.norm_eq_abs, Real.norm_eq_abs]
      linarith
    have hb1 : |(c 0).re + (c nc).re| ≤ 2 * (2 * P 0) := (abs_add_le _ _).trans (by have := hP0 0; linarith)
    have hb2 : |(c 0).re - (c nc).re| ≤ 2 * (2 * P 0) := (abs_sub _ _).trans (by have := hP0 0; linarith)
    have k1 := near_add hfl hM0 (near_refl _ (c 0).re) (near_refl _ (c nc).re) hb1 (by norm_num)
    have k2 := near_sub hfl hM0 (near_refl _ (c 0).re) (near_refl _ (c nc).re) hb2 (by norm_num)
    have : NearC (2 * P 0) 92 z0 (mixed nc c 0) := by
      rw [hz0, hm0]; exact ⟨near_mono hM0 k1 (by norm_num), near_mono hM0 k2 (by norm_num)⟩
    exact (norm_of_near this).trans (le_of_eq (by ring))
  obtain ⟨tb, l1, l2, l3⟩ := loop_inv (n := nc / 2) (f := fftriBodyF fl nc st.super freq)
    (s := st.tmpbuf.set 0 z0)
    (P := fun i b => b.length = nc ∧
      (∀ k, k < nc → (k ≤ i ∨ nc ≤ k + i) → ∃ v, b[k]? = some v ∧ ‖v - mixed nc c k‖ ≤ 276 * (P k / 2 ^ 53)))
    ⟨by simp [hst.tmp], by
      intro k hk hk'
      have hk0 : k = 0 := by omega
      subst hk0
      exact ⟨_, set_hit (by rw [hst.tmp]; omega), hmix0⟩⟩
    (by
      rintro i b hi ⟨hl, hv⟩
      have g1 := hcf (i + 1) (by omega)
      have g2 := hcf (nc - (i + 1)) (by omega)
      obtain ⟨t, g3, g4⟩ := hst.super i hi
      have hMk := hM (i + 1) (by omega)
      obtain ⟨e, he⟩ : ∃ e, e = (starRingEnd ℂ) (c (nc - (i + 1))) := ⟨_, rfl⟩
      have hW : superW nc true (i + 1) = I * root true (2 * nc) ^ (i + 1) := by simp [superW]
      have hab : ‖c (i + 1)‖ + ‖e‖ ≤ P (i + 1) := by
        rw [he, Complex.norm_conj, hPd, hh _ (by omega) (by omega), hh _ (by omega) (by omega)]
        linarith
      obtain ⟨f1, hf1⟩ : ∃ f1, f1 = cadd fl (c (i + 1)) e := ⟨_, rfl⟩
      obtain ⟨tw, htw⟩ : ∃ tw, tw = cmul fl (csub fl (c (i + 1)) e) t := ⟨_, rfl⟩
      obtain ⟨u1, u2, _, _⟩ := mix_sum hfl hMk g4 (norm_superW nc true (i + 1)) hab le_rfl
      rw [← hf1, ← htw] at u1 u2
      have u1 := norm_of_near u1
      have u2 := norm_of_near u2
      have m1 : mixed nc c (i + 1) = c (i + 1) + e + (c (i + 1) - e) * superW nc true (i + 1) := by
        unfold mixed
        rw [hh _ (by omega) (by omega), hh _ (by omega) (by omega), he, hW]
      have m2 : mixed nc c (nc - (i + 1)) = (starRingEnd ℂ) (c (i + 1) + e - (c (i + 1) - e) * superW nc true (i + 1)) := by
        rw [mixed_b hn (by omega), hh _ (by omega) (by omega), hh _ (by omega) (by omega), he, hW]
      rw [← m1] at u1
      rw [← hconj, ← m2] at u2
      refine ⟨(b.set (i + 1) (cadd fl f1 tw)).set (nc - (i + 1)) ((starRingEnd ℂ) (csub fl f1 tw)), ?_, by simp [hl], ?_⟩
      · simp only [fftriBodyF, g1, g2, show i + 1 - 1 = i by omega, g3, Option.bind_eq_bind, Option.bind_some, conj_mk,
          conj_mk', ← he, ← hf1, ← htw]
        rw [wr_some _ (by omega)]
        simp only [Option.bind_some]
        rw [wr_some _ (by simp; omega)]
      · intro k hk hk'
        by_cases hA : k = nc - (i + 1)
        · subst hA
          refine ⟨_, set_hit (by simp; omega), u2.trans (le_of_eq ?_)⟩
          rw [hPsub _ (by omega)]; ring
        · rw [set_miss (by omega)]
          by_cases hB : k = i + 1
          · subst hB
            exact ⟨_, set_hit (by omega), u1.trans (le_of_eq (by ring))⟩
          · rw [set_miss (by omega)]
            exact hv k hk (by omega))
  have htb : ∀ k, k < nc → ‖tb.getD k 0 - mixed nc c k‖ ≤ 276 * (P k / 2 ^ 53) := by
    intro k hk
    obtain ⟨v, hv1, hv2⟩ := l3 k hk (by omega)
    simp only [List.getD, hv1, Option.getD_some]
    exact hv2
  have htot : total nc (fun k => tb.getD k 0) ≤ 2.01 * S := by
    rw [hSsum, Finset.mul_sum]
    unfold total
    refine Finset.sum_le_sum fun k hk => ?_
    have h3 := htb k (Finset.mem_range.mp hk)
    have h4 := norm_mixed_le nc c k
    have h5 := norm_add_le (tb.getD k 0 - mixed nc c k) (mixed nc c k)
    rw [sub_add_cancel] at h5
    have h6 : 276 * (P k / 2 ^ 53) ≤ 0.01 * P k := by
      have := hP0 k
      rw [mul_div_assoc', div_le_iff₀ (by norm_num)]
      norm_num
      linarith
    have h7 := hPd k
    linarith
  have hbig : total nc (fun k => tb.getD k 0) ≤ 2 ^ 1000 := by
    refine htot.trans ?_
    rw [show (2 : ℝ) ^ 1000 = 2 ^ 10 * 2 ^ 990 by rw [← pow_add]]
    generalize (2 : ℝ) ^ 990 = E at *
    norm_num
    linarith
  have htot' : total nc (fun k => tb.getD k 0) = ∑ j ∈ Finset.range nc, (‖tb.getD j 0‖ + 1 / 2 ^ 1022) := rfl
  obtain ⟨out, e2, e3, e4, e5⟩ := fftF_ok hfl hlib nc true h1 (by omega) st.sub q1 q2 q3 (by rw [← q4]; omega) tb (pack time)
    (by omega) (by rw [pack_length]; omega) (by rw [← htot']; exact hbig)
  rw [← htot', ← q4] at e4
  obtain ⟨R, hR⟩ : ∃ R : ℝ, R = radixSum nc := ⟨_, rfl⟩
  have hR1 : 1 ≤ R := by rw [hR]; exact_mod_cast q5
  rw [← hR] at e4 ⊢
  obtain ⟨X, hX⟩ : ∃ X : Nat → ℂ, X = dft true (2 * nc) (herm nc c) := ⟨_, rfl⟩
  rw [← hX]
  have hout : ∀ j, j < nc → ∃ v, out[j]? = some v ∧ ‖v - (X (2 * j) + I * X (2 * j + 1))‖ ≤ 1300 * R / 2 ^ 53 * S := by
    intro j hj
    obtain ⟨v, hv1, hv2⟩ := e4 j hj
    refine ⟨v, hv1, ?_⟩
    rw [hX, ← dft_mixed hn]
    have h3 := dft_sub_sum true nc (fun k => tb.getD k 0) (mixed nc c) j
    have h4 : ∑ k ∈ Finset.range nc, ‖tb.getD k 0 - mixed nc c k‖ ≤ 276 * (S / 2 ^ 53) := by
      rw [hSsum, Finset.sum_div, Finset.mul_sum]
      exact Finset.sum_le_sum fun k hk => htb k (Finset.mem_range.mp hk)
    have h5 := norm_sub_le_norm_sub_add_norm_sub v (dft true nc (fun k => tb.getD k 0) j) (dft true nc (mixed nc c) j)
    have h6 : 500 * R / 2 ^ 53 * total nc (fun k => tb.getD k 0) ≤ 500 * R / 2 ^ 53 * (2.01 * S) :=
      mul_le_mul_of_nonneg_left htot (by positivity)
    have h7 : 500 * R / 2 ^ 53 * (2.01 * S) = 1005 * (R * (S / 2 ^ 53)) := by ring
    have h8 : 1300 * R / 2 ^ 53 * S = 1300 * (R * (S / 2 ^ 53)) := by ring
    have h9 : S / 2 ^ 53 ≤ R * (S / 2 ^ 53) := by
      calc S / 2 ^ 53 = 1 * (S / 2 ^ 53) := (one_mul _).symm
        _ ≤ _ := mul_le_mul_of_nonneg_right hR1 (by positivity)
    have h10 : 0 ≤ S / 2 ^ 53 := by positivity
    rw [h8]
    linarith
  have hul : (unpack out).length = 2 * (time.length / 2) := by rw [unpack_length, e3, pack_length]
  refine ⟨{ st with tmpbuf := tb }, unpack out ++ time.drop (2 * (time.length / 2)), ?_, ?_, ?_, ?_⟩
  · unfold fftriF
    rw [q2]
    simp only [Bool.true_eq_false, if_false, q1.nfft, hcf 0 (by omega), hcf nc (le_refl nc), Option.bind_eq_bind,
      Option.bind_some]
    rw [wr_some _ (by rw [hst.tmp]; omega), ← hz0]
    simp only [Option.bind_some]
    rw [l1]
    simp only [Option.bind_some]
    rw [e2]
    rfl
  · simp [hul]; omega
  · intro l hl
    have him : ∀ m, (X m).im = 0 := by
      intro m
      rw [hX]
      exact Complex.conj_eq_iff_im.mp (dft_herm_real hn c m)
    have hreal : ∀ m, X m = ((X m).re : ℂ) := by
      intro m; apply Complex.ext <;> simp [him m]
    obtain ⟨v, hv1, hv2⟩ := hout (l / 2) (by omega)
    obtain ⟨u1, u2⟩ := unpack_get out (l / 2) _ hv1
    rw [List.getElem?_append_left (by omega)]
    rcases Nat.mod_two_eq_zero_or_one l with h | h
    · have hl2 : 2 * (l / 2) = l := by omega
      rw [hl2] at u1 hv2
      refine ⟨v.re, u1, ?_⟩
      rw [hreal l, ← Complex.ofReal_sub, Complex.norm_real, Real.norm_eq_abs]
      have := re_le _ hv2
      simpa [him] using this
    · have hl2 : 2 * (l / 2) + 1 = l := by omega
      rw [hl2] at u2 hv2
      refine ⟨v.im, u2, ?_⟩
      rw [hreal l, ← Complex.ofReal_sub, Complex.norm_real, Real.norm_eq_abs]
      have := im_le _ hv2
      simpa [him] using this
  · intro l hl
    by_cases hlt : l < 2 * (time.length / 2)
    · rw [List.getElem?_append_left (by omega)]
      have hk := e5 (l / 2) (by omega)
      have hp : (pack time)[l / 2]? = some ⟨time.getD (2 * (l / 2)) 0, time.getD (2 * (l / 2) + 1) 0⟩ := by
        have := pack_get time (l / 2) (by omega)
        rw [← this]
        have hlt' : l / 2 < (pack time).length := by rw [pack_length]; omega
        simp [List.getElem?_eq_getElem hlt']
      rw [hp] at hk
      obtain ⟨u1, u2⟩ := unpack_get out (l / 2) _ hk
      rcases Nat.mod_two_eq_zero_or_one l with h | h
      · have hl2 : 2 * (l / 2) = l := by omega
        rw [hl2] at u1
        rw [u1]
        simp [hl2, List.getElem?_eq_getElem (show l < time.length by omega)]
      · have hl2 : 2 * (l / 2) + 1 = l := by omega
        rw [hl2] at u2
        rw [u2]
        simp [hl2, List.getElem?_eq_getElem (show l < time.length by omega)]
    · rw [List.getElem?_append_right (by omega), List.getElem?_drop, hul]
      congr 1; omega

end QM.FFT
