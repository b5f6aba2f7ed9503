import Verif.FFT.RoundedMix

/-!
# Lemmas for C84: `kiss_fftr` and `kiss_fftri` in floating point
-/

namespace QM.FFT

open Complex QM.DFT QM.Kiss QM.Double

variable {fl cosF sinF : ℝ → ℝ}

/-- What a real plan contains, up to rounding. -/
structure RPlanNear (fl cosF sinF : ℝ → ℝ) (st : RPlan) (nc : Nat) (inv : Bool) : Prop where
  sub : allocF fl cosF sinF nc inv = some st.sub
  tmp : st.tmpbuf.length = nc
  super : ∀ i, i < nc / 2 → ∃ t, st.super[i]? = some t ∧ TwNear t (superW nc inv (i + 1))

theorem fftrF_keeps {st st' : RPlan} {time : List ℝ} {freq freq' : List ℂ} (h : fftrF fl st time freq = some (st', freq')) :
    st'.sub = st.sub ∧ st'.super = st.super ∧ st'.tmpbuf.length = st.tmpbuf.length ∧ freq'.length = freq.length := by
  unfold fftrF at h
  split_ifs at h
  simp only [Option.bind_eq_bind, Option.bind_eq_some_iff] at h
  obtain ⟨T, e1, t0, _, f1, e2, f2, e3, f3, e4, e5⟩ := h
  cases e5
  have hl := fftF_len fl _ _ _ _ e1
  have l1 := len_wr _ _ rfl _ e2
  have l2 := len_wr _ _ l1 _ e3
  refine ⟨rfl, rfl, hl, ?_⟩
  refine len_loop (n := freq.length) (fun i s hs => ?_) _ l2 _ e4
  unfold fftrBodyF
  exact len_bind fun _ => len_bind fun _ => len_bind fun _ => len_bind_wr _ _ hs fun b hb => len_wr _ _ hb

theorem fftriF_keeps {st st' : RPlan} {time time' : List ℝ} {freq : List ℂ} (h : fftriF fl st freq time = some (st', time')) :
    st'.sub = st.sub ∧ st'.super = st.super ∧ st'.tmpbuf.length = st.tmpbuf.length := by
  unfold fftriF at h
  split_ifs at h
  simp only [Option.bind_eq_bind, Option.bind_eq_some_iff] at h
  obtain ⟨f0, _, fn, _, t1, e1, t2, e2, out, _, e5⟩ := h
  cases e5
  have l1 := len_wr _ _ rfl _ e1
  refine ⟨rfl, rfl, ?_⟩
  refine len_loop (n := st.tmpbuf.length) (fun i s hs => ?_) _ l1 _ e2
  unfold fftriBodyF
  exact len_bind fun _ => len_bind fun _ => len_bind fun _ => len_bind_wr _ _ hs fun b hb => len_wr _ _ hb

variable (hfl : Rounds fl) (hlib : Libm cosF sinF)

include hfl hlib in
theorem rallocF_ok (nc : Nat) (inv : Bool) (u : ℂ) (h1 : 1 ≤ nc) (h2 : nc ≤ 2147483647) :
    ∃ st, rallocF fl cosF sinF (2 * nc) inv u = some st ∧ RPlanNear fl cosF sinF st nc inv := by
  obtain ⟨sub, e1, _⟩ := allocF_ok hfl hlib nc inv h1 h2
  obtain ⟨t, f1, f2, f3, f4⟩ := fill_ok (nc / 2)
    (fun i t => wr t i ⟨cosF (superPhaseF fl nc inv i), sinF (superPhaseF fl nc inv i)⟩)
    (fun i => (⟨cosF (superPhaseF fl nc inv i), sinF (superPhaseF fl nc inv i)⟩ : ℂ)) (List.replicate (nc * 3 / 2 - nc) u)
    (by simp; omega)
    (by intro i b hi hl _ _; rw [wr_some _ (by rw [hl]; simp; omega)])
  refine ⟨⟨sub, List.replicate nc u, t⟩, ?_, ⟨e1, by simp, ?_⟩⟩
  · unfold rallocF
    rw [if_neg (by omega)]
    simp only [show 2 * nc / 2 = nc by omega, e1, f1, Option.bind_eq_bind, Option.bind_some]
    rfl
  · intro i hi
    exact ⟨_, f3 i hi, superTwF_near hfl hlib nc i inv hi⟩

/-- The size of the packed samples. -/
theorem total_pack (nc : Nat) (x : Nat → ℝ) :
    total nc (fun j => (⟨x (2 * j), x (2 * j + 1)⟩ : ℂ)) ≤ total (2 * nc) (fun j => (x j : ℂ)) := by
  unfold total
  induction nc with
  | zero => simp
  | succ m ih =>
    rw [Finset.sum_range_succ, show 2 * (m + 1) = 2 * m + 1 + 1 by ring, Finset.sum_range_succ, Finset.sum_range_succ]
    have h1 := Complex.norm_le_abs_re_add_abs_im (⟨x (2 * m), x (2 * m + 1)⟩ : ℂ)
    have h2 : (0 : ℝ) ≤ 1 / 2 ^ 1022 := by positivity
    rw [Complex.norm_real, Complex.norm_real, Real.norm_eq_abs, Real.norm_eq_abs]
    simp only at h1
    linarith

/-- What is known about the size of a transform of `nc` packed samples. -/
theorem allocF_facts (nc : Nat) (inv : Bool) (hfl : Rounds fl) (hlib : Libm cosF sinF) (h1 : 1 ≤ nc) (h2 : nc ≤ 1073741823)
    (st : Plan) (h : allocF fl cosF sinF nc inv = some st) :
    PlanNear st nc ∧ st.inverse = inv ∧ Chain nc st.factors ∧ radixSum nc = radices st.factors ∧ 1 ≤ radixSum nc ∧
      500 * radixSum nc ≤ 2 ^ 44 := by
  obtain ⟨st', p1, p2, p3, p4, p5, _⟩ := allocF_ok hfl hlib nc inv h1 (by omega)
  rw [h] at p1; cases p1
  obtain ⟨fac, e1, e2, e3, _⟩ := C21_factorisation nc h1 (by omega)
  have hR := radixSum_eq p2
  rw [p2] at e1
  have e1 := Option.some.inj e1
  refine ⟨p3, p4, p5, hR, by rw [hR]; exact radices_pos p5, ?_⟩
  have h3 := radices_le _ nc p5
  have h4 : st.factors.length * nc ≤ 32 * 1073741823 := Nat.mul_le_mul (by rw [e1]; exact e3) h2
  rw [hR]
  omega

include hfl hlib in
/-- `kiss_fftr` computes bins `0 … nc` of the transform up to rounding. -/
theorem fftrF_ok {nc : Nat} (h1 : 1 ≤ nc) (h2 : nc ≤ 1073741823) {st : RPlan} (hst : RPlanNear fl cosF sinF st nc false)
    (time : List ℝ) (freq : List ℂ) (ht : 2 * nc ≤ time.length) (hf : nc + 1 ≤ freq.length)
    (hS : total (2 * nc) (fun j => ((time.getD j 0 : ℝ) : ℂ)) ≤ 2 ^ 1000) :
    ∃ st' freq', fftrF fl st time freq = some (st', freq') ∧
      (∀ k, k ≤ nc → ∃ v, freq'[k]? = some v ∧
        ‖v - dft false (2 * nc) (fun j => ((time.getD j 0 : ℝ) : ℂ)) k‖ ≤
          1800 * radixSum nc / 2 ^ 53 * total (2 * nc) (fun j => ((time.getD j 0 : ℝ) : ℂ)) ∧ (k = 0 ∨ k = nc → v.im = 0)) := by
  obtain ⟨q1, q2, q3, q4, q5, q6⟩ := allocF_facts nc false hfl hlib h1 h2 st.sub hst.sub
  have hn : nc ≠ 0 := by omega
  obtain ⟨x, hx⟩ : ∃ x : Nat → ℝ, x = fun j => time.getD j 0 := ⟨_, rfl⟩
  have hx' : (fun j => ((time.getD j 0 : ℝ) : ℂ)) = fun j => (x j : ℂ) := by rw [hx]
  rw [hx'] at hS ⊢
  obtain ⟨y, hy⟩ : ∃ y : Nat → ℂ, y = fun j => (⟨x (2 * j), x (2 * j + 1)⟩ : ℂ) := ⟨_, rfl⟩
  have hpk : ∀ j, j < nc → (pack time).getD j 0 = y j := by
    intro j hj; rw [hy, hx, pack_get _ _ (by omega)]
  have htp : ∑ j ∈ Finset.range nc, (‖(pack time).getD j 0‖ + 1 / 2 ^ 1022) = total nc y := total_congr hpk
  have hle : total nc y ≤ total (2 * nc) (fun j => (x j : ℂ)) := by rw [hy]; exact total_pack nc x
  obtain ⟨T, e2, e3, e4, _⟩ := fftF_ok hfl hlib nc false h1 (by omega) st.sub q1 q2 q3 (by rw [← q4]; omega) (pack time)
    st.tmpbuf (by rw [pack_length]; omega) (by rw [hst.tmp]) (by rw [htp]; exact hle.trans hS)
  rw [htp, ← q4] at e4
  obtain ⟨F, hF⟩ : ∃ F : Nat → ℂ, F = dft false nc (fun j => (⟨x (2 * j), x (2 * j + 1)⟩ : ℂ)) := ⟨_, rfl⟩
  have hFy : F = dft false nc y := by rw [hF, hy]
  obtain ⟨S, hSd⟩ : ∃ S, S = total (2 * nc) (fun j => (x j : ℂ)) := ⟨_, rfl⟩
  rw [← hSd] at hS hle ⊢
  have hS0 : 0 ≤ S := by rw [hSd]; exact total_nonneg _ _
  have hS1 : (1 : ℝ) / 2 ^ 1022 ≤ S := by
    have h3 := count_le_total (2 * nc) (fun j => (x j : ℂ))
    rw [← hSd] at h3
    have h4 : (1 : ℝ) ≤ ((2 * nc : ℕ) : ℝ) := by exact_mod_cast (by omega : 1 ≤ 2 * nc)
    have h5 : (1 : ℝ) * (1 / 2 ^ 1022) ≤ ((2 * nc : ℕ) : ℝ) * (1 / 2 ^ 1022) := mul_le_mul_of_nonneg_right h4 (by positivity)
    linarith
  have hFle : ∀ k, ‖F k‖ ≤ S := by
    intro k
    rw [hF, ← hy]
    exact ((norm_dft_le _ _ _ _).trans (sum_le_total _ _)).trans hle
  obtain ⟨R, hR⟩ : ∃ R : ℝ, R = radixSum nc := ⟨_, rfl⟩
  have hR1 : 1 ≤ R := by rw [hR]; exact_mod_cast q5
  have hR2 : 500 * R ≤ 2 ^ 44 := by rw [hR]; exact_mod_cast q6
  rw [← hR] at e4 ⊢
  obtain ⟨w, hw⟩ : ∃ w : ℝ, w = S / 2 ^ 53 := ⟨_, rfl⟩
  have hw0 : 0 ≤ w := by rw [hw]; positivity
  have hRw : 500 * R * w ≤ 0.01 * S := by
    calc 500 * R * w ≤ 2 ^ 44 * w := mul_le_mul_of_nonneg_right hR2 hw0
      _ = 1 / 2 ^ 9 * S := by rw [hw]; ring
      _ ≤ 0.01 * S := mul_le_mul_of_nonneg_right (by norm_num) hS0
  obtain ⟨g, hg⟩ : ∃ g : Nat → ℂ, g = fun k => T.getD k 0 := ⟨_, rfl⟩
  have hT : ∀ k, k < nc → T[k]? = some (g k) ∧ ‖g k - F k‖ ≤ 500 * R * w := by
    intro k hk
    obtain ⟨v, hv1, hv2⟩ := e4 k hk
    rw [dft_congr false hpk, ← hFy] at hv2
    have : g k = v := by rw [hg]; simp [List.getD, hv1]
    rw [this]
    refine ⟨hv1, hv2.trans ?_⟩
    calc 500 * R / 2 ^ 53 * total nc y ≤ 500 * R / 2 ^ 53 * S := mul_le_mul_of_nonneg_left hle (by positivity)
      _ = _ := by rw [hw]; ring
  have hgle : ∀ k, k < nc → ‖g k‖ ≤ 1.01 * S := by
    intro k hk
    have h3 := norm_add_le (g k - F k) (F k)
    rw [sub_add_cancel] at h3
    have h4 := (hT k hk).2
    have h5 := hFle k
    linarith
  have hF0 : F nc = F 0 := by
    rw [hF, dft_eq, dft_eq]
    refine Finset.sum_congr rfl fun j _ => ?_
    rw [Nat.mul_comm j nc, pow_mul, root_pow_self false hn]
    simp
  have ha : ∀ k, k ≤ nc → _ := fun k hk => unmix_a (k := k) hn hk x F hF
  have hb : ∀ k, k ≤ nc → _ := fun k hk => unmix_b (k := k) hn hk x F hF
  obtain ⟨X, hX⟩ : ∃ X : Nat → ℂ, X = dft false (2 * nc) (fun j => (x j : ℂ)) := ⟨_, rfl⟩
  rw [← hX] at ha hb ⊢
  have hX0 : X 0 = ⟨(F 0).re + (F 0).im, 0⟩ := by
    rw [← ha 0 (by omega), Nat.sub_zero, hF0]
    have : (1 / 2 : ℂ) = ((1 / 2 : ℝ) : ℂ) := by push_cast; rfl
    rw [this]
    apply Complex.ext <;> simp
    ring
  have hXn : X nc = ⟨(F 0).re - (F 0).im, 0⟩ := by
    have h := hb 0 (by omega)
    rw [Nat.sub_zero] at h
    rw [← h, hF0]
    have : (1 / 2 : ℂ) = ((1 / 2 : ℝ) : ℂ) := by push_cast; rfl
    rw [this]
    apply Complex.ext <;> simp
    ring
  have hM : Scale (5 * S) := scale_mul 5 (by norm_num) (by norm_num) hS1 hS
  have hMw : 5 * S / 2 ^ 53 = 5 * w := by rw [hw]; ring
  have hB : 1800 * R / 2 ^ 53 * S = 1800 * R * w := by rw [hw]; ring
  rw [hB]
  have hRw1 : w ≤ R * w := by
    calc w = 1 * w := (one_mul w).symm
      _ ≤ R * w := mul_le_mul_of_nonneg_right hR1 hw0
  -- bins 0 and nc
  have hends : ∀ p q : ℝ, |p - q| ≤ 1000 * R * w → |q| ≤ 2 * S → ‖(⟨fl p, 0⟩ : ℂ) - ⟨q, 0⟩‖ ≤ 1800 * R * w := by
    intro p q h3 h4
    have h5 : |p| ≤ 1 * (5 * S) := by
      have := abs_le_of_sub _ _ _ _ h3 h4
      linarith
    have h6 := rnd hfl hM p 1 (by norm_num) h5
    rw [hMw] at h6
    have h7 := abs_sub_le (fl p) p q
    have h8 : (⟨fl p, 0⟩ : ℂ) - ⟨q, 0⟩ = ((fl p - q : ℝ) : ℂ) := by apply Complex.ext <;> simp
    rw [h8, Complex.norm_real, Real.norm_eq_abs]
    linarith
  have d0 := (hT 0 (by omega)).2
  have dr := re_le _ d0
  have di := im_le _ d0
  rw [sub_re] at dr
  rw [sub_im] at di
  have fr := re_le _ (hFle 0)
  have fi := im_le _ (hFle 0)
  have hz0 : ‖(⟨fl ((g 0).re + (g 0).im), 0⟩ : ℂ) - X 0‖ ≤ 1800 * R * w := by
    rw [hX0]
    refine hends _ _ ?_ ?_
    · rw [abs_le] at *; constructor <;> linarith
    · rw [abs_le] at *; constructor <;> linarith
  have hzn : ‖(⟨fl ((g 0).re - (g 0).im), 0⟩ : ℂ) - X nc‖ ≤ 1800 * R * w := by
    rw [hXn]
    refine hends _ _ ?_ ?_
    · rw [abs_le] at *; constructor <;> linarith
    · rw [abs_le] at *; constructor <;> linarith
  have hconj : ∀ a b : ℂ, ‖(starRingEnd ℂ) a - (starRingEnd ℂ) b‖ = ‖a - b‖ := by
    intro a b; rw [← map_sub, Complex.norm_conj]
  -- the exact un-mixing step of the rounded transform
  have hmixd : ∀ k, k < nc → 0 < k → ∀ W : ℂ, ‖W‖ = 1 → ∀ s : ℂ, ‖s‖ = 1 →
      ‖(g k + (starRingEnd ℂ) (g (nc - k)) + s * ((g k - (starRingEnd ℂ) (g (nc - k))) * W)) * (1 / 2) -
        (F k + (starRingEnd ℂ) (F (nc - k)) + s * ((F k - (starRingEnd ℂ) (F (nc - k))) * W)) * (1 / 2)‖ ≤ 1000 * R * w := by
    intro k hk hk0 W hW s hs
    have h3 := (hT k hk).2
    have h4 := (hT (nc - k) (by omega)).2
    rw [← hconj] at h4
    generalize (starRingEnd ℂ) (g (nc - k)) = b at *
    generalize (starRingEnd ℂ) (F (nc - k)) = b' at *
    have e : (g k + b + s * ((g k - b) * W)) * (1 / 2) - (F k + b' + s * ((F k - b') * W)) * (1 / 2) =
        ((g k - F k) + (b - b') + s * (((g k - F k) - (b - b')) * W)) * (1 / 2) := by ring
    rw [e, norm_mul]
    have h5 : ‖s * (((g k - F k) - (b - b')) * W)‖ ≤ ‖g k - F k‖ + ‖b - b'‖ := by
      rw [norm_mul, norm_mul, hW, hs, mul_one, one_mul]; exact norm_sub_le _ _
    have h6 := norm_add_le ((g k - F k) + (b - b')) (s * (((g k - F k) - (b - b')) * W))
    have h7 := norm_add_le (g k - F k) (b - b')
    have h8 : ‖(1 / 2 : ℂ)‖ = 1 / 2 := by simp
    rw [h8]
    linarith
  obtain ⟨freq', l1, l2, l3⟩ := loop_inv (n := nc / 2) (f := fftrBodyF fl nc st.super T)
    (s := (freq.set 0 ⟨fl ((g 0).re + (g 0).im), 0⟩).set nc ⟨fl ((g 0).re - (g 0).im), 0⟩)
    (P := fun i b => b.length = freq.length ∧
      (∀ k, k ≤ nc → (k ≤ i ∨ nc ≤ k + i) → ∃ v, b[k]? = some v ∧ ‖v - X k‖ ≤ 1800 * R * w ∧ (k = 0 ∨ k = nc → v.im = 0)))
    ⟨by simp, by
      intro k hk hk'
      by_cases hkn : k = nc
      · subst hkn; exact ⟨_, set_hit (by simp; omega), hzn, fun _ => rfl⟩
      · have hk0 : k = 0 := by omega
        subst hk0
        refine ⟨_, ?_, hz0, fun _ => rfl⟩
        rw [set_miss (by omega), set_hit (by omega)]⟩
    (by
      rintro i b hi ⟨hl, hv⟩
      have g1 := (hT (i + 1) (by omega)).1
      have g2 := (hT (nc - (i + 1)) (by omega)).1
      obtain ⟨t, g3, g4⟩ := hst.super i hi
      obtain ⟨c, hc⟩ : ∃ c, c = (starRingEnd ℂ) (g (nc - (i + 1))) := ⟨_, rfl⟩
      have hab : ‖g (i + 1)‖ + ‖c‖ ≤ 2.02 * S := by
        have h3 := hgle (i + 1) (by omega)
        have h4 := hgle (nc - (i + 1)) (by omega)
        rw [hc, Complex.norm_conj]
        linarith
      obtain ⟨f1, hf1⟩ : ∃ f1, f1 = cadd fl (g (i + 1)) c := ⟨_, rfl⟩
      obtain ⟨tw, htw⟩ : ∃ tw, tw = cmul fl (csub fl (g (i + 1)) c) t := ⟨_, rfl⟩
      obtain ⟨u1, u2⟩ := unmix_near hfl hM g4 (norm_superW nc false (i + 1)) hab (by linarith) hf1 htw
      rw [hMw] at u1 u2
      have hW : superW nc false (i + 1) = -I * root false (2 * nc) ^ (i + 1) := by simp [superW]
      have v1 := hmixd (i + 1) (by omega) (by omega) (superW nc false (i + 1)) (norm_superW nc false (i + 1)) 1 (by simp)
      have v2 := hmixd (i + 1) (by omega) (by omega) (superW nc false (i + 1)) (norm_superW nc false (i + 1)) (-1) (by simp)
      simp only [one_mul, neg_mul, ← sub_eq_add_neg] at v1 v2
      rw [hW, ha (i + 1) (by omega), ← hW] at v1
      rw [← hconj, hW, hb (i + 1) (by omega), ← hW] at v2
      rw [← hc] at v1 v2
      have w1 := (norm_sub_le_norm_sub_add_norm_sub _ _ _).trans (add_le_add u1 v1)
      have w2 := (norm_sub_le_norm_sub_add_norm_sub _ _ _).trans (add_le_add u2 v2)
      refine ⟨(b.set (i + 1) ⟨fl (fl (f1.re + tw.re) * (1 / 2)), fl (fl (f1.im + tw.im) * (1 / 2))⟩).set (nc - (i + 1))
        ⟨fl (fl (f1.re - tw.re) * (1 / 2)), fl (fl (tw.im - f1.im) * (1 / 2))⟩, ?_, ?_⟩
      · simp only [fftrBodyF, g1, g2, show i + 1 - 1 = i by omega, g3, Option.bind_eq_bind, Option.bind_some, conj_mk, ← hc,
          ← hf1, ← htw]
        rw [wr_some _ (by omega)]
        simp only [Option.bind_some]
        rw [wr_some _ (by simp; omega)]
      · refine ⟨by simp [hl], ?_⟩
        intro k hk hk'
        by_cases hA : k = nc - (i + 1)
        · subst hA
          exact ⟨_, set_hit (by simp; omega), w2.trans (by linarith), fun h => by omega⟩
        · rw [set_miss (by omega)]
          by_cases hB : k = i + 1
          · subst hB
            exact ⟨_, set_hit (by omega), w1.trans (by linarith), fun h => by omega⟩
          · rw [set_miss (by omega)]
            exact hv k hk (by omega))
  refine ⟨{ st with tmpbuf := T }, freq', ?_, fun k hk => l3 k hk (by omega)⟩
  unfold fftrF
  rw [q2]
  simp only [Bool.false_eq_true, if_false, q1.nfft, e2, (hT 0 (by omega)).1, Option.bind_eq_bind, Option.bind_some]
  rw [wr_some _ (by omega)]
  simp only [Option.bind_some]
  rw [wr_some _ (by simp; omega)]
  simp only [Option.bind_some]
  rw [l1]
  rfl

end QM.FFT
