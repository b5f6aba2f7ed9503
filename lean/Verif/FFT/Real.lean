import Verif.FFT.RealMath
import Verif.Kiss.Props

namespace QM.FFT

open Complex QM.DFT QM.Kiss

theorem pack_length : ∀ l : List ℝ, (pack l).length = l.length / 2
  | [] => rfl
  | [_] => by simp [pack]
  | a :: b :: t => by simp [pack, pack_length t]; omega

theorem pack_get : ∀ (l : List ℝ) (j : Nat), j < l.length / 2 →
    (pack l).getD j 0 = ⟨l.getD (2 * j) 0, l.getD (2 * j + 1) 0⟩
  | [], j, h => by simp at h
  | [_], j, h => by simp at h
  | a :: b :: t, 0, _ => rfl
  | a :: b :: t, j + 1, h => by
    have := pack_get t j (by simp at h; omega)
    simp only [pack, List.getD_cons_succ]
    rw [this, show 2 * (j + 1) = 2 * j + 1 + 1 by ring]
    simp only [List.getD_cons_succ]

theorem unpack_length : ∀ l : List ℂ, (unpack l).length = 2 * l.length
  | [] => rfl
  | z :: t => by simp [unpack, unpack_length t]; omega

theorem unpack_get : ∀ (l : List ℂ) (j : Nat) (z : ℂ), l[j]? = some z →
    (unpack l)[2 * j]? = some z.re ∧ (unpack l)[2 * j + 1]? = some z.im
  | [], j, z, h => by simp at h
  | w :: t, 0, z, h => by simp at h; subst h; simp [unpack]
  | w :: t, j + 1, z, h => by
    have := unpack_get t j z (by simpa using h)
    rw [show 2 * (j + 1) = 2 * j + 1 + 1 by ring]
    simpa [unpack] using this

/-- What a real plan contains. -/
structure RPlanOk (st : RPlan) (nc : Nat) (inv : Bool) : Prop where
  sub : alloc nc inv = some st.sub
  nfft : st.sub.nfft = nc
  dir : st.sub.inverse = inv
  tmp : st.tmpbuf.length = nc
  super : ∀ i, i < nc / 2 → st.super[i]? = some ((if inv then I else -I) * root inv (2 * nc) ^ (i + 1))

theorem ralloc_ok (nc : Nat) (inv : Bool) (u : ℂ) (h1 : 1 ≤ nc) (h2 : nc ≤ 2147483647) :
    ∃ st, ralloc (2 * nc) inv u = some st ∧ RPlanOk st nc inv := by
  obtain ⟨sub, e1, e2, e3, e4⟩ := alloc_ok nc inv h1 h2
  obtain ⟨t, f1, f2, f3, f4⟩ := fill_ok (nc / 2) (fun i t => wr t i (kfCexp (superPhase nc inv i)))
    (fun i => kfCexp (superPhase nc inv i)) (List.replicate (nc * 3 / 2 - nc) u) (by simp; omega)
    (by intro i b hi hl _ _; rw [wr_some _ (by rw [hl]; simp; omega)])
  refine ⟨⟨sub, List.replicate nc u, t⟩, ?_, ⟨e1, e2.nfft, e3, by simp, ?_⟩⟩
  · unfold ralloc
    rw [if_neg (by omega)]
    simp only [show 2 * nc / 2 = nc by omega, e1, f1, Option.bind_eq_bind, Option.bind_some]
    rfl
  · intro i hi
    rw [f3 i hi, superTw_eq nc (by omega)]

theorem conj_mk (z : ℂ) : (⟨z.re, -z.im⟩ : ℂ) = (starRingEnd ℂ) z := by
  apply Complex.ext <;> simp

theorem conj_mk' (z : ℂ) : (⟨z.re, z.im * -1⟩ : ℂ) = (starRingEnd ℂ) z := by
  apply Complex.ext <;> simp

theorem half_a (f tw : ℂ) : (⟨(f.re + tw.re) * (1 / 2), (f.im + tw.im) * (1 / 2)⟩ : ℂ) = (f + tw) * (1 / 2) := by
  have : (1 / 2 : ℂ) = ((1 / 2 : ℝ) : ℂ) := by push_cast; rfl
  rw [this]
  apply Complex.ext <;> simp

theorem half_b (f tw : ℂ) :
    (⟨(f.re - tw.re) * (1 / 2), (tw.im - f.im) * (1 / 2)⟩ : ℂ) = (starRingEnd ℂ) ((f - tw) * (1 / 2)) := by
  have : (1 / 2 : ℂ) = ((1 / 2 : ℝ) : ℂ) := by push_cast; rfl
  rw [this]
  apply Complex.ext <;> simp <;> ring

/-- `kiss_fftr` computes bins `0 … nc` of the transform. -/
theorem fftr_ok {nc : Nat} (h1 : 1 ≤ nc) (h2 : nc ≤ 2147483647) {st : RPlan} (hst : RPlanOk st nc false)
    (time : List ℝ) (freq : List ℂ) (ht : 2 * nc ≤ time.length) (hf : nc + 1 ≤ freq.length) :
    ∃ st' freq', fftr st time freq = some (st', freq') ∧ RPlanOk st' nc false ∧ freq'.length = freq.length ∧
      (∀ k, k ≤ nc → freq'[k]? = some (dft false (2 * nc) (fun j => ((time.getD j 0 : ℝ) : ℂ)) k)) := by
  obtain ⟨sub, T, e1, e2, e3, e4, _⟩ := C22_kiss_fft nc false h1 h2 (pack time) st.tmpbuf []
    (by rw [pack_length]; omega) (by rw [hst.tmp])
  rw [hst.sub] at e1; cases e1
  have hn : nc ≠ 0 := by omega
  obtain ⟨x, hx⟩ : ∃ x : Nat → ℝ, x = fun j => time.getD j 0 := ⟨_, rfl⟩
  obtain ⟨F, hF⟩ : ∃ F : Nat → ℂ, F = dft false nc (fun j => (⟨x (2 * j), x (2 * j + 1)⟩ : ℂ)) := ⟨_, rfl⟩
  have hT : ∀ k, k < nc → T[k]? = some (F k) := by
    intro k hk
    rw [e4 k hk, hF]
    congr 1
    unfold dft
    refine Finset.sum_congr rfl fun j hj => ?_
    rw [Finset.mem_range] at hj
    simp only
    rw [pack_get _ _ (by omega), hx]
  have hF0 : F nc = F 0 := by
    rw [hF, dft_eq, dft_eq]
    refine Finset.sum_congr rfl fun j _ => ?_
    rw [Nat.mul_comm j nc, pow_mul, root_pow_self false hn]
    simp
  have ha : ∀ k, k ≤ nc → _ := fun k hk => unmix_a (k := k) hn hk x F hF
  have hb : ∀ k, k ≤ nc → _ := fun k hk => unmix_b (k := k) hn hk x F hF
  obtain ⟨X, hX⟩ : ∃ X : Nat → ℂ, X = dft false (2 * nc) (fun j => (x j : ℂ)) := ⟨_, rfl⟩
  rw [← hX] at ha hb
  -- bins 0 and nc
  have hX0 : X 0 = ⟨(F 0).re + (F 0).im, 0⟩ := by
    rw [← ha 0 (by omega), Nat.sub_zero, hF0]
    have : (1 / 2 : ℂ) = ((1 / 2 : ℝ) : ℂ) := by push_cast; rfl
    rw [this]
    apply Complex.ext <;> simp
    ring
  have hXn : X nc = ⟨(F 0).re - (F 0).im, 0⟩ := by
    have h := hb 0 (by omega)
    rw [Nat.sub_zero] at h
    rw [← h, hF0]
    have : (1 / 2 : ℂ) = ((1 / 2 : ℝ) : ℂ) := by push_cast; rfl
    rw [this]
    apply Complex.ext <;> simp
    ring
  obtain ⟨freq', l1, l2, l3⟩ := loop_inv (n := nc / 2) (f := fftrBody nc st.super T)
    (s := (freq.set 0 (X 0)).set nc (X nc))
    (P := fun i b => b.length = freq.length ∧
      (∀ k, k ≤ nc → (k ≤ i ∨ nc ≤ k + i) → b[k]? = some (X k)))
    ⟨by simp, by
      intro k hk hk'
      by_cases hkn : k = nc
      · subst hkn; rw [set_hit (by simp; omega)]
      · have hk0 : k = 0 := by omega
        subst hk0
        rw [set_miss (by omega), set_hit (by omega)]⟩
    (by
      rintro i b hi ⟨hl, hv⟩
      have g1 := hT (i + 1) (by omega)
      have g2 := hT (nc - (i + 1)) (by omega)
      have g3 := hst.super i hi
      simp only [Bool.false_eq_true, if_false] at g3
      refine ⟨(b.set (i + 1) (X (i + 1))).set (nc - (i + 1)) (X (nc - (i + 1))), ?_, by simp [hl], ?_⟩
      · simp only [fftrBody, g1, g2, show i + 1 - 1 = i by omega, g3, Option.bind_eq_bind, Option.bind_some, conj_mk]
        rw [wr_some _ (by omega)]
        simp only [Option.bind_some]
        rw [wr_some _ (by simp; omega)]
        rw [half_a, half_b, ha (i + 1) (by omega), hb (i + 1) (by omega)]
      · intro k hk hk'
        by_cases hA : k = nc - (i + 1)
        · subst hA; rw [set_hit (by simp; omega)]
        · rw [set_miss (by omega)]
          by_cases hB : k = i + 1
          · subst hB; rw [set_hit (by omega)]
          · rw [set_miss (by omega)]
            exact hv k hk (by omega))
  refine ⟨{ st with tmpbuf := T }, freq', ?_, ⟨hst.sub, hst.nfft, hst.dir, by simp only; rw [e3, hst.tmp], hst.super⟩, l2, ?_⟩
  · unfold fftr
    rw [hst.dir]
    simp only [Bool.false_eq_true, if_false, hst.nfft, e2, hT 0 (by omega), Option.bind_eq_bind, Option.bind_some]
    rw [wr_some _ (by omega)]
    simp only [Option.bind_some]
    rw [wr_some _ (by simp; omega), ← hX0, ← hXn]
    simp only [Option.bind_some]
    rw [l1]
    rfl
  · intro k hk
    rw [l3 k hk (by omega), hX, hx]

/-- `kiss_fftri` computes the (unscaled) inverse transform of the conjugate-symmetric extension of bins `0 … nc`. -/
theorem fftri_ok {nc : Nat} (h1 : 1 ≤ nc) (h2 : nc ≤ 2147483647) {st : RPlan} (hst : RPlanOk st nc true)
    (freq : List ℂ) (time : List ℝ) (ht : 2 * nc ≤ time.length) (hf : nc + 1 ≤ freq.length) :
    ∃ st' time', fftri st freq time = some (st', time') ∧ RPlanOk st' nc true ∧ time'.length = time.length ∧
      (∀ l, l < 2 * nc → ∃ v : ℝ, time'[l]? = some v ∧ (v : ℂ) = dft true (2 * nc) (herm nc (fun k => freq.getD k 0)) l) ∧
      (∀ l, 2 * nc ≤ l → time'[l]? = time[l]?) := by
  have hn : nc ≠ 0 := by omega
  obtain ⟨c, hc⟩ : ∃ c : Nat → ℂ, c = fun k => freq.getD k 0 := ⟨_, rfl⟩
  have hcf : ∀ k, k ≤ nc → freq[k]? = some (c k) := by
    intro k hk
    rw [hc]; simp [List.getElem?_eq_getElem (show k < freq.length by omega)]
  have hh : ∀ k, 0 < k → k < nc → herm nc c k = c k := by
    intro k h0 hk
    unfold herm; rw [if_neg (by omega), if_pos hk]
  have hm0 : mixed nc c 0 = ⟨(c 0).re + (c nc).re, (c 0).re - (c nc).re⟩ := by
    unfold mixed herm
    simp only [if_true, Nat.sub_zero, if_neg hn, lt_irrefl, if_false]
    apply Complex.ext <;> simp
  obtain ⟨tb, l1, l2, l3⟩ := loop_inv (n := nc / 2) (f := fftriBody nc st.super freq)
    (s := st.tmpbuf.set 0 (mixed nc c 0))
    (P := fun i b => b.length = nc ∧
      (∀ k, k < nc → (k ≤ i ∨ nc ≤ k + i) → b[k]? = some (mixed nc c k)))
    ⟨by simp [hst.tmp], by
      intro k hk hk'
      have hk0 : k = 0 := by omega
      subst hk0
      rw [set_hit (by rw [hst.tmp]; omega)]⟩
    (by
      rintro i b hi ⟨hl, hv⟩
      have g1 := hcf (i + 1) (by omega)
      have g2 := hcf (nc - (i + 1)) (by omega)
      have g3 := hst.super i hi
      simp only [if_true] at g3
      have m1 : mixed nc c (i + 1) = c (i + 1) + (starRingEnd ℂ) (c (nc - (i + 1))) +
          (c (i + 1) - (starRingEnd ℂ) (c (nc - (i + 1)))) * (I * root true (2 * nc) ^ (i + 1)) := by
        unfold mixed
        rw [hh _ (by omega) (by omega), hh _ (by omega) (by omega)]
      have m2 : mixed nc c (nc - (i + 1)) = (starRingEnd ℂ) (c (i + 1) + (starRingEnd ℂ) (c (nc - (i + 1))) -
          (c (i + 1) - (starRingEnd ℂ) (c (nc - (i + 1)))) * (I * root true (2 * nc) ^ (i + 1))) := by
        rw [mixed_b hn (by omega), hh _ (by omega) (by omega), hh _ (by omega) (by omega)]
      refine ⟨(b.set (i + 1) (mixed nc c (i + 1))).set (nc - (i + 1)) (mixed nc c (nc - (i + 1))), ?_, by simp [hl], ?_⟩
      · simp only [fftriBody, g1, g2, show i + 1 - 1 = i by omega, g3, Option.bind_eq_bind, Option.bind_some, conj_mk,
          conj_mk']
        rw [wr_some _ (by omega)]
        simp only [Option.bind_some]
        rw [wr_some _ (by simp; omega), m1, m2]
      · intro k hk hk'
        by_cases hA : k = nc - (i + 1)
        · subst hA; rw [set_hit (by simp; omega)]
        · rw [set_miss (by omega)]
          by_cases hB : k = i + 1
          · subst hB; rw [set_hit (by omega)]
          · rw [set_miss (by omega)]
            exact hv k hk (by omega))
  obtain ⟨sub, out, e1, e2, e3, e4, e5⟩ := C22_kiss_fft nc true h1 h2 tb (pack time) [] (by omega)
    (by rw [pack_length]; omega)
  rw [hst.sub] at e1; cases e1
  have hout : ∀ j, j < nc → out[j]? = some (dft true (2 * nc) (herm nc c) (2 * j) +
      I * dft true (2 * nc) (herm nc c) (2 * j + 1)) := by
    intro j hj
    rw [e4 j hj, ← dft_mixed hn]
    congr 1
    unfold dft
    refine Finset.sum_congr rfl fun k hk => ?_
    rw [Finset.mem_range] at hk
    simp [List.getD, l3 k hk (by omega)]
  have hul : (unpack out).length = 2 * (time.length / 2) := by rw [unpack_length, e3, pack_length]
  refine ⟨{ st with tmpbuf := tb }, unpack out ++ time.drop (2 * (time.length / 2)), ?_,
    ⟨hst.sub, hst.nfft, hst.dir, l2, hst.super⟩, ?_, ?_, ?_⟩
  · unfold fftri
    rw [hst.dir]
    simp only [Bool.true_eq_false, if_false, hst.nfft, hcf 0 (by omega), hcf nc (le_refl nc), Option.bind_eq_bind,
      Option.bind_some]
    rw [wr_some _ (by rw [hst.tmp]; omega), ← hm0]
    simp only [Option.bind_some]
    rw [l1]
    simp only [Option.bind_some]
    rw [e2]
    rfl
  · simp [hul]; omega
  · intro l hl
    have hreal : ∀ m, ((dft true (2 * nc) (herm nc c) m).re : ℂ) = dft true (2 * nc) (herm nc c) m := by
      intro m
      exact Complex.conj_eq_iff_re.mp (dft_herm_real hn c m)
    have him : ∀ m, (dft true (2 * nc) (herm nc c) m).im = 0 := by
      intro m
      exact Complex.conj_eq_iff_im.mp (dft_herm_real hn c m)
    refine ⟨(dft true (2 * nc) (herm nc c) l).re, ?_, by rw [hreal, hc]⟩
    rw [List.getElem?_append_left (by omega)]
    obtain ⟨u1, u2⟩ := unpack_get out (l / 2) _ (hout (l / 2) (by omega))
    rcases Nat.mod_two_eq_zero_or_one l with h | h
    · have hl2 : 2 * (l / 2) = l := by omega
      rw [hl2] at u1
      rw [u1]
      simp [him, hl2]
    · have hl2 : 2 * (l / 2) + 1 = l := by omega
      rw [hl2] at u2
      rw [u2]
      simp [him]
  · intro l hl
    by_cases hlt : l < 2 * (time.length / 2)
    · rw [List.getElem?_append_left (by omega)]
      -- beyond nc the complex view is unchanged
      have hk := e5 (l / 2) (by omega)
      have hp : (pack time)[l / 2]? = some ⟨time.getD (2 * (l / 2)) 0, time.getD (2 * (l / 2) + 1) 0⟩ := by
        have := pack_get time (l / 2) (by omega)
        rw [← this]
        have hlt' : l / 2 < (pack time).length := by rw [pack_length]; omega
        simp [List.getElem?_eq_getElem hlt']
      rw [hp] at hk
      obtain ⟨u1, u2⟩ := unpack_get out (l / 2) _ hk
      rcases Nat.mod_two_eq_zero_or_one l with h | h
      · have hl2 : 2 * (l / 2) = l := by omega
        rw [hl2] at u1
        rw [u1]
        simp [hl2, List.getElem?_eq_getElem (show l < time.length by omega)]
      · have hl2 : 2 * (l / 2) + 1 = l := by omega
        rw [hl2] at u2
        rw [u2]
        simp [hl2, List.getElem?_eq_getElem (show l < time.length by omega)]
    · rw [List.getElem?_append_right (by omega), List.getElem?_drop, hul]
      congr 1; omega

end QM.FFT
