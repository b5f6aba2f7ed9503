import Verif.Resampler.DesignLemmas

/-!
# The resampler as it is actually constructed
-/

namespace QM.Resampler

open QM.Window

theorem kaiserAt_range (n : Nat) (beta : ℝ) (i : Nat) (h : 2 ≤ n) (hi : i < n) : 0 < kaiserAt n beta i ∧ kaiserAt n beta i ≤ 1 := by
  obtain ⟨w, a1, a2, a3⟩ := kaiser_ok n beta h
  obtain ⟨w', b1, _, _, b2, _⟩ := C50_kaiser_partial n beta h
  rw [a1] at b1; cases b1
  exact b2 _ (List.mem_iff_getElem?.mpr ⟨i, a3 i hi⟩)

theorem kaiserAt_mid (n : Nat) (beta : ℝ) (h : 2 ≤ n) (ho : n % 2 = 1) : kaiserAt n beta (n / 2) = 1 := by
  obtain ⟨w, a1, a2, a3⟩ := kaiser_ok n beta h
  obtain ⟨w', b1, _, _, _, b2⟩ := C50_kaiser_partial n beta h
  rw [a1] at b1; cases b1
  have := b2 ho
  rw [a3 _ (by omega)] at this
  exact Option.some.inj this

theorem sincFn_le (x : ℝ) : |sincFn x| ≤ 1 := by
  unfold sincFn
  split_ifs with hx
  · simp
  · rw [abs_div, div_le_one (abs_pos.mpr hx)]
    exact Real.abs_sin_le_abs

/-- C66, the prototype. For any positive rates, any attenuation and any bandwidth between 0 and 2 for which the number of
taps asked for fits an `int`, the constructor designs a filter with an odd number of taps between 3 and 200001: the number
Kaiser's formula asks for, rounded up to odd, or 200001 if that is less. It is symmetric, its centre tap is 1 and no tap is larger. -/
theorem C66_prototype (S T : Nat) (snr bw : ℝ) (hS : 0 < S) (hT : 0 < T) (hb : 0 < bw) (hb2 : bw < 2)
    (hfit : wantedLength snr bw (max S T / Nat.gcd S T) ≤ intMax) :
    ∃ f sc, design S T snr bw = some (f, sc) ∧
      f.length % 2 = 1 ∧ 3 ≤ f.length ∧ f.length ≤ 200001 ∧
      (f.length = 200001 ∨ (f.length : Int) = wantedLength snr bw (max S T / Nat.gcd S T) ∨
        (f.length : Int) = wantedLength snr bw (max S T / Nat.gcd S T) + 1) ∧
      (200001 < wantedLength snr bw (max S T / Nat.gcd S T) → f.length = 200001) ∧
      (∀ i : Nat, i < f.length → f[i]? = f[f.length - 1 - i]?) ∧
      f[f.length / 2]? = some 1 ∧ (∀ v ∈ f, |v| ≤ 1) ∧
      (S ≤ T → sc = 1) ∧ (T < S → sc = (T : ℝ) / S * (1 - bw / 2)) := by
  obtain ⟨f, a1, a2, a3, a4, a5⟩ := design_ok S T snr bw hS hT hb hb2 hfit
  obtain ⟨o1, o2, o3, o4, o5⟩ := oddCapped_spec _ a4
  rw [← a3] at o1 o2 o3 o4 o5
  have hg : 0 < Nat.gcd S T := Nat.gcd_pos_of_pos_left _ hS
  have hg' : (Nat.gcd S T : ℝ) ≠ 0 := by exact_mod_cast hg.ne'
  have hodd : f.length % 2 = 1 := by omega
  refine ⟨f, _, a1, hodd, by omega, by omega, by omega, by intro h; have := o5 h; omega, ?_, ?_, ?_, ?_, ?_⟩
  · intro i hi
    rw [a5 i hi, a5 _ (by omega), kaiserAt_sym _ _ _ (by omega) hi]
    congr 2
    rw [← sincFn_neg]
    congr 1
    have : f.length - 1 - i = 2 * (f.length / 2) - i := by omega
    rw [this, Nat.cast_sub (by omega)]
    push_cast
    ring
  · rw [a5 _ (by omega), kaiserAt_mid _ _ (by omega) hodd]
    simp [sincFn]
  · intro v hv
    obtain ⟨i, hi⟩ := List.mem_iff_getElem?.mp hv
    have hin := lt_of_getElem?_some hi
    rw [a5 i hin] at hi
    cases hi
    obtain ⟨k1, k2⟩ := kaiserAt_range f.length (wantedBeta snr) i (by omega) hin
    rw [abs_mul, abs_of_pos k1]
    calc _ ≤ 1 * 1 := mul_le_mul (sincFn_le _) k2 k1.le (by norm_num)
      _ = 1 := one_mul _
  · intro h
    have : pole S T bw = ((T / Nat.gcd S T : Nat) : ℝ) := by unfold pole; rw [if_neg (by omega)]
    rw [this] at a2 ⊢
    exact div_self a2.ne'
  · intro h
    have : pole S T bw = ((S / Nat.gcd S T : Nat) : ℝ) / (1 - bw / 2) := by unfold pole; rw [if_pos h]
    rw [this, Nat.cast_div (Nat.gcd_dvd_right S T) hg', Nat.cast_div (Nat.gcd_dvd_left S T) hg']
    have : (S : ℝ) ≠ 0 := by exact_mod_cast hS.ne'
    field_simp

/-- C66, the shape of the prototype: `sin(πt/p)/(πt/p)` under a Kaiser window, `t` taps from the centre, with its first
zero `p` taps from the centre: the spacing of the samples of the lower rate, widened by the bandwidth when downsampling. -/
theorem C66_shape (S T : Nat) (snr bw : ℝ) (hS : 0 < S) (hT : 0 < T) (hb : 0 < bw) (hb2 : bw < 2)
    (hfit : wantedLength snr bw (max S T / Nat.gcd S T) ≤ intMax) :
    ∃ f sc w, design S T snr bw = some (f, sc) ∧ kaiser f.length (wantedBeta snr) = some w ∧
      ∀ i : Nat, i < f.length → ∃ v, w[i]? = some v ∧
        f[i]? = some (sincFn (((i : ℝ) - ((f.length / 2 : Nat) : ℝ)) * Real.pi /
          (if T < S then ((S / Nat.gcd S T : Nat) : ℝ) / (1 - bw / 2) else ((T / Nat.gcd S T : Nat) : ℝ))) * v) := by
  obtain ⟨f, a1, a2, a3, a4, a5⟩ := design_ok S T snr bw hS hT hb hb2 hfit
  obtain ⟨o1, -⟩ := oddCapped_spec _ a4
  obtain ⟨w, k1, k2, k3⟩ := kaiser_ok f.length (wantedBeta snr) (by omega)
  exact ⟨f, _, w, a1, k1, fun i hi => ⟨_, k3 i hi, a5 i hi⟩⟩

/-- The default quality needs at least as many taps as the higher reduced rate and fits an `int` up to six million. -/
theorem wantedLength_default (H : Nat) (hH : H ≤ 6000000) : (H : Int) ≤ wantedLength 100 0.02 H ∧ wantedLength 100 0.02 H ≤ intMax := by
  unfold wantedLength
  have h3 := Real.pi_gt_three
  have h4 := Real.pi_le_four
  rw [if_pos (by norm_num)]
  have hH0 : (0 : ℝ) ≤ H := Nat.cast_nonneg _
  have hH' : (H : ℝ) ≤ 6000000 := by exact_mod_cast hH
  constructor
  · have : (H : ℝ) ≤ (100 - 7.95) / 2.285 * H / (2 * Real.pi * 0.02) := by
      rw [le_div_iff₀ (by positivity)]
      have : (H : ℝ) * (2 * Real.pi * 0.02) ≤ H * (2 * 4 * 0.02) := by
        apply mul_le_mul_of_nonneg_left _ hH0; linarith
      norm_num at this ⊢
      linarith
    have := this.trans (Int.le_ceil _)
    have : (H : Int) ≤ ⌈(100 - 7.95) / 2.285 * (H : ℝ) / (2 * Real.pi * 0.02)⌉ := by exact_mod_cast this
    omega
  · have : (100 - 7.95) / 2.285 * (H : ℝ) / (2 * Real.pi * 0.02) ≤ ((2147483646 : Int) : ℝ) := by
      rw [div_le_iff₀ (by positivity)]
      norm_num
      nlinarith
    have := Int.ceil_le.mpr this
    unfold intMax
    omega

/-- Shared by the default-quality theorems: whenever the reduced source rate is at most 200001 and the reduced rates at most
six million, the default constructor gets a prototype that the delivery theorems cover. -/
theorem default_design (S T : Nat) (hS : 0 < S) (hT : 0 < T) (h1 : S / Nat.gcd S T ≤ 200001) (h2 : T / Nat.gcd S T ≤ 6000000) :
    ∃ f sc, design S T 100 0.02 = some (f, sc) ∧ S / Nat.gcd S T ≤ f.length := by
  have hmax : max S T / Nat.gcd S T ≤ 6000000 := by
    rcases le_total S T with h | h
    · rw [max_eq_right h]; omega
    · rw [max_eq_left h]; omega
  obtain ⟨w1, w2⟩ := wantedLength_default _ hmax
  obtain ⟨f, sc, a1, a2, a3, a4, a5, a6, -⟩ := C66_prototype S T 100 0.02 hS hT (by norm_num) (by norm_num) w2
  refine ⟨f, sc, a1, ?_⟩
  have : S / Nat.gcd S T ≤ max S T / Nat.gcd S T := Nat.div_le_div_right (le_max_left _ _)
  omega

/-- C66, the default resampler always works. For all rates whose reduced source rate is at most 200001 (and reduced target rate
at most six million), a default-quality resampler can be constructed, and no sequence of `process` calls on it throws
or leaves its memory; each call delivers at most `ceil(n * target / source)` samples, and the total is always
`ceil(total * target / source)` or one more. -/
theorem C66_default_delivery (S T : Nat) (hS : 0 < S) (hT : 0 < T) (h1 : S / Nat.gcd S T ≤ 200001) (h2 : T / Nat.gcd S T ≤ 6000000)
    (blocks : List (List ℝ)) (b : List ℝ) :
    ∃ r r1 r2 outs out, makeDefault S T = some r ∧ feed r blocks = .ok (r1, outs) ∧
      process r1 b = .ok (r2, out) ∧
      out.length ≤ cdiv (b.length * T) S ∧
      cdiv ((blocks.flatten ++ b).length * T) S ≤ (outs.flatten ++ out).length ∧
      (outs.flatten ++ out).length ≤ cdiv ((blocks.flatten ++ b).length * T) S + 1 := by
  obtain ⟨f, sc, a, hL⟩ := default_design S T hS hT h1 h2
  obtain ⟨r, r1, r2, outs, out, b1, b2, b3, b4, b5, b6, _⟩ := C17_delivery S T hS hT f sc hL blocks b
  refine ⟨r, r1, r2, outs, out, ?_, b2, b3, b4, b5, b6⟩
  unfold makeDefault make
  rw [bind_ok a]
  exact b1

/-- C66: the stream a default resampler delivers does not depend on how the input is cut into blocks. -/
theorem C66_default_chunks (S T : Nat) (hS : 0 < S) (hT : 0 < T) (h1 : S / Nat.gcd S T ≤ 200001) (h2 : T / Nat.gcd S T ≤ 6000000)
    (b1 b2 : List (List ℝ)) (hb : b1.flatten = b2.flatten) :
    ∃ r r1 r2 o1 o2, makeDefault S T = some r ∧ feed r b1 = .ok (r1, o1) ∧ feed r b2 = .ok (r2, o2) ∧
      (o1.flatten <+: o2.flatten ∨ o2.flatten <+: o1.flatten) := by
  obtain ⟨f, sc, a, hL⟩ := default_design S T hS hT h1 h2
  obtain ⟨r, r1, r2, o1, o2, c1, c2, c3, c4⟩ := C15_chunk_independence S T hS hT f sc hL b1 b2 hb
  refine ⟨r, r1, r2, o1, o2, ?_, c2, c3, c4⟩
  unfold makeDefault make
  rw [bind_ok a]
  exact c1

/-- Under the prototype of an upsampler, centred on an input sample, all other input samples meet zeros. -/
theorem tap_grid (S T : Nat) (snr bw : ℝ) (hS : 0 < S) (hST : S ≤ T) (hb : 0 < bw) (hb2 : bw < 2)
    (hfit : wantedLength snr bw (max S T / Nat.gcd S T) ≤ intMax) :
    ∃ f, design S T snr bw = some (f, 1) ∧
      ∀ k : Int, tap f ((f.length / 2 : Nat) + k * (T / Nat.gcd S T : Nat)) = if k = 0 then 1 else 0 := by
  obtain ⟨f, a1, a2, a3, a4, a5⟩ := design_ok S T snr bw hS (by omega) hb hb2 hfit
  obtain ⟨o1, o2, -⟩ := oddCapped_spec _ a4
  rw [← a3] at o1 o2
  have hpole : pole S T bw = ((T / Nat.gcd S T : Nat) : ℝ) := by unfold pole; rw [if_neg (by omega)]
  rw [hpole] at a1 a2 a5
  rw [div_self a2.ne'] at a1
  refine ⟨f, a1, fun k => ?_⟩
  by_cases hk : k = 0
  · subst hk
    rw [if_pos rfl, zero_mul, add_zero]
    unfold tap
    rw [if_pos (by omega), Int.toNat_natCast, List.getD_eq_getElem?_getD, a5 _ (by omega), kaiserAt_mid _ _ (by omega) (by omega)]
    simp [sincFn]
  · rw [if_neg hk]
    by_cases h0 : ((f.length / 2 : Nat) : Int) + k * (T / Nat.gcd S T : Nat) < 0
    · exact tap_neg _ _ h0
    · by_cases h1 : (f.length : Int) ≤ ((f.length / 2 : Nat) : Int) + k * (T / Nat.gcd S T : Nat)
      · exact tap_ge _ _ h1
      · obtain ⟨t, ht⟩ := Int.eq_ofNat_of_zero_le (not_lt.mp h0)
        rw [ht]
        unfold tap
        rw [if_pos (by omega), Int.toNat_natCast, List.getD_eq_getElem?_getD, a5 t (by omega)]
        have e : ((t : ℝ) - ((f.length / 2 : Nat) : ℝ)) * Real.pi / ((T / Nat.gcd S T : Nat) : ℝ) = (k : ℝ) * Real.pi := by
          have : (t : ℝ) = ((f.length / 2 : Nat) : ℝ) + (k : ℝ) * ((T / Nat.gcd S T : Nat) : ℝ) := by
            have := congrArg (Int.cast : ℤ → ℝ) ht
            simp only [Int.cast_add, Int.cast_mul, Int.cast_natCast] at this
            exact this.symm
          rw [this]
          field_simp
          ring
        rw [e, sincFn_pi, if_neg hk]
        simp

theorem outAt_grid (I O : Nat) (f : List ℝ) (x : Nat → ℝ) (bound m : Nat) (j : Int)
    (hf : ∀ k : Int, tap f ((f.length / 2 : Nat) + k * I) = if k = 0 then 1 else 0) (hj : j * O = m * I) (hm : m < bound) :
    outAt I O f 1 x bound j = x m := by
  unfold outAt
  rw [one_mul, Finset.sum_eq_single m]
  · have := hf 0
    rw [if_pos rfl, zero_mul, add_zero] at this
    rw [hj, add_sub_cancel_right, this, mul_one]
  · intro b _ hb
    have := hf ((b : Int) - m)
    rw [if_neg (by omega)] at this
    rw [hj, show ((f.length / 2 : Nat) : Int) + (b : Int) * I - m * I = (f.length / 2 : Nat) + ((b : Int) - m) * I by ring, this, mul_zero]
  · intro h
    exact absurd (Finset.mem_range.mpr hm) h

/-- C66, upsampling keeps the original samples. When the target rate is not lower than the source rate, every output sample of the
one-off resampler that falls at the time of an input sample (`i / target = m / source`) is exactly that input sample. -/
theorem C66_original_samples (S T : Nat) (hS : 0 < S) (hST : S ≤ T) (h2 : T / Nat.gcd S T ≤ 6000000)
    (h1 : S / Nat.gcd S T ≤ 200001) (data : List ℝ) :
    ∃ out, resampleDefault S T data = .ok out ∧ out.length = cdiv (data.length * T) S ∧
      ∀ i m : Nat, m < data.length → i * S = m * T → out[i]? = data[m]? := by
  have hT : 0 < T := by omega
  have hg : 0 < Nat.gcd S T := Nat.gcd_pos_of_pos_left _ hS
  have hfit := (wantedLength_default (max S T / Nat.gcd S T) (by rw [max_eq_right hST]; exact h2)).2
  obtain ⟨f, a1, a2⟩ := tap_grid S T 100 0.02 hS hST (by norm_num) (by norm_num) hfit
  obtain ⟨f', sc, b1, hL⟩ := default_design S T hS hT h1 h2
  rw [a1] at b1; cases b1
  obtain ⟨out, c1, c2, c3⟩ := C55_one_off S T hS hT f 1 hL data
  refine ⟨out, ?_, c2, ?_⟩
  · unfold resampleDefault; rw [a1]; exact c1
  · intro i m hm him
    have hi : i < out.length := by
      rw [c2]
      by_contra hlt
      have e : cdiv (data.length * T) S ≤ i := by omega
      rw [cdiv_le_iff hS, him] at e
      have : m * T < data.length * T := Nat.mul_lt_mul_of_pos_right hm hT
      omega
    have hgrid : i * (S / Nat.gcd S T) = m * (T / Nat.gcd S T) := by
      apply Nat.eq_of_mul_eq_mul_right hg
      rw [Nat.mul_assoc, Nat.mul_assoc, Nat.div_mul_cancel (Nat.gcd_dvd_left S T), Nat.div_mul_cancel (Nat.gcd_dvd_right S T), him]
    rw [c3 i hi, outAt_grid _ _ f _ _ m _ a2 (by exact_mod_cast hgrid) hm]
    rw [List.getD_eq_getElem?_getD, List.getElem?_eq_getElem hm]
    rfl

/-- C66: the same for a stream. Latency compensated, the samples of the stream at the times of the input samples are
the input samples, whatever the blocks. -/
theorem C66_stream_original (S T : Nat) (hS : 0 < S) (hST : S ≤ T) (h2 : T / Nat.gcd S T ≤ 6000000)
    (h1 : S / Nat.gcd S T ≤ 200001) (blocks : List (List ℝ)) :
    ∃ r r' outs, makeDefault S T = some r ∧ feed r blocks = .ok (r', outs) ∧
      ∀ i m : Nat, i * S = m * T → m < blocks.flatten.length → r.latency + i < outs.flatten.length →
        outs.flatten[r.latency + i]? = blocks.flatten[m]? := by
  have hT : 0 < T := by omega
  have hg : 0 < Nat.gcd S T := Nat.gcd_pos_of_pos_left _ hS
  have hfit := (wantedLength_default (max S T / Nat.gcd S T) (by rw [max_eq_right hST]; exact h2)).2
  obtain ⟨f, a1, a2⟩ := tap_grid S T 100 0.02 hS hST (by norm_num) (by norm_num) hfit
  obtain ⟨f', sc, b1, hL⟩ := default_design S T hS hT h1 h2
  rw [a1] at b1; cases b1
  obtain ⟨r, r', outs, c1, c2, c3⟩ := C16_polyphase_stream S T hS hT f 1 hL (fun i => blocks.flatten.getD i 0) blocks (by
    intro i hi
    rw [List.getD_eq_getElem?_getD, List.getElem?_eq_getElem hi]; rfl)
  refine ⟨r, r', outs, ?_, c2, ?_⟩
  · unfold makeDefault make; rw [bind_ok a1]; exact c1
  · intro i m him hm hlt
    have hgrid : i * (S / Nat.gcd S T) = m * (T / Nat.gcd S T) := by
      apply Nat.eq_of_mul_eq_mul_right hg
      rw [Nat.mul_assoc, Nat.mul_assoc, Nat.div_mul_cancel (Nat.gcd_dvd_left S T), Nat.div_mul_cancel (Nat.gcd_dvd_right S T), him]
    have hI : 0 < T / Nat.gcd S T := Nat.div_pos (Nat.le_of_dvd hT (Nat.gcd_dvd_right _ _)) hg
    have hmb : m < (r.latency + i) * (S / Nat.gcd S T) + f.length := by
      have : m * 1 ≤ m * (T / Nat.gcd S T) := Nat.mul_le_mul_left _ hI
      have hf : 0 < f.length := by
        have hO : 0 < S / Nat.gcd S T := Nat.div_pos (Nat.le_of_dvd hS (Nat.gcd_dvd_left _ _)) hg
        omega
      rw [Nat.add_mul]
      omega
    rw [c3]
    rw [List.getElem?_map, List.getElem?_range hlt]
    simp only [Option.map_some]
    unfold streamAt
    rw [outAt_grid _ _ f _ _ m _ a2 (by
      have : ((r.latency + i : Nat) : Int) - r.latency = i := by push_cast; ring
      rw [this]; exact_mod_cast hgrid) hmb]
    rw [List.getD_eq_getElem?_getD, List.getElem?_eq_getElem hm]
    rfl

/-- C66: resampling to the same rate returns the data unchanged. -/
theorem C66_identity (S : Nat) (hS : 0 < S) (data : List ℝ) : resampleDefault S S data = .ok data := by
  obtain ⟨out, a1, a2, a3⟩ := C66_original_samples S S hS le_rfl (by rw [Nat.gcd_self, Nat.div_self hS]; norm_num)
    (by rw [Nat.gcd_self, Nat.div_self hS]; norm_num) data
  have hl : out.length = data.length := by
    rw [a2]
    have h1 := (cdiv_le_iff (a := data.length * S) (k := data.length) hS).2 le_rfl
    have h2 := (cdiv_le_iff (a := data.length * S) hS).1 le_rfl
    have := Nat.le_of_mul_le_mul_right h2 hS
    omega
  rw [a1]
  congr 1
  apply List.ext_getElem?
  intro i
  by_cases hi : i < data.length
  · exact a3 i i hi rfl
  · rw [List.getElem?_eq_none (by omega), List.getElem?_eq_none (by omega)]

/-- Ordinary rates are covered: 44100 to 48000 Hz, where every 160th output sample is every 147th input sample. -/
example : 0 < 44100 ∧ 44100 ≤ 48000 ∧ 44100 / Nat.gcd 44100 48000 ≤ 200001 ∧ 48000 / Nat.gcd 44100 48000 ≤ 6000000 ∧
    160 * 44100 = 147 * 48000 := by decide +kernel

example (data : List ℝ) (h : 147 < data.length) : ∃ out, resampleDefault 44100 48000 data = .ok out ∧ out[160]? = data[147]? := by
  obtain ⟨out, a, _, c⟩ := C66_original_samples 44100 48000 (by norm_num) (by norm_num) (by decide +kernel) (by decide +kernel) data
  exact ⟨out, a, c 160 147 h (by norm_num)⟩

example : ∃ f sc, design 48000 44100 100 0.02 = some (f, sc) ∧ f[f.length / 2]? = some 1 := by
  obtain ⟨f, sc, a, _, _, _, _, _, _, b, _⟩ := C66_prototype 48000 44100 100 0.02 (by norm_num) (by norm_num) (by norm_num) (by norm_num)
    (wantedLength_default _ (by decide +kernel)).2
  exact ⟨f, sc, a, b⟩

end QM.Resampler
