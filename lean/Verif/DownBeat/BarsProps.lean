import Verif.DownBeat.Bars

/-! # C101: downbeats are found where the sound changes -/

namespace QM.DownBeat

open Finset QM.DFT QM.MathReal _root_.Filter Topology

section
variable {rate : ℝ} {factor increment n : Nat} {junk : Nat → ℝ}

/-- **C101** If every change of spectrum into a beat at a bar line (beats `d`, `d + ts`, … for bars of `ts` beats) exceeds every change into the
other beats, and there is one, then the downbeats found are exactly the beats at the bar lines: after any history, for any audio and any beats. -/
theorem C101_margin (hn : FrameSize rate factor n) (hd : Documented factor increment) {s : Obj} {ops : List (Op ℝ)} {bpb : Int}
    (h : Reach rate factor increment n junk s ops bpb) (audio beats : List ℝ) (ha : audio ≠ []) (hb : ∀ b ∈ beats, 0 ≤ b)
    {ts d : Nat} (hts : (ts : Int) = if bpb = 0 then 4 else bpb) (hbpb : 0 ≤ bpb) (hdts : d < ts) (c : ℝ) (hc : 0 ≤ c)
    (hin : ∀ k, 0 < k → k + 1 < beats.length → k % ts ≠ d → change (reference bpb factor increment n) audio beats k ≤ c)
    (hat : ∀ k, 0 < k → k + 1 < beats.length → k % ts = d → c < change (reference bpb factor increment n) audio beats k)
    (hone : ∃ k, 0 < k ∧ k + 1 < beats.length ∧ k % ts = d) :
    ∃ s', s.find audio beats [] = some (s', (List.range beats.length).filter (fun k => k % ts = d)) := by
  obtain ⟨s', db, e, _, c1, c2, _, ts', d', t1, t2, t3, t4, t5, _⟩ := C74_downbeats hn hd h audio beats ha hb hbpb []
  obtain rfl : ts' = ts := by have := t1.trans hts.symm; omega
  have hpos : ∀ {e k}, k ∈ positions s'.sd.length ts' e ↔ 0 < k ∧ k + 1 < beats.length ∧ k % ts' = e := by
    intro e k
    unfold positions
    rw [mem_filter, mem_range, c2]
    omega
  have hv : ∀ {e k}, k ∈ positions s'.sd.length ts' e → s'.sd.getD (k - 1) 0 = change (reference bpb factor increment n) audio beats k := by
    intro e k hk
    obtain ⟨k1, k2, k3⟩ := hpos.mp hk
    rw [change_of_areChanges c1 (by omega), Nat.sub_add_cancel k1]
  obtain rfl : d' = d := by
    by_contra hne
    have h1 : meanChange s'.sd ts' d' ≤ c := mean_le hc (fun k hk => by
      obtain ⟨k1, k2, k3⟩ := hpos.mp hk
      rw [hv hk]
      exact hin k k1 k2 (by omega))
    obtain ⟨k, hk⟩ := hone
    have h2 : c < meanChange s'.sd ts' d := lt_mean ⟨k, hpos.mpr hk⟩ (fun k hk => by
      obtain ⟨k1, k2, k3⟩ := hpos.mp hk
      rw [hv hk]
      exact hat k k1 k2 k3)
    exact absurd (t5 d hdts) (not_le.mpr (lt_of_le_of_lt h1 h2))
  exact ⟨s', by rw [e, List.nil_append, sorted_eq t3 t4]⟩

/-- **C101** Music that stays the same within its bars: if the beats of a bar have the same samples, and at one bar line at least the spectrum has
another shape than before, the downbeats found are exactly the beats at the bar lines. -/
theorem C101_bars (hn : FrameSize rate factor n) (hd : Documented factor increment) {s : Obj} {ops : List (Op ℝ)} {bpb : Int}
    (h : Reach rate factor increment n junk s ops bpb) (audio beats : List ℝ) (ha : audio ≠ []) (hb : ∀ b ∈ beats, 0 ≤ b)
    {ts d : Nat} (hts : (ts : Int) = if bpb = 0 then 4 else bpb) (hbpb : 0 ≤ bpb) (hdts : d < ts)
    (hsame : ∀ k, 0 < k → k + 1 < beats.length → k % ts ≠ d → SameSound (reference bpb factor increment n) audio beats (k - 1) k)
    (hone : ∃ k, 0 < k ∧ k + 1 < beats.length ∧ k % ts = d ∧ Differ (reference bpb factor increment n) audio beats (k - 1) k) :
    ∃ s', s.find audio beats [] = some (s', (List.range beats.length).filter (fun k => k % ts = d)) := by
  obtain ⟨s', db, e, _, c1, c2, c3, ts', d', t1, t2, t3, t4, t5, _⟩ := C74_downbeats hn hd h audio beats ha hb hbpb []
  obtain rfl : ts' = ts := by have := t1.trans hts.symm; omega
  have hpos : ∀ {e k}, k ∈ positions s'.sd.length ts' e ↔ 0 < k ∧ k + 1 < beats.length ∧ k % ts' = e := by
    intro e k
    unfold positions
    rw [mem_filter, mem_range, c2]
    omega
  have hv : ∀ {e k}, k ∈ positions s'.sd.length ts' e → s'.sd.getD (k - 1) 0 = change (reference bpb factor increment n) audio beats k := by
    intro e k hk
    obtain ⟨k1, k2, k3⟩ := hpos.mp hk
    rw [change_of_areChanges c1 (by omega), Nat.sub_add_cancel k1]
  obtain rfl : d' = d := by
    by_contra hne
    have h1 : meanChange s'.sd ts' d' ≤ 0 := mean_le le_rfl (fun k hk => by
      obtain ⟨k1, k2, k3⟩ := hpos.mp hk
      rw [hv hk]
      refine (((change_range audio beats k).2).mpr ?_).le
      rintro ⟨t, _, ht⟩
      exact ht (by unfold shape; rw [spectrum_same (hsame k k1 k2 (by omega))]))
    obtain ⟨k, k1, k2, k3, k4⟩ := hone
    have hm := hpos.mpr ⟨k1, k2, k3⟩
    have h2 : 0 < meanChange s'.sd ts' d := mean_pos hm (fun v hv => (c3 v hv).1) (by
      rw [hv hm]
      exact lt_of_le_of_ne (change_range audio beats k).1 (fun h => (((change_range audio beats k).2).mp h.symm) k4))
    exact absurd (t5 d hdts) (not_le.mpr (lt_of_le_of_lt h1 h2))
  exact ⟨s', by rw [e, List.nil_append, sorted_eq t3 t4]⟩

/-- **C101** The level of the audio enters only through the constant 2.2204e-16 added to the spectra: audio multiplied by any `g` other than 0 has the
downbeats, and the spectral changes, that the audio itself has with this constant divided by |g|.

Full statement: those of the audio itself. That is so for the inverted audio (`C101_polarity`), but not for every `g` (`C101_level_violation`). -/
theorem C101_level_partial (hn : FrameSize rate factor n) (hd : Documented factor increment) {s : Obj} {ops : List (Op ℝ)} {bpb : Int}
    (h : Reach rate factor increment n junk s ops bpb) (audio beats : List ℝ) (ha : audio ≠ []) (hb : ∀ b ∈ beats, 0 ≤ b) (hbpb : 0 ≤ bpb)
    (g : ℝ) (hg : g ≠ 0) :
    ∃ s' db, s.find (audio.map (g * ·)) beats [] = some (s', db) ∧
      findDownBeats ((reference bpb factor increment n).withEps (2.2204e-16 / |g|)) s.frame audio beats = some (db, s'.sd) := by
  have ok := reach_run hn hd h
  obtain ⟨s', db, sd, e, rfl, _, e2⟩ := find_ok hn ok (audio.map (g * ·)) beats hb hbpb []
  refine ⟨s', db, e, ?_⟩
  rw [← e2]
  symm
  refine find_eq s.frame (audio.map (g * ·)) audio beats (by simpa using ha) ha hb ok.frame reference_ok.1 reference_ok.2 ok.frame ?_ ?_ rfl
    (fun k => change_scale hg audio beats k)
  · exact fun f => (reference_ok (bpb := bpb) (factor := factor) (increment := increment) (n := n)).1 f
  · show (0 : ℝ) < 2.2204e-16 / |g|
    have := abs_pos.mpr hg
    positivity

/-- **C101** Inverted audio has the same downbeats and the same spectral changes. -/
theorem C101_polarity (hn : FrameSize rate factor n) (hd : Documented factor increment) {s : Obj} {ops : List (Op ℝ)} {bpb : Int}
    (h : Reach rate factor increment n junk s ops bpb) (audio beats : List ℝ) (ha : audio ≠ []) (hb : ∀ b ∈ beats, 0 ≤ b) (hbpb : 0 ≤ bpb) :
    ∃ s' s'' db, s.find audio beats [] = some (s', db) ∧ s.find (audio.map (fun x => -x)) beats [] = some (s'', db) ∧ s''.sd = s'.sd := by
  have ok := reach_run hn hd h
  obtain ⟨s', db, sd, e, rfl, _, e2⟩ := find_ok hn ok audio beats hb hbpb []
  obtain ⟨s'', db', f1, f2⟩ := C101_level_partial hn hd h audio beats ha hb hbpb (-1) (by norm_num)
  have hp : (reference bpb factor increment n).withEps (2.2204e-16 / |(-1 : ℝ)|) = reference bpb factor increment n := by
    unfold Finder.withEps reference
    norm_num
  rw [hp, e2] at f2
  obtain ⟨rfl, hsd⟩ := Prod.mk.inj (Option.some.inj f2)
  have hm : audio.map (fun x => -x) = audio.map ((-1 : ℝ) * ·) := List.map_congr_left (fun x _ => by ring)
  exact ⟨s', s'', db, e, by rw [hm]; exact f1, hsd.symm⟩

/-- **C101** As the audio gets quieter every spectral change tends to zero. -/
theorem C101_quiet (bpb : Int) (audio beats : List ℝ) (k : Nat) :
    Tendsto (fun g : ℝ => change (reference bpb factor increment n) (audio.map (g * ·)) beats k) (𝓝[>] 0) (𝓝 0) := by
  obtain ⟨o, o1, _⟩ := spectra (bpb := bpb) (factor := factor) (increment := increment) (n := n) audio beats (k - 1)
  obtain ⟨w, w1, _⟩ := spectra (bpb := bpb) (factor := factor) (increment := increment) (n := n) audio beats k
  refine Tendsto.congr' ?_ ((divergence_tendsto (eps := (reference bpb factor increment n).eps) reference_ok.2 o w).mono_left nhdsWithin_le_nhds)
  filter_upwards [self_mem_nhdsWithin] with g hg
  unfold change
  rw [spectrumOf_scale, spectrumOf_scale, o1, w1, abs_of_pos hg]
  rfl

/-- **C101** The level is not without effect: whenever some spectral change is not zero, there is a gain that changes it. -/
theorem C101_level_violation (hn : FrameSize rate factor n) (hd : Documented factor increment) {s : Obj} {ops : List (Op ℝ)} {bpb : Int}
    (h : Reach rate factor increment n junk s ops bpb) (audio beats : List ℝ) (ha : audio ≠ []) (hb : ∀ b ∈ beats, 0 ≤ b) (hbpb : 0 ≤ bpb)
    {k : Nat} (hk0 : 0 < k) (hk : k + 1 < beats.length) (hdiff : Differ (reference bpb factor increment n) audio beats (k - 1) k) :
    ∃ g s' s'' db db', 0 < g ∧ s.find audio beats [] = some (s', db) ∧ s.find (audio.map (g * ·)) beats [] = some (s'', db') ∧ s''.sd ≠ s'.sd := by
  have hc : 0 < change (reference bpb factor increment n) audio beats k :=
    lt_of_le_of_ne (change_range audio beats k).1 (fun h => (((change_range audio beats k).2).mp h.symm) hdiff)
  obtain ⟨g, hg1, hg2⟩ := (((C101_quiet bpb audio beats k).eventually (gt_mem_nhds hc)).and self_mem_nhdsWithin).exists
  obtain ⟨s', db, e, _, c1, c2, _⟩ := C74_downbeats hn hd h audio beats ha hb hbpb []
  obtain ⟨s'', db', e', _, c1', c2', _⟩ := C74_downbeats hn hd h (audio.map (g * ·)) beats (by simpa using ha) hb hbpb []
  refine ⟨g, s', s'', _, _, hg2, e, e', fun hEq => ?_⟩
  have a := change_of_areChanges c1 (k := k - 1) (by omega)
  have b := change_of_areChanges c1' (k := k - 1) (by omega)
  rw [Nat.sub_add_cancel hk0] at a b
  rw [hEq, a] at b
  exact absurd hg1 (by rw [b]; exact lt_irrefl _)

end

/-! A concrete case: 10 samples per second, beats of 4 samples, bars of two beats. Beats 1 and 2 hold a pulse, beats 0 and 3 are silent, so the bar
lines are at beats 1 and 3. -/

def pulses : List ℝ := [0, 0, 0, 0, 0, 2, 0, 2, 0, 2, 0, 2, 0, 0, 0, 0, 0]

def five : List ℝ := [0, 1, 2, 3, 4]

theorem five_get {k : Nat} (hk : k < 5) : five.getD k 0 = k := by
  unfold five
  interval_cases k <;> norm_num

theorem five_start {k : Nat} (hk : k < 5) : startOf (reference 2 1 4 16) (five.getD k 0) = 4 * k := by
  unfold startOf
  show ⌊five.getD k 0 * ((4 : Nat) : ℝ) / ((1 : Nat) : ℝ)⌋.toNat = 4 * k
  rw [five_get hk, show (k : ℝ) * ((4 : Nat) : ℝ) / ((1 : Nat) : ℝ) = ((4 * k : Nat) : ℝ) by push_cast; ring, Int.floor_natCast, Int.toNat_natCast]

theorem five_length {k : Nat} (hk : k < 4) : beatLength (reference 2 1 4 16) pulses.length five k = 4 := by
  unfold beatLength stopOf
  rw [five_start (by omega), five_start (by omega)]
  have : pulses.length = 17 := rfl
  omega

theorem silent_shape : shape (reference 2 1 4 16) pulses five 0 0 = 1 / 2 := by
  have hs : spectrumOf (reference 2 1 4 16) pulses five 0 = some (List.replicate 8 0) := by
    show adaptiveThreshold (spectrumMag 16 (beatFrame (reference 2 1 4 16) pulses (startOf (reference 2 1 4 16) (five.getD 0 0)) (beatLength (reference 2 1 4 16) pulses.length five 0))) = _
    rw [five_start (by omega), five_length (by omega)]
    have hf : beatFrame (reference 2 1 4 16) pulses (4 * 0) 4 = List.replicate 16 0 := by
      refine List.ext_getElem (by simp [beatFrame, reference]) (fun i h1 h2 => ?_)
      simp only [beatFrame, List.getElem_map, List.getElem_range, List.getElem_replicate]
      split_ifs with h
      · have : pulses.getD (4 * 0 + i) 0 = 0 := by unfold pulses; interval_cases i <;> rfl
        rw [this, zero_mul]
      · rfl
    have hm : spectrumMag 16 (List.replicate 16 0) = List.replicate 8 0 := by
      refine List.ext_getElem (by simp [spectrumMag]) (fun i h1 h2 => ?_)
      simp only [spectrumMag, List.getElem_map, List.getElem_range, List.getElem_replicate]
      have : (fun j => (((List.replicate 16 (0 : ℝ)).getD j 0 : ℝ) : ℂ)) = fun _ => 0 := by
        funext j
        rw [List.getD_eq_getElem?_getD, List.getElem?_replicate]
        split_ifs <;> simp
      rw [this]
      simp [dft]
    rw [hf, hm]
    obtain ⟨a, a1, a2, a3⟩ := C07_adaptiveThreshold (List.replicate 8 (0 : ℝ))
    rw [a1, Option.some.injEq]
    refine List.ext_getElem? (fun i => ?_)
    by_cases hi : i < 8
    · rw [a3 i (by simpa using hi)]
      rw [List.getElem_replicate, List.getElem?_replicate_of_lt hi]
      have : localMean (List.replicate 8 (0 : ℝ)) i = 0 := by
        unfold localMean
        dsimp only
        rw [List.drop_replicate, List.take_replicate, List.sum_replicate, smul_zero, zero_div]
      rw [this]
      simp
    · rw [List.getElem?_eq_none (by rw [a2]; simpa using hi), List.getElem?_eq_none (by simpa using hi)]
  unfold shape normalised
  rw [hs]
  show ((List.replicate 8 (0 : ℝ)).getD 0 0 + 2.2204e-16) / ∑ j ∈ range 2, ((List.replicate 8 (0 : ℝ)).getD j 0 + 2.2204e-16) = 1 / 2
  norm_num [sum_range_succ, List.replicate]

theorem hann_odd {j : Nat} (hj : j = 1 ∨ j = 3) : (reference 2 1 4 16).hann j 4 = 1 / 2 := by
  show (0.5 : ℝ) * (1 - Real.cos (2 * Real.pi * ((j : ℝ) / ((4 : Nat) : ℝ)))) = 1 / 2
  have : Real.cos (2 * Real.pi * ((j : ℝ) / ((4 : Nat) : ℝ))) = 0 := by
    rcases hj with rfl | rfl
    · rw [show 2 * Real.pi * (((1 : Nat) : ℝ) / ((4 : Nat) : ℝ)) = Real.pi / 2 by push_cast; ring, Real.cos_pi_div_two]
    · rw [show 2 * Real.pi * (((3 : Nat) : ℝ) / ((4 : Nat) : ℝ)) = Real.pi / 2 + Real.pi by push_cast; ring, Real.cos_add_pi, Real.cos_pi_div_two, neg_zero]
  rw [this]
  norm_num

theorem pulse_mag (k : Nat) : ‖dft false 16 (fun j => (((beatFrame (reference 2 1 4 16) pulses (4 * 1) 4).getD j 0 : ℝ) : ℂ)) k‖ =
    ‖(1 : ℂ) + Complex.exp ((-(2 * Real.pi * k / 8) : ℝ) * Complex.I)‖ := by
  have hv : ∀ j, j < 16 → (beatFrame (reference 2 1 4 16) pulses (4 * 1) 4).getD j 0 = if j = 1 ∨ j = 3 then 1 else 0 := by
    intro j hj
    have hlen : j < (beatFrame (reference 2 1 4 16) pulses (4 * 1) 4).length := by simpa [beatFrame, reference] using hj
    rw [List.getD_eq_getElem _ _ hlen]
    simp only [beatFrame, List.getElem_map, List.getElem_range]
    by_cases h : j < 4
    · rw [if_pos h]
      interval_cases j
      · rw [show pulses.getD (4 * 1 + 0) 0 = 0 from rfl]; norm_num
      · rw [hann_odd (Or.inl rfl), show pulses.getD (4 * 1 + 1) 0 = 2 from rfl]; norm_num
      · rw [show pulses.getD (4 * 1 + 2) 0 = 0 from rfl]; norm_num
      · rw [hann_odd (Or.inr rfl), show pulses.getD (4 * 1 + 3) 0 = 2 from rfl]; norm_num
    · rw [if_neg h, if_neg (by omega)]
  rw [FFT.dft_congr false (y := fun j => ((if j = 1 ∨ j = 3 then (1 : ℝ) else 0 : ℝ) : ℂ)) (fun j hj => by rw [hv j hj])]
  have : dft false 16 (fun j => ((if j = 1 ∨ j = 3 then (1 : ℝ) else 0 : ℝ) : ℂ)) k =
      Complex.exp ((-(2 * Real.pi * k / 16) : ℝ) * Complex.I) * (1 + Complex.exp ((-(2 * Real.pi * k / 8) : ℝ) * Complex.I)) := by
    unfold dft
    simp only [sum_range_succ, range_zero, sum_empty]
    rw [mul_add, mul_one, ← Complex.exp_add]
    norm_num
    congr 1 <;> congr 1 <;> ring
  rw [this, norm_mul, Complex.norm_exp_ofReal_mul_I, one_mul]

theorem pulse_shape : shape (reference 2 1 4 16) pulses five 1 0 ≠ 1 / 2 := by
  set m : Nat → ℝ := fun k => ‖(1 : ℂ) + Complex.exp ((-(2 * Real.pi * k / 8) : ℝ) * Complex.I)‖ with hm
  have m0 : m 0 = 2 := by
    simp only [hm]
    norm_num
  have mle : ∀ k, m k ≤ 2 := by
    intro k
    refine (norm_add_le _ _).trans ?_
    rw [Complex.norm_exp_ofReal_mul_I]
    norm_num
  have m1 : m 1 < 2 := by
    have hsq : m 1 ^ 2 < 2 ^ 2 := by
      simp only [hm]
      rw [← Complex.normSq_eq_norm_sq, Complex.normSq_apply, Complex.exp_mul_I]
      have hc := Real.sin_sq_add_cos_sq (-(2 * Real.pi * (1 : Nat) / 8))
      have hlt : Real.cos (-(2 * Real.pi * (1 : Nat) / 8)) < 1 := by
        rw [Real.cos_neg, show 2 * Real.pi * ((1 : Nat) : ℝ) / 8 = Real.pi / 4 by push_cast; ring, Real.cos_pi_div_four]
        have := Real.sqrt_lt' (x := 2) (y := 2) (by norm_num)
        have h2 : Real.sqrt 2 < 2 := this.mpr (by norm_num)
        linarith
      rw [← Complex.ofReal_cos, ← Complex.ofReal_sin]
      simp only [Complex.add_re, Complex.one_re, Complex.ofReal_re, Complex.mul_re, Complex.ofReal_im, Complex.I_re, Complex.I_im, Complex.add_im,
        Complex.one_im, Complex.mul_im]
      nlinarith
    exact lt_of_pow_lt_pow_left₀ 2 (by norm_num) hsq
  have hs : ∃ a : List ℝ, spectrumOf (reference 2 1 4 16) pulses five 1 = some a ∧ a.getD 0 0 > a.getD 1 0 ∧ 0 ≤ a.getD 1 0 := by
    have e : spectrumOf (reference 2 1 4 16) pulses five 1 = adaptiveThreshold [m 0, m 1, m 2, m 3, m 4, m 5, m 6, m 7] := by
      show adaptiveThreshold (spectrumMag 16 (beatFrame (reference 2 1 4 16) pulses (startOf (reference 2 1 4 16) (five.getD 1 0)) (beatLength (reference 2 1 4 16) pulses.length five 1))) = _
      rw [five_start (by omega), five_length (by omega)]
      congr 1
      unfold spectrumMag
      simp only [pulse_mag]
      rfl
    rw [e]
    obtain ⟨a, a1, a2, a3⟩ := C07_adaptiveThreshold [m 0, m 1, m 2, m 3, m 4, m 5, m 6, m 7]
    have l0 : localMean [m 0, m 1, m 2, m 3, m 4, m 5, m 6, m 7] 0 = (m 0 + (m 1 + (m 2 + (m 3 + (m 4 + (m 5 + (m 6 + m 7))))))) / 8 := by
      simp [localMean]
    have l1 : localMean [m 0, m 1, m 2, m 3, m 4, m 5, m 6, m 7] 1 = (m 0 + (m 1 + (m 2 + (m 3 + (m 4 + (m 5 + (m 6 + m 7))))))) / 8 := by
      simp [localMean]
    have b0 := a3 0 (by simp)
    have b1 := a3 1 (by simp)
    rw [l0] at b0
    rw [l1] at b1
    refine ⟨a, a1, ?_, ?_⟩
    · rw [List.getD_eq_getElem?_getD, List.getD_eq_getElem?_getD, b0, b1]
      show max 0 (m 1 - _) < max 0 (m 0 - _)
      have := mle 2; have := mle 3; have := mle 4; have := mle 5; have := mle 6; have := mle 7
      refine max_lt ?_ ?_
      · refine lt_max_of_lt_right ?_
        rw [m0]
        linarith
      · refine lt_max_of_lt_right ?_
        rw [m0]
        linarith
    · rw [List.getD_eq_getElem?_getD, b1]
      exact le_max_left _ _
  obtain ⟨a, e, h1, h2⟩ := hs
  unfold shape normalised
  rw [e]
  show (a.getD 0 0 + 2.2204e-16) / ∑ j ∈ range 2, (a.getD j 0 + 2.2204e-16) ≠ 1 / 2
  rw [sum_range_succ, sum_range_succ, sum_range_zero, zero_add]
  have : (0 : ℝ) < a.getD 0 0 + 2.2204e-16 + (a.getD 1 0 + 2.2204e-16) := by
    have he : (0 : ℝ) < 2.2204e-16 := by norm_num
    linarith
  intro h
  rw [div_eq_iff this.ne'] at h
  linarith

theorem frame16 : FrameSize 10 1 16 := by
  refine ⟨by norm_num, by norm_num, by norm_num, ⟨⟨4, by norm_num⟩, by norm_num, by norm_num⟩, ?_⟩
  rintro p ⟨⟨k, rfl⟩, _, h⟩
  have h' : (13 : Int) ≤ 2 ^ k := by
    refine le_trans ?_ h
    rw [Int.le_floor]
    norm_num
  have : 4 ≤ k := by
    by_contra hc
    interval_cases k <;> norm_num at h'
  calc ((16 : Nat) : Int) = 2 ^ 4 := by norm_num
    _ ≤ 2 ^ k := by exact_mod_cast Nat.pow_le_pow_right (by norm_num) this

example : ∃ s s', Reach 10 1 4 16 (fun _ => 7) s [] 2 ∧ s.find pulses five [] = some (s', [1, 3]) := by
  have hd : Documented 1 4 := ⟨by omega, by decide⟩
  obtain ⟨m, hm, H⟩ := C74_construct (rate := 10) (factor := 1) (increment := 4) (junk := fun _ => 7) (by norm_num) (by norm_num) (by norm_num)
  obtain rfl : m = 16 := by exact_mod_cast hm.least.unique frame16.least
  obtain ⟨s0, _, r0⟩ := H ⟨.replicate 16 9, .replicate 16 9, .replicate 16 9, 9⟩ ⟨by simp, by simp, by simp⟩
  have r1 := Reach.bpb (b := 2) r0
  obtain ⟨s', e⟩ := C101_bars (ts := 2) (d := 1) hm hd r1 pulses five (by simp [pulses]) (by intro b hb; simp [five] at hb; rcases hb with rfl | rfl | rfl | rfl | rfl <;> norm_num)
    (by norm_num) (by norm_num) (by norm_num) (by
      intro k k0 k1 k2
      have : five.length = 5 := rfl
      have hk : k = 2 := by omega
      subst hk
      refine ⟨by rw [five_length (by omega), five_length (by omega)], fun t ht => ?_⟩
      rw [five_length (by omega)] at ht
      rw [five_start (by omega), five_start (by omega)]
      unfold pulses
      interval_cases t <;> rfl)
    ⟨1, by norm_num, by simp [five], rfl, 0, by show 0 < min 512 (16 / 2 / 4); norm_num, fun h => pulse_shape (by rw [← silent_shape]; exact h.symm)⟩
  exact ⟨_, s', r1, e⟩

end QM.DownBeat
