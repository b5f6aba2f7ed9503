import Verif.DetectionFunction.Lemmas

namespace QM.DetectionFunction

/-- The `DetectionFunction` objects a program can have, with the spectra they have been given, most recent first. A frame of samples
given to `processTimeDomain` counts as the spectrum of its windowed and rotated form. -/
inductive Reach (c : Config) : List (Nat → ℂ) → DF → Prop
  | make {u v d} : make c u v = some d → Reach c [] d
  | freq {zs d d' v reals imags} : Reach c zs d → c.frame / 2 + 1 ≤ reals.length → c.frame / 2 + 1 ≤ imags.length →
      processFreq d reals imags = some (d', v) → Reach c (ofSplit reals imags :: zs) d'
  | time {zs d d' v samples} : Reach c zs d → c.frame ≤ samples.length →
      processTime d samples = some (d', v) → Reach c (ofFrame c.frame samples :: zs) d'

/-- Frame lengths the library accepts: even, not zero, an `int`; and a whitening floor, if whitening is on, that is not zero. -/
structure Valid (c : Config) : Prop where
  even : c.frame % 2 = 0
  pos : 2 ≤ c.frame
  int : c.frame ≤ 2147483647
  floor : c.whiten = true → c.floor ≠ 0

theorem Valid.safe {c : Config} (h : Valid c) : Safe c := fun hw => by
  unfold Config.floorVal
  split
  · norm_num
  · exact lt_of_le_of_ne (not_lt.mp ‹_›) (Ne.symm (h.floor hw))

theorem reach_ok {c : Config} (h : Valid c) {zs : List (Nat → ℂ)} {d : DF} (hr : Reach c zs d) : Ok c zs d := by
  induction hr with
  | make hm =>
    rename_i u v d
    obtain ⟨d', e1, e2⟩ := make_ok c h.even h.pos h.int u v
    rw [e1] at hm; cases hm; exact e2
  | freq _ a b hp ih =>
    obtain ⟨d', v, e1, _, e3, _⟩ := freq_ok h.pos h.safe ih _ _ a b
    rw [e1] at hp; cases hp; exact e3
  | time _ a hp ih =>
    obtain ⟨d', v, e1, _, e3, _⟩ := time_ok h.even h.pos h.int h.safe ih _ a
    rw [e1] at hp; cases hp; exact e3

/-! ## C28 -/

/-- A valid configuration with whitening: frames of 4 samples, default relaxation and floor. -/
noncomputable def exampleConfig : Config := ⟨2, 4, .hfc, 3, true, -1, -1⟩

theorem exampleConfig_valid : Valid exampleConfig := ⟨rfl, by decide, by decide, fun _ => by norm_num [exampleConfig]⟩

/-- Construction succeeds. -/
theorem C28_construct (c : Config) (h : Valid c) (u : ℂ) (v : ℝ) : ∃ d, make c u v = some d ∧ Reach c [] d := by
  obtain ⟨d, e, _⟩ := make_ok c h.even h.pos h.int u v
  exact ⟨d, e, .make e⟩

/-- After every history, `processFrequencyDomain` returns the value of the configured detection function. -/
theorem C28_frequency_value (c : Config) (h : Valid c) {zs : List (Nat → ℂ)} {d : DF} (hr : Reach c zs d) (reals imags : List ℝ)
    (h1 : c.frame / 2 + 1 ≤ reals.length) (h2 : c.frame / 2 + 1 ≤ imags.length) :
    ∃ d' v, processFreq d reals imags = some (d', v) ∧ IsValue c (ofSplit reals imags :: zs) v := by
  obtain ⟨d', v, e1, e2, _⟩ := freq_ok h.pos h.safe (reach_ok h hr) reals imags h1 h2
  exact ⟨d', v, e1, e2⟩

/-- After every history, `processTimeDomain` returns the value of the configured detection function. -/
theorem C28_time_value (c : Config) (h : Valid c) {zs : List (Nat → ℂ)} {d : DF} (hr : Reach c zs d) (samples : List ℝ)
    (h1 : c.frame ≤ samples.length) :
    ∃ d' v, processTime d samples = some (d', v) ∧ IsValue c (ofFrame c.frame samples :: zs) v := by
  obtain ⟨d', v, e1, e2, _⟩ := time_ok h.even h.pos h.int h.safe (reach_ok h hr) samples h1
  exact ⟨d', v, e1, e2⟩

example : ∃ d d' v, make exampleConfig 0 0 = some d ∧ processFreq d [1, 0, 0] [0, 1, 0] = some (d', v) ∧
    Reach exampleConfig [ofSplit [1, 0, 0] [0, 1, 0]] d' := by
  obtain ⟨d, e1, hr⟩ := C28_construct exampleConfig exampleConfig_valid 0 0
  obtain ⟨d', v, e2, _⟩ := C28_frequency_value exampleConfig exampleConfig_valid hr [1, 0, 0] [0, 1, 0] (by decide) (by decide)
  exact ⟨d, d', v, e1, e2, .freq hr (by decide) (by decide) e2⟩

example : ∃ d d' v, make exampleConfig 0 0 = some d ∧ processTime d [1, 0, 0, 5] = some (d', v) := by
  obtain ⟨d, e1, hr⟩ := C28_construct exampleConfig exampleConfig_valid 0 0
  obtain ⟨d', v, e2, _⟩ := C28_time_value exampleConfig exampleConfig_valid hr [1, 0, 0, 5] (by decide)
  exact ⟨d, d', v, e1, e2⟩

theorem mag_nonneg {c : Config} (h : Safe c) (k : Nat) (zs : List (Nat → ℂ)) : 0 ≤ mag c k zs := by
  cases zs with
  | nil => simp [mag]
  | cons z zs =>
    rw [mag]
    split
    · exact div_nonneg (norm_nonneg _) (le_trans (norm_nonneg _) (norm_le_peak c k z zs))
    · exact norm_nonneg _

/-- Every value returned after any history is non-negative. -/
theorem C28_nonneg (c : Config) (h : Valid c) (z : Nat → ℂ) (zs : List (Nat → ℂ)) (v : ℝ) (hv : IsValue c (z :: zs) v) : 0 ≤ v := by
  unfold IsValue at hv
  split at hv
  · rw [hv]; exact Finset.sum_nonneg fun k _ => mul_nonneg (by positivity) (mag_nonneg h.safe k _)
  · rw [hv]; exact Finset.sum_nonneg fun k _ => Real.sqrt_nonneg _
  · obtain ⟨d, _, rfl⟩ := hv; exact Finset.sum_nonneg fun k _ => abs_nonneg _
  · obtain ⟨d, _, rfl⟩ := hv; exact Finset.sum_nonneg fun k _ => norm_nonneg _
  · rw [hv]; exact Nat.cast_nonneg _

/-- High-frequency content and broadband rise are zero on a silent frame, whatever came before, with or without whitening. -/
theorem C28_silent (c : Config) (hty : c.ty = .hfc ∨ c.ty = .broadband) (z : Nat → ℂ) (zs : List (Nat → ℂ))
    (hz : ∀ k, k ≤ c.frame / 2 → z k = 0) (v : ℝ) (hv : IsValue c (z :: zs) v) : v = 0 := by
  have hm : ∀ k, k ≤ c.frame / 2 → mag c k (z :: zs) = 0 := fun k hk => by simp [mag, hz k hk]
  unfold IsValue at hv
  rcases hty with hty | hty <;> rw [hty] at hv
  · simp only at hv
    rw [hv]
    refine Finset.sum_eq_zero fun k hk => ?_
    rw [hm k (by have := Finset.mem_range.mp hk; omega), mul_zero]
  · simp only at hv
    rw [hv, Nat.cast_eq_zero, Finset.card_eq_zero]
    classical
    refine Finset.filter_eq_empty_iff.mpr ?_
    · intro k hk hr
      exact hr.2.1 (hm k (by have := Finset.mem_range.mp hk; omega))

/-- Silence in the time domain is a silent spectrum. -/
theorem C28_silent_samples (n : Nat) (samples : List ℝ) (h : ∀ i : Nat, i < n → samples[i]? = some 0) (k : Nat) :
    ofFrame n samples k = 0 := by
  unfold ofFrame
  rw [DFT.dft_eq, Finset.sum_eq_zero, mul_zero]
  intro j hj
  simp [h j (Finset.mem_range.mp hj)]

/-- The spectral difference of a frame that repeats the previous spectrum is zero (no whitening). -/
theorem C28_repeat (c : Config) (hty : c.ty = .specDiff) (hw : c.whiten = false) (z : Nat → ℂ) (zs : List (Nat → ℂ)) (v : ℝ)
    (hv : IsValue c (z :: z :: zs) v) : v = 0 := by
  unfold IsValue at hv
  rw [hty] at hv
  simp only [List.tail_cons] at hv
  rw [hv]
  refine Finset.sum_eq_zero fun k _ => ?_
  simp [mag, hw]

/-- For a stationary sinusoid in every bin (constant magnitudes, phases advancing by a constant step) phase deviation and complex
spectral difference are zero (no whitening). -/
theorem C28_stationary (c : Config) (hty : c.ty = .phaseDev ∨ c.ty = .complexSD) (hw : c.whiten = false) (z z1 z2 : Nat → ℂ)
    (zs : List (Nat → ℂ)) (hm : ∀ k, k ≤ c.frame / 2 → ‖z k‖ = ‖z1 k‖)
    (hp : ∀ k, k ≤ c.frame / 2 → ∃ j : ℤ, (z k).arg - (z1 k).arg = (z1 k).arg - (z2 k).arg + 2 * Real.pi * j) (v : ℝ)
    (hv : IsValue c (z :: z1 :: z2 :: zs) v) : v = 0 := by
  have hdev : ∀ k d, k ≤ c.frame / 2 → IsDev k (z :: z1 :: z2 :: zs) d → d = 0 := by
    rintro k d hk ⟨h1, h2, j, hj⟩
    obtain ⟨i, hi⟩ := hp k hk
    simp only [phase, List.tail_cons] at hj
    have e : d = 2 * Real.pi * ((i - j : ℤ) : ℝ) := by push_cast; linarith
    have hpi := Real.pi_pos
    have b1 : i - j < 1 := by
      by_contra hc
      have : (1 : ℝ) ≤ ((i - j : ℤ) : ℝ) := by exact_mod_cast not_lt.mp hc
      nlinarith
    have b2 : -1 < i - j := by
      by_contra hc
      have : ((i - j : ℤ) : ℝ) ≤ -1 := by exact_mod_cast not_lt.mp hc
      nlinarith
    have : i - j = 0 := by omega
    rw [e, this]; simp
  unfold IsValue at hv
  rcases hty with hty | hty <;> rw [hty] at hv
  · obtain ⟨d, hd, rfl⟩ := hv
    refine Finset.sum_eq_zero fun k hk => ?_
    have hk' : k ≤ c.frame / 2 := by have := Finset.mem_range.mp hk; omega
    rw [hdev k _ hk' (hd k hk')]; simp
  · obtain ⟨d, hd, rfl⟩ := hv
    refine Finset.sum_eq_zero fun k hk => ?_
    have hk' : k ≤ c.frame / 2 := by have := Finset.mem_range.mp hk; omega
    rw [hdev k _ hk' (hd k hk')]
    simp [mag, hw, hm k hk']

/-- With whitening on, the magnitudes the caller sees (`getSpectrumMagnitude`) after `processFrequencyDomain` all lie in [0, 1], the divisor
being at least the floor and at least the magnitude. -/
theorem C28_whitened (c : Config) (h : Valid c) (hw : c.whiten = true) {zs : List (Nat → ℂ)} {d d' : DF} {v : ℝ} (hr : Reach c zs d)
    (reals imags : List ℝ) (h1 : c.frame / 2 + 1 ≤ reals.length) (h2 : c.frame / 2 + 1 ≤ imags.length)
    (hp : processFreq d reals imags = some (d', v)) (k : Nat) (hk : k ≤ c.frame / 2) :
    ∃ p, d'.magnitude[k]? = some (‖ofSplit reals imags k‖ / p) ∧ c.floorVal ≤ p ∧ 0 < p ∧ 0 ≤ ‖ofSplit reals imags k‖ / p ∧
      ‖ofSplit reals imags k‖ / p ≤ 1 := by
  obtain ⟨d'', v', e1, _, _, e4⟩ := freq_ok h.pos h.safe (reach_ok h hr) reals imags h1 h2
  rw [e1] at hp; cases hp
  have hf := peak_ge c k (ofSplit reals imags) zs
  have h0 : 0 < peak c k (ofSplit reals imags :: zs) := lt_of_lt_of_le (h.safe hw) hf
  refine ⟨peak c k (ofSplit reals imags :: zs), ?_, hf, h0, div_nonneg (norm_nonneg _) (le_of_lt h0), ?_⟩
  · rw [e4.2 k (by omega)]; simp only [mag, if_pos hw]
  · rw [div_le_one h0]; exact norm_le_peak c k _ zs

/-- The documented default is used only for negative settings, so a floor of zero is kept: whitening the first frame when it is silent
divides zero by zero. -/
theorem C28_zero_floor_violation : ∃ c : Config, c.frame = 2 ∧ c.whiten = true ∧ c.floor = 0 ∧
    ∃ d, make c 0 0 = some d ∧ processFreq d [0, 0] [0, 0] = none := by
  refine ⟨⟨1, 2, .hfc, 3, true, -1, 0⟩, rfl, rfl, rfl, ?_⟩
  obtain ⟨d, e1, hd⟩ := make_ok ⟨1, 2, .hfc, 3, true, -1, 0⟩ (by norm_num) (by norm_num) (by norm_num) 0 0
  refine ⟨d, e1, ?_⟩
  obtain ⟨prev, hp⟩ := hd.pv
  obtain ⟨pv', m', t', u', f1, f2, f3, f4, f5, _, _⟩ := PhaseVocoder.freq_ok (by norm_num) hp [0, 0] [0, 0] d.magnitude d.theta d.unwrapped
    (by norm_num) (by norm_num) (by rw [hd.mlen]) (by rw [hd.tlen]) (by rw [hd.ulen])
  unfold processFreq
  simp only [f1, Option.bind_eq_bind, Option.bind_some]
  unfold finish
  rw [if_pos (by simp only [hd.cfg])]
  unfold whiten
  have hm0 : m'[0]? = some (0 : ℝ) := by
    rw [(f5 0 (by norm_num)).1]
    simp only [List.getD_cons_zero]
    rw [show (⟨0, 0⟩ : ℂ) = 0 from rfl, norm_zero]
  have hp0 : d.magPeaks[0]? = some (0 : ℝ) := by
    have := hd.pk.2 0 (by norm_num)
    simpa [peak] using this
  have hfl : d.floorCoeff = 0 := by rw [hd.floor]; unfold Config.floorVal; norm_num
  have hb : whitenBody d.relaxCoeff d.floorCoeff 0 (d.magPeaks, m') = none := by
    unfold whitenBody
    simp [hm0, hp0, hfl, wr_some _ (lt_of_getElem?_some hp0)]
  have hh : d.half = 2 := hd.half
  have hn : loop d.half (whitenBody d.relaxCoeff d.floorCoeff) (d.magPeaks, m') = none := by
    rw [hh]; exact loop_none_of_le (m := 1) (by norm_num) (by rw [loop, loop]; exact hb)
  simp only [hn, Option.bind_eq_bind, Option.bind_none]

end QM.DetectionFunction
