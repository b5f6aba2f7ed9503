import Verif.Level.Values

/-!
# C88: what loudness does not change

The same recording played back louder or softer: onsets, and the beats placed on a given tempo, stay where they are.
-/

namespace QM.Level

open QM QM.DetectionFunction

/-- **C88** The value of a detection function without whitening follows the level of the signal: it is proportional to it for the high frequency content,
the spectral difference and the complex domain, and independent of it for the phase deviation and the broadband type. Types that look at
magnitudes only do not depend on the polarity either. -/
theorem C88_value (c : Config) (hw : c.whiten = false) (g : ℝ) (hg : g ≠ 0) (hp : 0 < g ∨ phaseless c.ty) (zs : List (Nat → ℂ)) (v : ℝ)
    (h : IsValue c zs v) : IsValue c (louderZ g zs) (gain g c.ty * v) :=
  value_louder c hw g hg hp zs v h

/-- **C88** The detection function of a whole recording, frame by frame, with any two detection function objects of the same configuration: at another level it is the same
up to a positive factor. -/
theorem C88_function (c : Config) (h : Valid c) (hw : c.whiten = false) (g : ℝ) (hg : g ≠ 0) (hp : 0 < g ∨ phaseless c.ty) (u u' : ℂ) (x x' : ℝ)
    (fs : List (List ℝ)) (hf : ∀ f ∈ fs, c.frame ≤ f.length) : ∃ d e vs, DetectionFunction.make c u x = some d ∧ DetectionFunction.make c u' x' = some e ∧
      values d fs = some vs ∧ values e (fs.map (louder g)) = some (vs.map (gain g c.ty * ·)) := by
  obtain ⟨d, a1, a2⟩ := C28_construct c h u x
  obtain ⟨e, b1, b2⟩ := C28_construct c h u' x'
  obtain ⟨vs, c1, c2⟩ := values_louder c h hw g hg hp fs [] d e a2 b2 hf
  exact ⟨d, e, vs, a1, b1, c1, c2⟩

/-- **C88** Conditioning a detection function does not depend on its level, in any state of the object. -/
theorem C88_conditioning (d : DFProcess.DFP) (g : ℝ) (hg : 0 < g) (src dst : List ℝ) :
    DFProcess.process d (louder g src) dst = DFProcess.process d src dst :=
  conditioning_scale d g hg src dst

/-- **C88** Peak picking does not depend on the level of the detection function: the same onsets and the same object afterwards, in any state of the
object and for any level; and the same smoothed function in place of the detection function, unless it is too short to be processed. -/
theorem C88_onsets (p : PeakPicking.PP) (g : ℝ) (hg : 0 < g) (src : List ℝ) (onsets : List Nat) :
    (PeakPicking.process p (louder g src) src.length onsets).map (fun r => (r.1, r.2.2)) =
      (PeakPicking.process p src src.length onsets).map (fun r => (r.1, r.2.2)) ∧
    (4 ≤ src.length → PeakPicking.process p (louder g src) src.length onsets = PeakPicking.process p src src.length onsets) := by
  refine ⟨?_, process_scale p g hg src onsets⟩
  by_cases h4 : 4 ≤ src.length
  · rw [process_scale p g hg src onsets h4]
  · unfold PeakPicking.process
    rw [if_pos (by omega), if_pos (by omega)]
    rfl

/-- **C88** From samples to onsets: a recording at another level has the same onsets, whatever the peak picker has processed before. -/
theorem C88_recording (c : Config) (h : Valid c) (hw : c.whiten = false) (g : ℝ) (hg : g ≠ 0) (hp : 0 < g ∨ phaseless c.ty) (u u' : ℂ) (x x' : ℝ)
    (fs : List (List ℝ)) (hf : ∀ f ∈ fs, c.frame ≤ f.length) (p : PeakPicking.PP) (onsets : List Nat) :
    ∃ d e vs ws, DetectionFunction.make c u x = some d ∧ DetectionFunction.make c u' x' = some e ∧ values d fs = some vs ∧
      values e (fs.map (louder g)) = some ws ∧ vs.length = fs.length ∧ ws.length = fs.length ∧
      (PeakPicking.process p ws ws.length onsets).map (fun r => r.2.2) = (PeakPicking.process p vs vs.length onsets).map (fun r => r.2.2) := by
  obtain ⟨d, e, vs, a, b, c1, c2⟩ := C88_function c h hw g hg hp u u' x x' fs hf
  have hl := values_length fs d vs c1
  refine ⟨d, e, vs, _, a, b, c1, c2, hl, by simp [hl], ?_⟩
  rw [List.length_map]
  have := congrArg (Option.map Prod.snd) (C88_onsets p (gain g c.ty) (gain_pos hg c.ty) vs onsets).1
  rw [Option.map_map, Option.map_map] at this
  exact this

/-- **C88** Whitening has an absolute floor, so with it the level matters: of two frames of which the second is twice the first, the whitened high frequency
content is 3 and 3, and a thousand times softer it is 0.3 and 0.6, which is not the same function at any level. -/
theorem C88_whitened_violation : ∃ (c : Config) (y z : Nat → ℂ), Valid c ∧ c.whiten = true ∧ c.ty = .hfc ∧ IsValue c [y] 3 ∧ IsValue c [z, y] 3 ∧
    IsValue c (louderZ (1 / 1000) [y]) (3 / 10) ∧ IsValue c (louderZ (1 / 1000) [z, y]) (3 / 5) := by
  refine ⟨⟨2, 2, .hfc, 3, true, -1, -1⟩, fun _ => 1, fun _ => 2, ⟨rfl, by decide, by decide, fun _ => by norm_num⟩, rfl, rfl, ?_, ?_, ?_, ?_⟩
  all_goals
    simp [IsValue, mag, peak, louderZ, Config.floorVal, Config.relax, Finset.sum_range_succ]
    norm_num

/-! ## Beats -/

/-- **C88** Beats placed on given beat periods do not depend on the level of the detection function. -/
theorem C88_beats {K : Type} [Field K] [LinearOrder K] [IsStrictOrderedRing K] [FloorRing K] (wt : K → Nat → Option K) (alpha g : K) (hg : 0 < g)
    (fuel : Nat) (df bp beats : List K) :
    TempoTrackV2.calculateBeats wt alpha fuel (df.map (g * ·)) bp beats = TempoTrackV2.calculateBeats wt alpha fuel df bp beats := by
  unfold TempoTrackV2.calculateBeats
  rw [List.length_map]
  split
  · rfl
  · have h := loop_map (fun st : List K × List Int => (st.1.map (g * ·), st.2)) df.length (TempoTrackV2.beatStep wt alpha df bp)
      (TempoTrackV2.beatStep wt alpha (df.map (g * ·)) bp) (fun i st => beatStep_scale g hg wt alpha df bp i st)
      (List.replicate df.length 0, List.replicate df.length (-1))
    rw [List.map_replicate, mul_zero] at h
    rw [h]
    cases loop df.length (TempoTrackV2.beatStep wt alpha df bp) (List.replicate df.length 0, List.replicate df.length (-1)) with
    | none => rfl
    | some st =>
      simp only [Option.map_some, Option.bind_eq_bind, Option.bind_some]
      rw [startPoint_scale g hg]

/-- **C88** The classic tempo tracker, on a fresh or a used object: the same beats and the same tempi. What it does with the conditioned frame
(the autocorrelation) is any function `f`. -/
theorem C88_classic {E : Type} (env : TempoTrack.Env ℝ E) (d : DFProcess.DFP) (dst : List ℝ) (f : Option (DFProcess.DFP × List ℝ) → List (Option ℝ))
    (henv : ∀ frame, env.acf frame = f (DFProcess.process d frame dst)) (g : ℝ) (hg : 0 < g) (fuel : Nat) (framer : Framer.State ℝ) (raw df : List ℝ) :
    (TempoTrack.process env fuel framer (louder g raw) (louder g df)).map (fun r => r.2.2) =
      (TempoTrack.process env fuel framer raw df).map (fun r => r.2.2) :=
  classic_scale env g hg (fun frame => by rw [henv, henv]; exact congrArg f (conditioning_scale d g hg frame dst)) fuel framer raw df

/-! ## Examples -/

/-- Broadband detection on frames of 4 samples, five frames, polarity inverted: same onsets with any peak picker. -/
example (p : PeakPicking.PP) : ∃ d e vs ws, DetectionFunction.make ⟨2, 4, .broadband, 3, false, -1, -1⟩ 0 0 = some d ∧
    DetectionFunction.make ⟨2, 4, .broadband, 3, false, -1, -1⟩ 1 7 = some e ∧ values d [[1, 2, 3, 4], [5, 0, 0, 1], [9, 9, 1, 0], [0, 0, 0, 0], [1, 7, 2, 2]] = some vs ∧
    values e ([[1, 2, 3, 4], [5, 0, 0, 1], [9, 9, 1, 0], [0, 0, 0, 0], [1, 7, 2, 2]].map (louder (-3))) = some ws ∧ vs.length = 5 ∧ ws.length = 5 ∧
    (PeakPicking.process p ws ws.length []).map (fun r => r.2.2) = (PeakPicking.process p vs vs.length []).map (fun r => r.2.2) :=
  C88_recording ⟨2, 4, .broadband, 3, false, -1, -1⟩ ⟨rfl, by decide, by decide, fun h => by cases h⟩ rfl (-3) (by norm_num) (Or.inr trivial) 0 1 0 7 _
    (by intro f hf; fin_cases hf <;> decide) p []

/-- Beat placement at another level, on rationals. -/
example : TempoTrackV2.calculateBeats (fun _ _ => some (1 : ℚ)) (1 / 2) 100 ([1, 2, 1, 3, 1, 2].map (7 * ·)) [2, 2, 2, 2, 2, 2] [] =
    TempoTrackV2.calculateBeats (fun _ _ => some (1 : ℚ)) (1 / 2) 100 [1, 2, 1, 3, 1, 2] [2, 2, 2, 2, 2, 2] [] :=
  C88_beats _ _ _ (by norm_num) _ _ _ _

end QM.Level
