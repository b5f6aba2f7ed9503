import Verif.Level.Lemmas
import Verif.Level.Spec

/-!
# Detection functions of louder recordings
-/

namespace QM.Level

open QM QM.DetectionFunction

theorem gain_pos {g : ℝ} (hg : g ≠ 0) (t : DFType) : 0 < gain g t := by
  cases t <;> simp [gain, hg]

theorem mag_louder {c : Config} (hw : c.whiten = false) (g : ℝ) (k : Nat) (zs : List (Nat → ℂ)) : mag c k (louderZ g zs) = |g| * mag c k zs := by
  cases zs with
  | nil => simp [louderZ, mag]
  | cons z zs => simp [louderZ, mag, hw]

theorem tail_louder (g : ℝ) (zs : List (Nat → ℂ)) : (louderZ g zs).tail = louderZ g zs.tail := by
  unfold louderZ; rw [List.map_tail]

theorem phase_louder {g : ℝ} (hg : 0 < g) (k : Nat) (zs : List (Nat → ℂ)) : phase k (louderZ g zs) = phase k zs := by
  cases zs with
  | nil => rfl
  | cons z zs => simp [louderZ, phase, Complex.arg_real_mul _ hg]

theorem isDev_louder {g : ℝ} (hg : 0 < g) (k : Nat) (zs : List (Nat → ℂ)) (d : ℝ) : IsDev k (louderZ g zs) d ↔ IsDev k zs d := by
  unfold IsDev
  rw [tail_louder, tail_louder, phase_louder hg, phase_louder hg, phase_louder hg]

open Classical in
theorem value_louder (c : Config) (hw : c.whiten = false) (g : ℝ) (hg : g ≠ 0) (hp : 0 < g ∨ phaseless c.ty) (zs : List (Nat → ℂ)) (v : ℝ)
    (h : IsValue c zs v) : IsValue c (louderZ g zs) (gain g c.ty * v) := by
  have hg0 : 0 < |g| := abs_pos.mpr hg
  unfold IsValue at h ⊢
  cases ht : c.ty with
  | hfc =>
    simp only [ht] at h ⊢
    rw [h, gain, Finset.mul_sum]
    refine Finset.sum_congr rfl fun k _ => ?_
    rw [mag_louder hw]
    ring
  | specDiff =>
    simp only [ht] at h ⊢
    rw [h, gain, Finset.mul_sum]
    refine Finset.sum_congr rfl fun k _ => ?_
    rw [tail_louder, mag_louder hw, mag_louder hw, show (|g| * mag c k zs) ^ 2 - (|g| * mag c k zs.tail) ^ 2 =
      |g| ^ 2 * (mag c k zs ^ 2 - mag c k zs.tail ^ 2) by ring, abs_mul, abs_of_nonneg (sq_nonneg |g|), Real.sqrt_mul (sq_nonneg _), Real.sqrt_sq hg0.le]
  | phaseDev =>
    have hgp : 0 < g := hp.resolve_right (by rw [ht]; exact id)
    simp only [ht] at h ⊢
    obtain ⟨d, h1, h2⟩ := h
    exact ⟨d, fun k hk => (isDev_louder hgp k zs (d k)).mpr (h1 k hk), by rw [gain, one_mul, h2]⟩
  | complexSD =>
    have hgp : 0 < g := hp.resolve_right (by rw [ht]; exact id)
    simp only [ht] at h ⊢
    obtain ⟨d, h1, h2⟩ := h
    refine ⟨d, fun k hk => (isDev_louder hgp k zs (d k)).mpr (h1 k hk), ?_⟩
    rw [h2, gain, Finset.mul_sum]
    refine Finset.sum_congr rfl fun k _ => ?_
    rw [tail_louder, mag_louder hw, mag_louder hw]
    have : ((|g| * mag c k zs.tail : ℝ) : ℂ) - ((|g| * mag c k zs : ℝ) : ℂ) * Complex.exp (d k * Complex.I) =
        ((|g| : ℝ) : ℂ) * ((mag c k zs.tail : ℂ) - mag c k zs * Complex.exp (d k * Complex.I)) := by
      push_cast
      ring
    rw [this, norm_mul, Complex.norm_real, Real.norm_of_nonneg hg0.le]
  | broadband =>
    simp only [ht] at h ⊢
    rw [h, gain, one_mul]
    have hr : ∀ k, Rose c k (louderZ g zs) ↔ Rose c k zs := by
      intro k
      unfold Rose
      rw [tail_louder, mag_louder hw, mag_louder hw, mul_pow, mul_pow, mul_div_mul_left _ _ (pow_ne_zero 2 hg0.ne')]
      simp [hg]
    refine congrArg (fun s : Finset ℕ => (s.card : ℝ)) (Finset.ext fun k => ?_)
    rw [Finset.mem_filter, Finset.mem_filter, hr]

theorem isDev_unique {k : Nat} {zs : List (Nat → ℂ)} {d e : ℝ} (h1 : IsDev k zs d) (h2 : IsDev k zs e) : d = e := by
  obtain ⟨a1, a2, j, a3⟩ := h1
  obtain ⟨b1, b2, l, b3⟩ := h2
  have hpi := Real.pi_pos
  have h : d - e = 2 * Real.pi * ((l - j : ℤ) : ℝ) := by
    push_cast
    linarith
  have hl : l - j = 0 := by
    by_contra hne
    rcases lt_or_gt_of_ne hne with hlt | hgt
    · have : ((l - j : ℤ) : ℝ) ≤ -1 := by exact_mod_cast (by omega : l - j ≤ -1)
      nlinarith
    · have : (1 : ℝ) ≤ ((l - j : ℤ) : ℝ) := by exact_mod_cast (by omega : 1 ≤ l - j)
      nlinarith
  rw [hl] at h
  simp at h
  linarith

theorem isValue_unique {c : Config} {zs : List (Nat → ℂ)} {v w : ℝ} (h1 : IsValue c zs v) (h2 : IsValue c zs w) : v = w := by
  unfold IsValue at h1 h2
  cases ht : c.ty <;> simp only [ht] at h1 h2
  · rw [h1, h2]
  · rw [h1, h2]
  · obtain ⟨d, a, b⟩ := h1
    obtain ⟨e, a', b'⟩ := h2
    rw [b, b']
    refine Finset.sum_congr rfl fun k hk => ?_
    rw [Finset.mem_range] at hk
    rw [isDev_unique (a k (by omega)) (a' k (by omega))]
  · obtain ⟨d, a, b⟩ := h1
    obtain ⟨e, a', b'⟩ := h2
    rw [b, b']
    refine Finset.sum_congr rfl fun k hk => ?_
    rw [Finset.mem_range] at hk
    rw [isDev_unique (a k (by omega)) (a' k (by omega))]
  · rw [h1, h2]

theorem ofFrame_louder (n : Nat) (g : ℝ) (samples : List ℝ) : ofFrame n (louder g samples) = fun k => (g : ℂ) * ofFrame n samples k := by
  funext k
  unfold ofFrame
  have : (fun j => ((Window.shape .hanning n j * (louder g samples).getD j 0 : ℝ) : ℂ)) =
      fun j => (g : ℂ) * ((Window.shape .hanning n j * samples.getD j 0 : ℝ) : ℂ) := by
    funext j
    have : (louder g samples).getD j 0 = g * samples.getD j 0 := by
      simp only [louder, List.getD_eq_getElem?_getD, List.getElem?_map]
      cases samples[j]? <;> simp
    rw [this]
    push_cast
    ring
  rw [this]
  unfold DFT.dft
  simp only [mul_assoc, ← Finset.mul_sum]
  ring

theorem values_louder (c : Config) (h : Valid c) (hw : c.whiten = false) (g : ℝ) (hg : g ≠ 0) (hp : 0 < g ∨ phaseless c.ty) (fs : List (List ℝ)) :
    ∀ (zs : List (Nat → ℂ)) (d e : DF), Reach c zs d → Reach c (louderZ g zs) e → (∀ f ∈ fs, c.frame ≤ f.length) →
      ∃ vs, values d fs = some vs ∧ values e (fs.map (louder g)) = some (vs.map (gain g c.ty * ·)) := by
  induction fs with
  | nil => exact fun _ _ _ _ _ _ => ⟨[], rfl, rfl⟩
  | cons f fs ih =>
    intro zs d e hd he hf
    have hl : c.frame ≤ f.length := hf f (by simp)
    have hl' : c.frame ≤ (louder g f).length := by simpa [louder] using hl
    obtain ⟨d', v, a1, a2⟩ := C28_time_value c h hd f hl
    obtain ⟨e', w, b1, b2⟩ := C28_time_value c h he (louder g f) hl'
    have hz : ofFrame c.frame (louder g f) :: louderZ g zs = louderZ g (ofFrame c.frame f :: zs) := by
      rw [ofFrame_louder]; rfl
    rw [hz] at b2
    have hv : w = gain g c.ty * v := isValue_unique b2 (value_louder c hw g hg hp _ _ a2)
    have hr := Reach.time he hl' b1
    rw [hz] at hr
    obtain ⟨vs, c1, c2⟩ := ih _ d' e' (Reach.time hd hl a1) hr (fun f hf' => hf f (by simp [hf']))
    refine ⟨v :: vs, ?_, ?_⟩
    · simp only [values, a1, Option.bind_eq_bind, Option.bind_some, c1]
    · simp only [List.map_cons, values, b1, Option.bind_eq_bind, Option.bind_some, c2, hv]

theorem overwrite_eq (maxima a b : List ℝ) (ha : a.length = maxima.length) (hb : b.length = maxima.length) :
    loop maxima.length (fun i (src : List ℝ) => do
      let v ← maxima[i]?
      wr src i v) a = loop maxima.length (fun i (src : List ℝ) => do
      let v ← maxima[i]?
      wr src i v) b := by
  have key : ∀ a : List ℝ, a.length = maxima.length → loop maxima.length (fun i (src : List ℝ) => do
      let v ← maxima[i]?
      wr src i v) a = some maxima := by
    intro a ha
    obtain ⟨r, h1, h2, h3, _⟩ := fill_ok maxima.length (fun i (src : List ℝ) => do
      let v ← maxima[i]?
      wr src i v) (fun i => maxima.getD i 0) a ha.ge (by
        intro i b hi hb _ _
        rw [List.getElem?_eq_getElem hi]
        simp only [Option.bind_eq_bind, Option.bind_some]
        rw [wr_some _ (by omega), List.getD_eq_getElem?_getD, List.getElem?_eq_getElem hi]
        rfl)
    rw [h1]
    congr 1
    apply List.ext_getElem?
    intro i
    by_cases hi : i < maxima.length
    · rw [h3 i hi, List.getD_eq_getElem?_getD, List.getElem?_eq_getElem hi]; rfl
    · rw [List.getElem?_eq_none (by omega), List.getElem?_eq_none (by omega)]
  rw [key a ha, key b hb]

theorem values_length (fs : List (List ℝ)) : ∀ (d : DF) (vs : List ℝ), values d fs = some vs → vs.length = fs.length := by
  induction fs with
  | nil =>
    intro d vs h
    cases h
    rfl
  | cons f fs ih =>
    intro d vs h
    rw [values] at h
    cases hp : processTime d f with
    | none => rw [hp] at h; cases h
    | some r =>
      obtain ⟨d', v⟩ := r
      rw [hp] at h
      simp only [Option.bind_eq_bind, Option.bind_some] at h
      cases hv : values d' fs with
      | none => rw [hv] at h; cases h
      | some ws =>
        rw [hv] at h
        cases h
        simp [ih d' ws hv]

theorem conditioning_scale (d : DFProcess.DFP) (g : ℝ) (hg : 0 < g) (src dst : List ℝ) :
    DFProcess.process d (louder g src) dst = DFProcess.process d src dst := by
  unfold DFProcess.process louder
  rw [removeDC_scale g hg]

theorem process_scale (p : PeakPicking.PP) (g : ℝ) (hg : 0 < g) (src : List ℝ) (onsets : List Nat) (h4 : 4 ≤ src.length) :
    PeakPicking.process p (louder g src) src.length onsets = PeakPicking.process p src src.length onsets := by
  unfold PeakPicking.process
  rw [if_neg (by omega), if_neg (by omega), conditioning_scale p.dfp g hg src p.work]
  cases DFProcess.process p.dfp src p.work with
  | none => rfl
  | some r =>
    obtain ⟨d, work⟩ := r
    simp only [Option.bind_eq_bind, Option.bind_some, Option.pure_def]
    cases hm : loop src.length (fun i (m : List ℝ) => (work[i]?).bind fun v => some (m ++ [v])) [] with
    | none => rfl
    | some maxima =>
      simp only [Option.bind_some]
      cases PeakPicking.quadEval p.a p.c maxima onsets with
      | none => rfl
      | some on =>
        simp only [Option.bind_some]
        have hlen : maxima.length = src.length := by
          have key : ∀ n (m : List ℝ), loop n (fun i (m : List ℝ) => (work[i]?).bind fun v => some (m ++ [v])) [] = some m → m.length = n := by
            intro n
            induction n with
            | zero =>
              intro m h
              cases h
              rfl
            | succ n ih =>
              intro m h
              rw [loop] at h
              cases hl : loop n (fun i (m : List ℝ) => (work[i]?).bind fun v => some (m ++ [v])) [] with
              | none => rw [hl] at h; cases h
              | some m' =>
                rw [hl] at h
                simp only [Option.bind_some] at h
                cases hw : work[n]? with
                | none => rw [hw] at h; cases h
                | some v =>
                  rw [hw] at h
                  cases h
                  simp [ih m' hl]
          exact key _ _ hm
        have := overwrite_eq maxima (louder g src) src (by simp [louder, hlen]) hlen.symm
        simp only [Option.bind_eq_bind] at this
        rw [this]

theorem classic_scale {K E : Type} [Field K] [LinearOrder K] [IsStrictOrderedRing K] [FloorRing K] (env : TempoTrack.Env K E) (g : K) (hg : 0 < g)
    (he : ∀ f : List K, env.acf (f.map (g * ·)) = env.acf f) (fuel : Nat) (framer : Framer.State K) (raw df : List K) :
    (TempoTrack.process env fuel framer (raw.map (g * ·)) (df.map (g * ·))).map (fun r => r.2.2) =
      (TempoTrack.process env fuel framer raw df).map (fun r => r.2.2) := by
  unfold TempoTrack.process
  have hs : Framer.setSource framer (df.map (g * ·)) = (Framer.setSource framer df).map (louderFramer g) := by
    unfold Framer.setSource louderFramer
    simp only [List.length_map]
    split <;> rfl
  rw [hs]
  cases Framer.setSource framer df with
  | none => rfl
  | some fr =>
    simp only [Option.map_some, Option.bind_eq_bind, Option.bind_some, Option.pure_def]
    cases TempoTrack.createCombFilter env (List.replicate env.lag 0) 0 with
    | none => rfl
    | some rw =>
      simp only [Option.bind_some]
      have h := loop_map (louderSt g) fr.maxFrames (TempoTrack.frameStep env fuel rw) (TempoTrack.frameStep env fuel rw)
        (fun i s => frameStep_scale g hg env he fuel rw i s)
        { framer := fr, raw := raw, stepFlag := 0, constFlag := 0, fsp := 0, tsig := 0, lastBeat := 0, gw := List.replicate env.lag 0,
          pw := List.replicate env.lag 0, periodP := List.replicate fr.maxFrames 0, periodG := List.replicate fr.maxFrames 0, beats := [], locked := 0, tempi := [] }
      have h' : loop fr.maxFrames (TempoTrack.frameStep env fuel rw)
        { framer := louderFramer g fr, raw := raw.map (g * ·), stepFlag := 0, constFlag := 0, fsp := 0, tsig := 0, lastBeat := 0,
          gw := List.replicate env.lag 0, pw := List.replicate env.lag 0, periodP := List.replicate fr.maxFrames 0,
          periodG := List.replicate fr.maxFrames 0, beats := [], locked := 0, tempi := [] } = _ := h
      have hm : (louderFramer g fr).maxFrames = fr.maxFrames := rfl
      rw [hm, h']
      cases loop fr.maxFrames (TempoTrack.frameStep env fuel rw)
        { framer := fr, raw := raw, stepFlag := 0, constFlag := 0, fsp := 0, tsig := 0, lastBeat := 0, gw := List.replicate env.lag 0,
          pw := List.replicate env.lag 0, periodP := List.replicate fr.maxFrames 0, periodG := List.replicate fr.maxFrames 0, beats := [], locked := 0, tempi := [] } <;> rfl

end QM.Level
