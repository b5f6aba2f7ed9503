import Verif.DetectionFunction.Props
import Verif.PeakPicking.Props
import Verif.TempoTrackV2.Model
import Verif.TempoTrack.Model

/-! Helper lemmas for the effect of loudness. -/

namespace QM.Level

open QM

section
variable {S S' β γ : Type}

/-- Two loops that run in step. -/
theorem loop_map (φ : S → S') (n : Nat) (f : Nat → S → Option S) (f' : Nat → S' → Option S') (h : ∀ i s, f' i (φ s) = (f i s).map φ) (s : S) :
    loop n f' (φ s) = (loop n f s).map φ := by
  induction n with
  | zero => rfl
  | succ n ih =>
    rw [loop, loop, ih]
    cases loop n f s with
    | none => rfl
    | some t => exact h n t

theorem wr_map (φ : β → γ) (xs : List β) (i : Nat) (v : β) : wr (xs.map φ) i (φ v) = (wr xs i v).map (List.map φ) := by
  unfold wr
  rw [List.length_map]
  split
  · rw [← List.map_set]; rfl
  · rfl

theorem rdI_map (φ : β → γ) (xs : List β) (i : Int) : rdI (xs.map φ) i = (rdI xs i).map φ := by
  unfold rdI
  split
  · rfl
  · rw [List.getElem?_map]

theorem wrI_map (φ : β → γ) (xs : List β) (i : Int) (v : β) : wrI (xs.map φ) i (φ v) = (wrI xs i v).map (List.map φ) := by
  unfold wrI
  split
  · rfl
  · exact wr_map φ xs _ v

end

/-! ## Conditioning -/

open QM.MathReal

theorem minmax_fold (g : ℝ) (hg : 0 < g) (l : List ℝ) (a b : ℝ) :
    (l.map (g * ·)).foldl (fun (mm : ℝ × ℝ) temp => (if temp < mm.1 then temp else mm.1, if temp > mm.2 then temp else mm.2)) (g * a, g * b) =
      let r := l.foldl (fun (mm : ℝ × ℝ) temp => (if temp < mm.1 then temp else mm.1, if temp > mm.2 then temp else mm.2)) (a, b)
      (g * r.1, g * r.2) := by
  induction l generalizing a b with
  | nil => rfl
  | cons x l ih =>
    simp only [List.map_cons, List.foldl_cons]
    have e1 : (if g * x < g * a then g * x else g * a) = g * (if x < a then x else a) := by
      simp only [mul_lt_mul_iff_right₀ hg]; split <;> rfl
    have e2 : (if g * x > g * b then g * x else g * b) = g * (if x > b then x else b) := by
      simp only [gt_iff_lt, mul_lt_mul_iff_right₀ hg]; split <;> rfl
    rw [e1, e2, ih]

theorem minmax_scale (g : ℝ) (hg : 0 < g) (l : List ℝ) : getFrameMinMax (l.map (g * ·)) = (g * (getFrameMinMax l).1, g * (getFrameMinMax l).2) := by
  cases l with
  | nil => simp [getFrameMinMax]
  | cons x l => exact minmax_fold g hg (x :: l) x x

theorem alpha_fold (g : ℝ) (alpha : Nat) (l : List ℝ) (a : ℝ) : (l.map (g * ·)).foldl (fun a x => a + |x| ^ (alpha : ℝ)) (|g| ^ (alpha : ℝ) * a) =
    |g| ^ (alpha : ℝ) * l.foldl (fun a x => a + |x| ^ (alpha : ℝ)) a := by
  induction l generalizing a with
  | nil => rfl
  | cons x l ih =>
    simp only [List.map_cons, List.foldl_cons]
    rw [← ih]
    congr 1
    rw [abs_mul, Real.mul_rpow (abs_nonneg _) (abs_nonneg _)]
    ring

theorem alpha_fold_nonneg (alpha : Nat) (l : List ℝ) (a : ℝ) (ha : 0 ≤ a) : 0 ≤ l.foldl (fun a x => a + |x| ^ (alpha : ℝ)) a := by
  induction l generalizing a with
  | nil => exact ha
  | cons x l ih =>
    simp only [List.foldl_cons]
    exact ih _ (by positivity)

theorem alphaNorm_scale (g : ℝ) (hg : 0 < g) (l : List ℝ) (alpha : Nat) : getAlphaNorm (l.map (g * ·)) alpha = (getAlphaNorm l alpha).map (g * ·) := by
  unfold getAlphaNorm
  rw [List.length_map]
  split
  · rfl
  · next h =>
    have h0 : (alpha : ℝ) ≠ 0 := by
      have : alpha ≠ 0 := fun h' => h (Or.inr h')
      exact_mod_cast this
    have e := alpha_fold g alpha l 0
    rw [mul_zero] at e
    rw [Option.map_some, e, mul_div_assoc, Real.mul_rpow (by positivity) (div_nonneg (alpha_fold_nonneg alpha l 0 le_rfl) (by positivity)),
      ← Real.rpow_mul (abs_nonneg g), mul_one_div_cancel h0, Real.rpow_one, abs_of_pos hg]

theorem removeDC_scale (g : ℝ) (hg : 0 < g) (len alpha : Nat) (src dst : List ℝ) :
    DFProcess.removeDCNormalize len alpha (src.map (g * ·)) dst = DFProcess.removeDCNormalize len alpha src dst := by
  unfold DFProcess.removeDCNormalize
  rw [List.length_map, ← List.map_take, minmax_scale g hg, alphaNorm_scale g hg]
  split
  · rfl
  · cases getAlphaNorm (src.take len) alpha with
    | none => rfl
    | some n =>
      simp only [Option.map_some, Option.bind_eq_bind, Option.bind_some]
      by_cases hn : n = 0
      · subst hn
        rw [if_pos (mul_zero _), if_pos rfl]
      · rw [if_neg (mul_ne_zero hg.ne' hn), if_neg hn]
        congr 1
        funext i dst
        rw [List.getElem?_map]
        cases src[i]? with
        | none => rfl
        | some v =>
          simp only [Option.map_some, Option.bind_some]
          rw [← mul_sub, mul_div_mul_left _ _ hg.ne']

/-! ## Beats -/

section
variable {K : Type} [Field K] [LinearOrder K] [IsStrictOrderedRing K]

open QM.TempoTrackV2

theorem valFold (g : K) (hg : 0 < g) (l : List (Option K)) (m : K) : (l.map (Option.map (g * ·))).foldl valStep (g * m) = g * l.foldl valStep m := by
  induction l generalizing m with
  | nil => rfl
  | cons x l ih =>
    simp only [List.map_cons, List.foldl_cons]
    rw [← ih]
    congr 1
    cases x with
    | none => rfl
    | some v =>
      simp only [valStep, Option.map_some]
      simp only [mul_lt_mul_iff_right₀ hg]
      split <;> rfl

theorem getMaxVal_scale (g : K) (hg : 0 < g) (l : List (Option K)) : getMaxVal (l.map (Option.map (g * ·))) = g * getMaxVal l := by
  have := valFold g hg l 0
  rwa [mul_zero] at this

theorem indFold (g : K) (hg : 0 < g) (l : List (Option K)) (m : K) (a b : Nat) :
    (l.map (Option.map (g * ·))).foldl indStep (g * m, a, b) = ((fun r : K × Nat × Nat => (g * r.1, r.2)) (l.foldl indStep (m, a, b))) := by
  induction l generalizing m a b with
  | nil => rfl
  | cons x l ih =>
    simp only [List.map_cons, List.foldl_cons]
    cases x with
    | none => exact ih _ _ _
    | some v =>
      simp only [indStep, Option.map_some]
      simp only [mul_lt_mul_iff_right₀ hg]
      split
      · exact ih _ _ _
      · exact ih _ _ _

theorem getMaxInd_scale (g : K) (hg : 0 < g) (l : List (Option K)) : getMaxInd (l.map (Option.map (g * ·))) = getMaxInd l := by
  have := indFold g hg l 0 0 0
  rw [mul_zero] at this
  unfold getMaxInd
  rw [this]

variable [FloorRing K]

theorem beatStep_scale (g : K) (hg : 0 < g) (wt : K → Nat → Option K) (alpha : K) (df bp : List K) (i : Nat) (st : List K × List Int) :
    beatStep wt alpha (df.map (g * ·)) bp i (st.1.map (g * ·), st.2) =
      (beatStep wt alpha df bp i st).map (fun st => (st.1.map (g * ·), st.2)) := by
  unfold beatStep
  cases bp[i]? with
  | none => rfl
  | some p =>
    simp only [Option.bind_eq_bind, Option.bind_some]
    split
    · rfl
    · have hl := loop_map (List.map (Option.map (g * ·))) (cround (-(1 / 2) * p) - toInt (-2 * p) + 1).toNat
        (fun j (c : List (Option K)) =>
          if (i : Int) + toInt (-2 * p) + j ≥ 0 then st.1[((i : Int) + toInt (-2 * p) + j).toNat]?.bind fun v => wr c j ((wt p j).map (· * v))
          else pure c)
        (fun j (c : List (Option K)) =>
          if (i : Int) + toInt (-2 * p) + j ≥ 0 then (st.1.map (g * ·))[((i : Int) + toInt (-2 * p) + j).toNat]?.bind fun v => wr c j ((wt p j).map (· * v))
          else pure c)
        (by
          intro j c
          split
          · rw [List.getElem?_map]
            cases st.1[((i : Int) + toInt (-2 * p) + j).toNat]? with
            | none => rfl
            | some v =>
              simp only [Option.map_some, Option.bind_some]
              rw [← wr_map]
              congr 1
              cases wt p j with
              | none => rfl
              | some w =>
                simp only [Option.map_some]
                congr 1
                ring
          · rfl)
        (List.replicate (cround (-(1 / 2) * p) - toInt (-2 * p) + 1).toNat (some 0))
      rw [List.map_replicate, Option.map_some, mul_zero] at hl
      rw [hl]
      cases loop (cround (-(1 / 2) * p) - toInt (-2 * p) + 1).toNat
        (fun j (c : List (Option K)) =>
          if (i : Int) + toInt (-2 * p) + j ≥ 0 then st.1[((i : Int) + toInt (-2 * p) + j).toNat]?.bind fun v => wr c j ((wt p j).map (· * v))
          else pure c) (List.replicate (cround (-(1 / 2) * p) - toInt (-2 * p) + 1).toNat (some 0)) with
      | none => rfl
      | some cs =>
        simp only [Option.map_some, Option.bind_some]
        rw [List.getElem?_map]
        cases df[i]? with
        | none => rfl
        | some x =>
          simp only [Option.map_some, Option.bind_some]
          rw [getMaxVal_scale g hg, getMaxInd_scale g hg, show alpha * (g * getMaxVal cs) + (1 - alpha) * (g * x) = g * (alpha * getMaxVal cs + (1 - alpha) * x) by ring,
            wr_map]
          cases wr st.1 i (alpha * getMaxVal cs + (1 - alpha) * x) with
          | none => rfl
          | some cum =>
            simp only [Option.map_some, Option.bind_some]
            cases wr st.2 i ((i : Int) + toInt (-2 * p) + getMaxInd cs) with
            | none => rfl
            | some back => rfl

theorem startPoint_scale (g : K) (hg : 0 < g) (bp cum : List K) (n : Nat) : startPoint bp (cum.map (g * ·)) n = startPoint bp cum n := by
  unfold startPoint
  cases bp.getLast? with
  | none => rfl
  | some last =>
    simp only [Option.bind_eq_bind, Option.bind_some]
    have hl := loop_map (List.map (g * ·)) ((n : Int) - toInt ((n : K) - last)).toNat
      (fun k (tmp : List K) => (rdI cum (toInt ((n : K) - last) + k)).bind fun v => pure (tmp ++ [v]))
      (fun k (tmp : List K) => (rdI (cum.map (g * ·)) (toInt ((n : K) - last) + k)).bind fun v => pure (tmp ++ [v]))
      (by
        intro k tmp
        rw [rdI_map]
        cases rdI cum (toInt ((n : K) - last) + k) with
        | none => rfl
        | some v => simp) []
    rw [List.map_nil] at hl
    rw [hl]
    cases loop ((n : Int) - toInt ((n : K) - last)).toNat
      (fun k (tmp : List K) => (rdI cum (toInt ((n : K) - last) + k)).bind fun v => pure (tmp ++ [v])) [] with
    | none => rfl
    | some tmp =>
      simp only [Option.map_some, Option.bind_some]
      rw [← getMaxInd_scale g hg (tmp.map some), List.map_map, List.map_map]
      rfl

end

/-! ## The classic tracker -/

section
variable {K E : Type} [Field K] [LinearOrder K] [IsStrictOrderedRing K] [FloorRing K]

open QM.TempoTrack

/-- A framer on a louder source. -/
def louderFramer (g : K) (s : Framer.State K) : Framer.State K := { s with src := s.src.map (g * ·) }

omit [LinearOrder K] [IsStrictOrderedRing K] [FloorRing K] in
theorem copyIn_scale (g : K) (src : List K) (n : Nat) (ix : Int) (dst : List K) :
    Framer.copyIn (src.map (g * ·)) n ix (dst.map (g * ·)) = (Framer.copyIn src n ix dst).map (fun p => (p.1, p.2.map (g * ·))) := by
  unfold Framer.copyIn
  refine loop_map (fun p : Int × List K => (p.1, p.2.map (g * ·))) n _ _ ?_ (ix, dst)
  rintro i ⟨a, b⟩
  dsimp only
  rw [rdI_map]
  cases rdI src a with
  | none => rfl
  | some v =>
    simp only [Option.map_some, Option.bind_eq_bind, Option.bind_some]
    rw [wr_map]
    cases wr b i v <;> rfl

omit [LinearOrder K] [IsStrictOrderedRing K] [FloorRing K] in
theorem getFrame_scale (g : K) (s : Framer.State K) (dst : List K) :
    Framer.getFrame (louderFramer g s) (dst.map (g * ·)) = (Framer.getFrame s dst).map (fun p => (louderFramer g p.1, p.2.map (g * ·))) := by
  unfold Framer.getFrame louderFramer
  dsimp only
  rw [List.length_map]
  split
  · rw [copyIn_scale]
    cases Framer.copyIn s.src s.frameLength s.srcIndex dst <;> rfl
  · rw [copyIn_scale]
    cases Framer.copyIn s.src ((s.src.length : Int) - s.srcIndex).toNat s.srcIndex dst with
    | none => rfl
    | some p =>
      simp only [Option.map_some, Option.bind_eq_bind, Option.bind_some]
      rw [loop_map (List.map (g * ·)) _ (fun i dst => wrI dst ((s.src.length : Int) - s.srcIndex + i) 0)]
      · cases loop ((s.frameLength : Int) - ((s.src.length : Int) - s.srcIndex)).toNat
          (fun i dst => wrI dst ((s.src.length : Int) - s.srcIndex + i) 0) p.2 <;> rfl
      · intro i d
        have := wrI_map (g * ·) d ((s.src.length : Int) - s.srcIndex + i) 0
        rwa [mul_zero] at this

theorem phaseMM_scale (g : K) (hg : 0 < g) (df weighting : List K) (win : Nat) (period : K) :
    phaseMM (df.map (g * ·)) weighting win period = phaseMM df weighting win period := by
  unfold phaseMM
  dsimp only
  split
  · rfl
  · generalize (MathReal.round period).toNat = p
    have h1 : ∀ o n, loop n (fun k temp => (df.map (g * ·))[o + k * (p + 1)]?.bind fun v =>
          some (temp + v * ((((win : Int) - (o + k * (p + 1) : Nat) : Int) : K) / (win : K)) ^ 2)) 0 =
        (loop n (fun k temp => df[o + k * (p + 1)]?.bind fun v =>
          some (temp + v * ((((win : Int) - (o + k * (p + 1) : Nat) : Int) : K) / (win : K)) ^ 2)) 0).map (g * ·) := by
      intro o n
      have := loop_map (g * ·) n (fun k temp => df[o + k * (p + 1)]?.bind fun v =>
          some (temp + v * ((((win : Int) - (o + k * (p + 1) : Nat) : Int) : K) / (win : K)) ^ 2))
        (fun k temp => (df.map (g * ·))[o + k * (p + 1)]?.bind fun v =>
          some (temp + v * ((((win : Int) - (o + k * (p + 1) : Nat) : Int) : K) / (win : K)) ^ 2)) (by
            intro k t
            rw [List.getElem?_map]
            cases df[o + k * (p + 1)]? with
            | none => rfl
            | some v =>
              simp only [Option.map_some, Option.bind_some]
              congr 1
              ring) 0
      rwa [mul_zero] at this
    simp only [Option.bind_eq_bind, Option.pure_def]
    have h2 := loop_map (List.map (g * ·)) p (fun o (align : List K) =>
        (loop ((win - o + p) / (p + 1)) (fun k temp => df[o + k * (p + 1)]?.bind fun v =>
          some (temp + v * ((((win : Int) - (o + k * (p + 1) : Nat) : Int) : K) / (win : K)) ^ 2)) 0).bind fun temp =>
        weighting[o]?.bind fun w => wr align o (temp * w))
      (fun o (align : List K) =>
        (loop ((win - o + p) / (p + 1)) (fun k temp => (df.map (g * ·))[o + k * (p + 1)]?.bind fun v =>
          some (temp + v * ((((win : Int) - (o + k * (p + 1) : Nat) : Int) : K) / (win : K)) ^ 2)) 0).bind fun temp =>
        weighting[o]?.bind fun w => wr align o (temp * w))
      (by
        intro o align
        rw [h1]
        cases loop ((win - o + p) / (p + 1)) (fun k temp => df[o + k * (p + 1)]?.bind fun v =>
          some (temp + v * ((((win : Int) - (o + k * (p + 1) : Nat) : Int) : K) / (win : K)) ^ 2)) 0 with
        | none => rfl
        | some t =>
          simp only [Option.map_some, Option.bind_some]
          cases weighting[o]? with
          | none => rfl
          | some w =>
            simp only [Option.bind_some]
            rw [mul_assoc, wr_map]) (List.replicate p 0)
    rw [List.map_replicate, mul_zero] at h2
    rw [h2]
    cases loop p (fun o (align : List K) =>
        (loop ((win - o + p) / (p + 1)) (fun k temp => df[o + k * (p + 1)]?.bind fun v =>
          some (temp + v * ((((win : Int) - (o + k * (p + 1) : Nat) : Int) : K) / (win : K)) ^ 2)) 0).bind fun temp =>
        weighting[o]?.bind fun w => wr align o (temp * w)) (List.replicate p 0) with
    | none => rfl
    | some al =>
      simp only [Option.map_some, Option.bind_some]
      have h3 := loop_map (fun s : K × Nat => (g * s.1, s.2)) p (fun i (s : K × Nat) => al[i]?.bind fun v => some (if v > s.1 then (v, i) else s))
        (fun i (s : K × Nat) => (al.map (g * ·))[i]?.bind fun v => some (if v > s.1 then (v, i) else s))
        (by
          intro i s
          rw [List.getElem?_map]
          cases al[i]? with
          | none => rfl
          | some v =>
            simp only [Option.map_some, Option.bind_some, gt_iff_lt, mul_lt_mul_iff_right₀ hg]
            split <;> rfl) (0, 0)
      rw [mul_zero] at h3
      rw [h3]
      cases loop p (fun i (s : K × Nat) => al[i]?.bind fun v => some (if v > s.1 then (v, i) else s)) (0, 0) <;> rfl

/-- The state of the tracker on a louder detection function. -/
def louderSt (g : K) (s : St K) : St K := { s with framer := louderFramer g s.framer, raw := s.raw.map (g * ·) }

omit [IsStrictOrderedRing K] in
theorem choose_scale (g : K) (env : Env K E) (acf : List (Option K)) (idx : Nat) (s : St K) :
    choose env acf idx (louderSt g s) = (choose env acf idx s).map (fun r => (louderSt g r.1, r.2)) := by
  unfold choose louderSt
  dsimp only
  cases flags s.periodP idx s.stepFlag s.constFlag with
  | none => rfl
  | some fl =>
    simp only [Option.bind_eq_bind, Option.bind_some, Option.pure_def]
    cases s.gw[0]? with
    | none => rfl
    | some g0 =>
      simp only [Option.bind_some]
      cases s.periodP[idx]? with
      | none => rfl
      | some pP =>
        simp only [Option.bind_some]
        split
        · cases findMeter acf pP with
          | none => rfl
          | some tsig =>
            simp only [Option.bind_some]
            cases createCombFilter env s.gw pP with
            | none => rfl
            | some gw =>
              simp only [Option.bind_some]
              cases tempoMM env acf gw tsig s.locked with
              | none => rfl
              | some r =>
                simp only [Option.bind_some]
                cases wr s.periodG idx r.1 with
                | none => rfl
                | some pg =>
                  simp only [Option.bind_some]
                  cases createPhaseExtractor env s.pw r.1 s.fsp 0 <;> rfl
        · split
          · cases s.periodG[idx]? with
            | none => rfl
            | some pg =>
              simp only [Option.bind_some]
              cases createPhaseExtractor env s.pw (if pg > 10000 then ((5168 / 120 : Nat) : K) else pg) s.fsp s.lastBeat <;> rfl
          · cases createPhaseExtractor env s.pw pP s.fsp 0 <;> rfl

theorem frameStep_scale (g : K) (hg : 0 < g) (env : Env K E) (he : ∀ f : List K, env.acf (f.map (g * ·)) = env.acf f) (fuel : Nat) (rw : List K)
    (idx : Nat) (s : St K) : frameStep env fuel rw idx (louderSt g s) = (frameStep env fuel rw idx s).map (louderSt g) := by
  unfold frameStep
  have h0 : Framer.getFrame (louderSt g s).framer (louderSt g s).raw =
    (Framer.getFrame s.framer s.raw).map (fun p => (louderFramer g p.1, p.2.map (g * ·))) := getFrame_scale g s.framer s.raw
  rw [h0]
  cases Framer.getFrame s.framer s.raw with
  | none => rfl
  | some fr =>
    simp only [Option.map_some, Option.bind_eq_bind, Option.bind_some, Option.pure_def, he]
    have e1 : (louderSt g s).locked = s.locked := rfl
    have e2 : (louderSt g s).periodP = s.periodP := rfl
    have e3 : (louderSt g s).periodG = s.periodG := rfl
    have e4 : (louderSt g s).gw = s.gw := rfl
    have e5 : (louderSt g s).tsig = s.tsig := rfl
    have e6 : (louderSt g s).stepFlag = s.stepFlag := rfl
    rw [e1, e2, e3, e4, e5, e6]
    cases tempoMM env (env.acf fr.2) rw 0 s.locked with
    | none => rfl
    | some r =>
      simp only [Option.bind_some]
      cases wr s.periodP idx r.1 with
      | none => rfl
      | some pp =>
        simp only [Option.bind_some]
        cases contextPeriod env (env.acf fr.2) s.gw s.tsig r.2 with
        | none => rfl
        | some c =>
          simp only [Option.bind_some]
          cases wr s.periodG idx c.1 with
          | none => rfl
          | some pg =>
            simp only [Option.bind_some]
            cases stepDetect pp pg idx s.stepFlag with
            | none => rfl
            | some f =>
              simp only [Option.bind_some]
              have hc := choose_scale g env (env.acf fr.2) idx { s with framer := fr.1, raw := fr.2, periodP := pp, locked := c.2, periodG := pg, stepFlag := f }
              change Option.bind (choose env (env.acf fr.2) idx (louderSt g { s with framer := fr.1, raw := fr.2, periodP := pp, locked := c.2, periodG := pg, stepFlag := f })) _ = _
              rw [hc]
              cases choose env (env.acf fr.2) idx { s with framer := fr.1, raw := fr.2, periodP := pp, locked := c.2, periodG := pg, stepFlag := f } with
              | none => rfl
              | some q =>
                simp only [Option.map_some, Option.bind_some]
                have h5 : phaseMM (louderSt g q.1).raw (louderSt g q.1).pw env.win q.2 = phaseMM q.1.raw q.1.pw env.win q.2 :=
                  phaseMM_scale g hg q.1.raw q.1.pw env.win q.2
                rw [h5]
                cases phaseMM q.1.raw q.1.pw env.win q.2 with
                | none => rfl
                | some al =>
                  simp only [Option.bind_some]
                  have h6 : beatPredict fuel (louderSt g q.1).fsp (al : K) q.2 env.lag (louderSt g q.1).beats = beatPredict fuel q.1.fsp (al : K) q.2 env.lag q.1.beats := rfl
                  rw [h6]
                  cases beatPredict fuel q.1.fsp (al : K) q.2 env.lag q.1.beats <;> rfl

end

end QM.Level
