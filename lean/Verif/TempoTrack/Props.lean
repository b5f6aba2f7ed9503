import Verif.TempoTrack.Inv
import Mathlib.Algebra.Order.Ring.Rat
import Mathlib.Data.Rat.Floor
import Mathlib.Data.List.Chain

/-!
# C37: the classic tempo tracker

`Placed lag n beats` (in `Inv.lean`) says that the beats are, frame by frame, `align k`, `align k + period k`, `align k + 2 period k`, …
as far as the end of frame `k`, counted from the start `k * lag` of the frame, with `align k < period k ≤ lag`.
-/

namespace QM.TempoTrack

open QM.MathReal

variable {K E : Type} [Field K] [LinearOrder K] [FloorRing K] [IsStrictOrderedRing K] {b : Prop}

/-- A tracker as its constructor leaves it: the framer with the window and lag lengths. -/
def freshFramer (env : Env K E) : Framer.State K := Framer.configure Framer.new env.win env.lag

theorem beatsIn_mem {lag fsp al q : Nat} (h1 : al < q) (h2 : q ≤ lag) {x : Int} (hx : x ∈ beatsIn lag fsp al q) :
    (fsp : Int) ≤ x ∧ x < fsp + lag := by
  unfold beatsIn at hx
  obtain ⟨j, hj, rfl⟩ := List.mem_map.mp hx
  have hj' := List.mem_range.mp hj
  have h3 : j * q ≤ lag - 1 - al := (Nat.le_div_iff_mul_le (by omega)).mp (by omega)
  have h4 : ((j * q : Nat) : Int) ≤ ((lag - 1 - al : Nat) : Int) := by exact_mod_cast h3
  push_cast at h4
  have h5 : (0 : Int) ≤ (j : Int) * q := by positivity
  constructor
  · omega
  · omega

theorem beatsIn_sorted {lag fsp al q : Nat} (h1 : al < q) : (beatsIn lag fsp al q).Pairwise (· < ·) := by
  unfold beatsIn
  rw [List.pairwise_map]
  refine List.Pairwise.imp ?_ List.pairwise_lt_range
  intro i j hij
  have : ((i : Int)) < j := by exact_mod_cast hij
  have hq : (0 : Int) < q := by exact_mod_cast (by omega : 0 < q)
  have := mul_lt_mul_of_pos_right this hq
  linarith

theorem Placed.sorted {lag n : Nat} {beats : List Int} (h : Placed lag n beats) :
    beats.Pairwise (· < ·) ∧ (∀ x ∈ beats, 0 ≤ x ∧ x < ((n * lag : Nat) : Int)) ∧
    ∀ k, k < n → ∃ x ∈ beats, ((k * lag : Nat) : Int) ≤ x ∧ x < (((k + 1) * lag : Nat) : Int) := by
  obtain ⟨a, p, h1, h2⟩ := h
  induction n generalizing beats with
  | zero => subst h2; exact ⟨by simp, by simp, by intro k hk; omega⟩
  | succ n ih =>
    obtain ⟨i1, i2, i3⟩ := ih (fun k hk => h1 k (by omega)) rfl
    obtain ⟨g1, g2⟩ := h1 n (by omega)
    rw [List.range_succ, List.flatMap_append, List.flatMap_singleton] at h2
    have e : (((n + 1) * lag : Nat) : Int) = ((n * lag : Nat) : Int) + lag := by push_cast; ring
    subst h2
    refine ⟨?_, ?_, ?_⟩
    · rw [List.pairwise_append]
      refine ⟨i1, beatsIn_sorted g1, fun x hx y hy => ?_⟩
      have := (i2 x hx).2
      have := (beatsIn_mem g1 g2 hy).1
      omega
    · intro x hx
      rcases List.mem_append.mp hx with h | h
      · have := i2 x h; omega
      · have := beatsIn_mem g1 g2 h
        omega
    · intro k hk
      by_cases hkn : k < n
      · obtain ⟨x, hx1, hx2⟩ := i3 k hkn
        exact ⟨x, List.mem_append_left _ hx1, hx2⟩
      · have hkn' : k = n := by omega
        subst hkn'
        have hm : ((k * lag : Nat) : Int) + (a k : Int) + (0 : Nat) * (p k : Int) ∈ beatsIn lag (k * lag) (a k) (p k) := by
          unfold beatsIn
          exact List.mem_map.mpr ⟨0, List.mem_range.mpr (Nat.succ_pos _), rfl⟩
        have hb := beatsIn_mem g1 g2 hm
        exact ⟨_, List.mem_append_right _ hm, hb.1, by rw [e]; exact hb.2⟩

theorem process_ok (env : Env K E) (hc : Calls env) (hlag : 3 ≤ env.lag) (fuel : Nat) (hb : b → Sizes env fuel) (raw df : List K)
    (hraw : raw.length = env.win) :
    Tri b (process env fuel (freshFramer env) raw df) (fun r => ∃ n, r.1.maxFrames = n ∧ r.1.frameLength = env.win ∧ r.1.stepSize = env.lag ∧
      r.1.srcIndex = ((n * env.lag : Nat) : Int) ∧ (df.length ≤ 2147483647 → df.length ≤ n * env.lag ∧ ∀ m, df.length ≤ m * env.lag → n ≤ m) ∧
      r.2.1.length = env.win ∧ Placed env.lag n r.2.2.1 ∧ r.2.2.2.length = n ∧ ∀ t ∈ r.2.2.2, Tempo t) := by
  obtain ⟨fr, h1, h2, _⟩ := Framer.C13_maxFrames (Framer.new : Framer.State K) env.win env.lag (by omega) df
  have hfr : fr.src = df ∧ fr.frameLength = env.win ∧ fr.stepSize = env.lag ∧ fr.srcIndex = 0 ∧ (fr.maxFrames - 1) * env.lag ≤ df.length := by
    unfold Framer.setSource at h1
    have hstep : (Framer.configure (Framer.new : Framer.State K) env.win env.lag).stepSize = env.lag := rfl
    simp only [hstep] at h1
    rw [if_neg (by omega)] at h1
    cases h1
    refine ⟨rfl, rfl, rfl, rfl, ?_⟩
    dsimp only
    have hle := Nat.div_mul_le_self df.length env.lag
    refine le_trans (Nat.mul_le_mul_right env.lag ?_) hle
    generalize df.length / env.lag = g
    split_ifs <;> omega
  obtain ⟨f1, f2, f3, f4, f5⟩ := hfr
  unfold process
  unfold freshFramer
  rw [bind_ok h1]
  refine Tri.bind (createCombFilter_ok env hc.ex_pos hc.root_pos (by simp) (le_refl 0)) (fun rw ⟨hrw1, hrw2⟩ => ?_)
  dsimp only
  have inv0 : Inv env fr.maxFrames df 0 (St.mk fr raw 0 0 0 0 0 (List.replicate env.lag 0) (List.replicate env.lag 0)
      (List.replicate fr.maxFrames 0) (List.replicate fr.maxFrames 0) [] 0 []) :=
    { src := f1, frame := f2, step := f3, maxf := rfl, pos := by dsimp only; rw [f4]; simp
      raw := hraw, flag0 := by simp, flag2 := by simp, flag1 := by simp
      const := rfl, fsp := by simp, last := Or.inl rfl, gwl := by simp
      gw := Or.inl (fun w hw => (List.mem_replicate.mp hw).2), pw := by simp
      pp := by simp, pg := by simp, beats := ⟨fun _ => 0, fun _ => 0, by intro k hk; omega, by simp⟩
      locked := Or.inl rfl, tempi := by simp }
  refine Tri.bind (Tri.loop (fun i s => Inv env fr.maxFrames df i s) inv0 ?_) (fun s hs => Tri.pure ?_)
  · intro i s hi hinv
    refine frameStep_ok env hc hlag fuel fr.maxFrames hb df rw hrw1 hrw2 i hi ?_ s hinv
    exact le_trans (Nat.mul_le_mul_right env.lag (by omega)) f5
  · exact ⟨fr.maxFrames, hs.maxf, hs.frame, hs.step, hs.pos, h2, hs.raw, hs.beats, hs.tempi.1, hs.tempi.2⟩

/-- C37: the beats. Whenever the tracker completes, there is one frame for each `lag` values of the detection function; in each frame the
beats are equally spaced, by at least one and at most `lag`, from an offset less than the spacing to the end of the frame; so all
beats are in strictly increasing order, from zero to the end of the last frame, with at least one in every frame. One tempo is reported
for each frame, zero or between 30 and 180. -/
theorem C37_beats (env : Env K E) (hc : Calls env) (hlag : 3 ≤ env.lag) (fuel : Nat) (raw df : List K) (hraw : raw.length = env.win)
    (hdf : df.length ≤ 2147483647) (fr : Framer.State K) (raw' : List K) (beats : List Int) (tempi : List K)
    (h : process env fuel (freshFramer env) raw df = some (fr, raw', beats, tempi)) :
    ∃ n, (df.length ≤ n * env.lag ∧ ∀ m, df.length ≤ m * env.lag → n ≤ m) ∧ Placed env.lag n beats ∧ beats.Pairwise (· < ·) ∧
      (∀ x ∈ beats, 0 ≤ x ∧ x < ((n * env.lag : Nat) : Int)) ∧
      (∀ k, k < n → ∃ x ∈ beats, ((k * env.lag : Nat) : Int) ≤ x ∧ x < (((k + 1) * env.lag : Nat) : Int)) ∧
      tempi.length = n ∧ ∀ t ∈ tempi, t = 0 ∨ (30 ≤ t ∧ t ≤ 180) := by
  obtain ⟨n, _, _, _, _, h5, _, h7, h8, h9⟩ := Tri.partial (process_ok (b := False) env hc hlag fuel (fun h => h.elim) raw df hraw) h
  obtain ⟨s1, s2, s3⟩ := h7.sorted
  exact ⟨n, h5 hdf, h7, s1, s2, s3, h8, h9⟩

/-- C37: with a window of at least four lags and three, not of the form `6 q + 2` for any `q` up to the lag, the tracker never reads or
writes outside an array, and its beat placement ends within `lag + 1` rounds per frame. -/
theorem C37_safe_partial (env : Env K E) (hc : Calls env) (hlag : 3 ≤ env.lag) (fuel : Nat) (hs : Sizes env fuel) (raw df : List K)
    (hraw : raw.length = env.win) : ∃ r, process env fuel (freshFramer env) raw df = some r := by
  obtain ⟨r, h, _⟩ := Tri.total (process_ok (b := True) env hc hlag fuel (fun _ => hs) raw df hraw) trivial
  exact ⟨r, h⟩

/-- C37, outside those sizes: the metre detection reads past the end of the autocorrelation when its length is `6 p + 2` for the rounded
period `p`, as for the window of 512 and the period 85. -/
theorem C37_meter_overrun (acf : List (Option K)) (period : K) (p : Nat) (hp : MathReal.round period = p) (hl : acf.length = 6 * p + 2) :
    findMeter acf period = none := by
  have key : Tri True (energy acf (6 * p)) (fun _ => False) → False := by
    intro h
    obtain ⟨_, _, h⟩ := Tri.total h trivial
    exact h
  have he : energy acf (6 * p) = none := by
    unfold energy
    apply loop_none_of_le (m := 5) (le_refl 5)
    have h4 : ∀ t : Option K, (do
        let v ← rdI acf (6 * (p : Int) - 2 + (4 : Nat))
        Pure.pure (f := Option) (do
          let t ← t
          let v ← v
          some (t + v))) = none := by
      intro t
      have : rdI acf (6 * (p : Int) - 2 + (4 : Nat)) = none := by
        unfold rdI
        by_cases h0 : (6 * (p : Int) - 2 + (4 : Nat)) < 0
        · rw [if_pos h0]
        · rw [if_neg h0, List.getElem?_eq_none (by omega)]
      rw [this]; rfl
    rw [loop]
    cases loop 4 (fun i (t : Option K) => do
        let v ← rdI acf (6 * (p : Int) - 2 + i)
        Pure.pure (f := Option) (do
          let t ← t
          let v ← v
          some (t + v))) (some 0) with
    | none => rfl
    | some t => exact h4 t
  unfold findMeter
  dsimp only
  rw [hp]
  by_cases h5 : acf.length < 5
  · rw [if_pos h5]
  · rw [if_neg h5, if_neg (by omega), he]
    cases energy acf (3 * p) with
    | none => rfl
    | some _ =>
      cases energy acf (4 * p) with
      | none => rfl
      | some _ => rfl

/-- C37, with a rounded period of zero the beat placement never ends. -/
theorem C37_no_progress (fsp : Int) (alignment period : K) (step : Nat) (hp : MathReal.round period = 0)
    (ha : MathReal.round alignment < step) (beats : List Int) (fuel : Nat) : beatPredict fuel fsp alignment period step beats = none := by
  have key : ∀ (fuel : Nat) (beat fep : Int) (beats : List Int), beat < fep → place 0 fep fuel beat beats = none := by
    intro fuel
    induction fuel with
    | zero => intro beat fep beats _; rfl
    | succ fuel ih =>
      intro beat fep beats h
      unfold place
      rw [if_pos (by omega)]
      exact ih _ _ _ (by omega)
  unfold beatPredict
  dsimp only
  rw [hp]
  exact key _ _ _ _ (by omega)

/-- C37, calling `process` again on the same tracker: the framer is not rewound, so that a second detection function shorter than the
frames of the first makes it write before the frame buffer. -/
theorem C37_second_call (env : Env K E) (hc : Calls env) (hlag : 3 ≤ env.lag) (fuel : Nat) (raw df : List K) (hraw : raw.length = env.win)
    (hwin : 0 < env.win) (fr : Framer.State K) (raw' : List K) (beats : List Int) (tempi : List K)
    (h : process env fuel (freshFramer env) raw df = some (fr, raw', beats, tempi)) (fuel' : Nat) (df' : List K) (h0 : df' ≠ [])
    (hshort : df'.length < fr.maxFrames * env.lag) : process env fuel' fr raw' df' = none := by
  obtain ⟨n, h1, h2, h3, h4, _⟩ := Tri.partial (process_ok (b := False) env hc hlag fuel (fun h => h.elim) raw df hraw) h
  dsimp only at h1 h2 h3 h4
  unfold process
  have hl : 0 < df'.length := List.length_pos_iff.mpr h0
  unfold Framer.setSource
  dsimp only
  rw [if_neg (by omega)]
  rw [bind_ok rfl]
  cases createCombFilter env (List.replicate env.lag 0) 0 with
  | none => rfl
  | some rw =>
    rw [bind_ok rfl]
    dsimp only
    rw [loop_none_of_le (m := 1)]
    · rfl
    · rw [h3]
      have hdm := Nat.div_add_mod df'.length env.lag
      by_cases hlt : df'.length / env.lag * env.lag < df'.length
      · rw [if_pos hlt]
        generalize df'.length / env.lag = g
        split_ifs <;> omega
      · rw [if_neg hlt]
        have : 1 ≤ df'.length / env.lag := by
          by_contra hcon
          have h00 : df'.length / env.lag = 0 := Nat.lt_one_iff.mp (not_le.mp hcon)
          rw [h00] at hlt; omega
        revert this
        generalize df'.length / env.lag = g
        intro this
        split_ifs <;> omega
    · unfold loop
      rw [show (loop 0 (frameStep env fuel' rw) _ : Option (St K)) = some _ from rfl]
      show frameStep env fuel' rw 0 _ = none
      unfold frameStep
      dsimp only
      have hg : ∀ (st : Framer.State K), st.src = df' → st.frameLength = fr.frameLength → st.srcIndex = fr.srcIndex →
          Framer.getFrame st raw' = none := by
        intro st e1 e2 e3
        exact Framer.C13_past_end st (n * env.lag) (e3.trans h4) (by rw [e1, ← h1]; exact hshort) (by rw [e2, h2]; exact hwin) raw'
      refine (congrArg (fun x => x >>= _) (hg _ ?_ ?_ ?_)).trans ?_
      · rfl
      · rfl
      · rfl
      · rfl

/-! ## A silent frame

When a frame of the detection function is all zero its conditioning divides zero by zero, and no value of the autocorrelation is a
number. -/

/-- The filter bank of such a frame has its maximum at its first place. -/
theorem maxIndex_nan (scr : List (Option K)) (h : ∀ (j : Nat) (v : K), scr[j]? = some (some v) → v ≤ 0) : maxIndex scr = 0 := by
  have key : ∀ (l : List (Option K)) (s : K × Nat × Nat), s.1 = 0 → s.2.1 = 0 → (∀ v, some v ∈ l → v ≤ 0) →
      (l.foldl (fun (s : K × Nat × Nat) x => match x with
      | some v => if v > s.1 then (v, s.2.2, s.2.2 + 1) else (s.1, s.2.1, s.2.2 + 1)
      | none => (s.1, s.2.1, s.2.2 + 1)) s).2.1 = 0 := by
    intro l
    induction l with
    | nil => intro s _ h _; exact h
    | cons x l ih =>
      intro s h1 h2 h3
      rw [List.foldl_cons]
      cases x with
      | none => exact ih _ h1 h2 (fun v hv => h3 v (List.mem_cons_of_mem _ hv))
      | some v =>
        have hv := h3 v (List.mem_cons_self)
        dsimp only
        rw [if_neg (by rw [h1]; exact not_lt.mpr hv)]
        exact ih _ h1 h2 (fun v hv => h3 v (List.mem_cons_of_mem _ hv))
  unfold maxIndex
  refine key scr _ rfl rfl (fun v hv => ?_)
  obtain ⟨j, hj⟩ := List.mem_iff_getElem?.mp hv
  exact h j v hj

theorem combBank_nan {lag : Nat} {acf : List (Option K)} (hn : ∀ v ∈ acf, v = none) {weight : List K} {tsig : Nat} {scr : List (Option K)}
    (h : combBank lag acf weight tsig = some scr) : ∀ (j : Nat) (v : K), scr[j]? = some (some v) → v ≤ 0 := by
  have hset : ∀ (ys : List (Option K)) (i : Nat), (∀ (j : Nat) (v : K), ys[j]? = some (some v) → v ≤ 0) → Tri False (wr ys i none)
      (fun ys => ∀ (j : Nat) (v : K), ys[j]? = some (some v) → v ≤ 0) := by
    intro ys i hys
    refine Tri.mono (Tri.wr (fun h => h.elim)) ?_
    rintro zs ⟨hi, rfl⟩ j v hj
    by_cases hji : i = j
    · subst hji
      rw [List.getElem?_set_self hi] at hj
      cases hj
    · rw [List.getElem?_set_ne hji] at hj
      exact hys j v hj
  have : Tri False (combBank lag acf weight tsig) (fun scr => ∀ (j : Nat) (v : K), scr[j]? = some (some v) → v ≤ 0) := by
    unfold combBank
    refine Tri.loop (fun _ (scr : List (Option K)) => ∀ (j : Nat) (v : K), scr[j]? = some (some v) → v ≤ 0) ?_ ?_
    · intro j v hj
      have := List.mem_of_getElem? hj
      have := (List.mem_replicate.mp this).2
      rw [Option.some.inj this]
    · intro i scr _ hs
      refine Tri.loop (fun _ (scr : List (Option K)) => ∀ (j : Nat) (v : K), scr[j]? = some (some v) → v ≤ 0) hs ?_
      intro a scr _ hs
      refine Tri.loop (fun _ (scr : List (Option K)) => ∀ (j : Nat) (v : K), scr[j]? = some (some v) → v ≤ 0) hs ?_
      intro c scr _ hs
      refine Tri.bind (Tri.get (fun h => h.elim)) (fun v hv => ?_)
      refine Tri.bind (Tri.get (fun h => h.elim)) (fun w _ => ?_)
      refine Tri.bind (Tri.get (fun h => h.elim)) (fun s _ => ?_)
      have : v = none := hn v (List.mem_of_getElem? hv)
      subst this
      have e : (do
          let s ← s
          let v ← (none : Option K)
          some (s + v * (if tsig = 0 then 1 / (2 * ((a + 1 : Nat) : K) - 1) else 1) * w)) = none := by cases s <;> rfl
      rw [e]
      exact hset scr _ hs
  exact Tri.partial this h

theorem peak_nan {acf : List (Option K)} (hn : ∀ v ∈ acf, v = none) (start cnt : Nat) {t : Nat} (h : peak acf start cnt = some t) : t = 0 := by
  have : Tri False (peak acf start cnt) (fun t => t = 0) := by
    unfold peak
    refine Tri.bind (Tri.loop (fun _ (s : K × Nat) => s.2 = 0) rfl ?_) (fun s hs => Tri.pure hs)
    intro c s _ hs
    refine Tri.bind (Tri.get (fun h => h.elim)) (fun v hv => ?_)
    have : v = none := hn v (List.mem_of_getElem? hv)
    subst this
    exact Tri.pure hs
  exact Tri.partial this h

/-- With a metre of four, a frame whose autocorrelation has no numbers gets the period one eighth. -/
theorem tempoMM_nan (env : Env K E) {acf : List (Option K)} (hn : ∀ v ∈ acf, v = none) {weight : List K} {locked : K} {r : K × K}
    (h : tempoMM env acf weight 4 locked = some r) : r.1 = 1 / 8 := by
  have : Tri False (tempoMM env acf weight 4 locked) (fun r => r.1 = 1 / 8) := by
    unfold tempoMM
    cases hcb : combBank env.lag acf weight 4 with
    | none => exact fun h => h
    | some scr =>
      rw [bind_ok rfl]
      have hm : bestLag env scr 4 = some 0 := by
        unfold bestLag
        rw [if_pos (by decide), maxIndex_nan scr (combBank_nan hn hcb)]
      rw [bind_ok hm]
      have hp : Tri False (periodOf acf 0 (if 4 = 0 then 4 else 4)) (fun p => p = 1 / 8) := by
        unfold periodOf
        cases h1 : peak acf (2 * 0) 3 with
        | none => exact fun h => h
        | some t1 =>
          cases h2 : peak acf (3 * 0) 5 with
          | none => exact fun h => h
          | some t2 =>
            have e1 := peak_nan hn _ _ h1
            have e2 := peak_nan hn _ _ h2
            subst e1 e2
            rw [bind_ok rfl, bind_ok rfl]
            dsimp only
            rw [if_pos (by decide)]
            cases h3 : peak acf (4 * 0) 7 with
            | none => exact fun h => h
            | some t3 =>
              have e3 := peak_nan hn _ _ h3
              subst e3
              rw [bind_ok rfl]
              refine Tri.pure ?_
              simp only [mean, MathReal.sum, List.foldl_cons, List.foldl_nil, List.length_cons, List.length_nil]
              norm_num
      exact Tri.bind hp (fun p hp => Tri.pure hp)
  exact Tri.partial this h

/-- C37, a silent frame: when the metre has been found to be four, no tempo change is being considered, and no value of the
autocorrelation of the frame is a number, the tracker never gets past that frame, however many rounds it is given. -/
theorem C37_silence (env : Env K E) (fuel : Nat) (rw : List K) (idx : Nat) (s : St K) (hlag : 0 < env.lag) (fr : Framer.State K × List K)
    (hfr : Framer.getFrame s.framer s.raw = some fr) (hn : ∀ v ∈ env.acf fr.2, v = none) (hsf : s.stepFlag ≠ 1) (hcf : s.constFlag = 0)
    (htsig : s.tsig = 4) (g0 : K) (hg0 : s.gw[0]? = some g0) (hg : g0 ≠ 0) : frameStep env fuel rw idx s = none := by
  have hr : MathReal.round ((1 : K) / 8) = 0 := by
    unfold MathReal.round
    rw [if_neg (by norm_num), Int.floor_eq_iff]
    norm_num
  have : Tri False (frameStep env fuel rw idx s) (fun _ => False) := by
    unfold frameStep
    rw [bind_ok hfr]
    dsimp only
    refine Tri.bind (P := fun _ => True) ?_ (fun r _ => ?_)
    · cases tempoMM env (env.acf fr.2) rw 0 s.locked with
      | none => exact fun h => h
      | some _ => trivial
    refine Tri.bind (Tri.wr (fun h => h.elim)) (fun pp _ => ?_)
    refine Tri.bind (P := fun g => g.1 = 1 / 8) ?_ (fun g hgp => ?_)
    · unfold contextPeriod
      rw [bind_ok hg0, if_pos hg, htsig]
      cases ht : tempoMM env (env.acf fr.2) s.gw 4 r.2 with
      | none => exact fun h => h
      | some q => exact tempoMM_nan env hn ht
    refine Tri.bind (Tri.wr (fun h => h.elim)) (fun pg hpg => ?_)
    obtain ⟨_, hpg2⟩ := set_get hpg
    refine Tri.bind (P := fun f => f ≠ 1) ?_ (fun f hf => ?_)
    · unfold stepDetect
      refine Tri.bind (Tri.get (fun h => h.elim)) (fun g _ => ?_)
      refine Tri.bind (Tri.get (fun h => h.elim)) (fun p _ => ?_)
      refine Tri.get_ite (fun _ => Tri.pure hsf) (fun hf => Tri.pure ?_)
      split <;> omega
    refine Tri.bind (P := fun c => c.2 = 1 / 8) ?_ (fun c hc => ?_)
    · unfold choose flags
      dsimp only
      rw [if_neg hf, bind_ok rfl]
      dsimp only
      rw [bind_ok hg0]
      refine Tri.bind (Tri.get (fun h => h.elim)) (fun p _ => ?_)
      rw [hcf, if_neg (by simp), if_pos hg]
      refine Tri.bind (Tri.get (fun h => h.elim)) (fun q hq => ?_)
      have hq8 : q = 1 / 8 := (hpg2 q hq).trans hgp
      subst hq8
      rw [if_neg (by norm_num)]
      refine Tri.bind (P := fun _ => True) ?_ (fun pw _ => Tri.pure rfl)
      cases createPhaseExtractor env s.pw (1 / 8) s.fsp s.lastBeat with
      | none => exact fun h => h
      | some _ => trivial
    rw [hc]
    refine Tri.bind (P := fun a => a = 0) ?_ (fun a ha => ?_)
    · unfold phaseMM
      dsimp only
      rw [hr]
      exact Tri.pure rfl
    · subst ha
      rw [C37_no_progress _ _ _ _ hr (by
        have : MathReal.round (((0 : Nat) : K)) = 0 := by
          unfold MathReal.round
          rw [if_neg (by simp), Int.floor_eq_iff]
          norm_num
        rw [this]; exact_mod_cast hlag)]
      exact fun h => h
  cases hx : frameStep env fuel rw idx s with
  | none => rfl
  | some r => exact (Tri.partial this hx).elim

/-! ## Concrete runs -/

/-- A small tracker: lag 5, window 24; a silent frame has no numbers in its autocorrelation, any other frame a constant one. -/
def small : Env ℚ ℚ where
  win := 24
  lag := 5
  ex := fun _ => 1
  root := 1
  acf := fun f => f.map (fun _ => if f.all (fun x => x == 0) then none else some 1)
  smooth := fun _ => [0, 1, 2, 3, 4]
  entry := fun x y _ _ => 100 - x - y
  lt := fun a b => decide (a < b)
  zeroE := 0

/-- The same with an autocorrelation that always consists of numbers. -/
def small' : Env ℚ ℚ := { small with acf := fun f => f.map (fun _ => some 1) }

example : Calls small' where
  ex_pos := fun _ => one_pos
  root_pos := one_pos
  acf_length := fun f h => by simpa [small'] using h
  acf_pos := fun f _ v hv => by
    obtain ⟨_, _, rfl⟩ := List.mem_map.mp hv
    exact ⟨1, rfl, one_pos⟩
  smooth_length := fun _ _ => rfl

example : Sizes small' 6 where
  four := by decide
  six := fun q hq => by have : q ≤ 5 := hq; show 24 ≠ 6 * q + 2; omega
  fuel := by decide

/-- A run of five frames. -/
example : (process small' 6 (freshFramer small') (List.replicate 24 0) (List.replicate 22 1)).map (fun r => r.2.2) =
    some ([0, 4, 5, 9, 10, 11, 12, 13, 14, 15, 16, 17, 18, 19, 20, 21, 22, 23, 24], [0, 0, 0, 0, 0]) := by
  decide +kernel

/-- The same input followed by a second call on the same tracker. -/
example : ((process small' 6 (freshFramer small') (List.replicate 24 0) (List.replicate 22 1)).bind
    (fun r => process small' 6 r.1 r.2.1 (List.replicate 22 1))).isNone = true := by
  decide +kernel

/-- Three frames of sound, then silence: the run with the silence does not end, the one without it does. -/
example : (process small 6 (freshFramer small) (List.replicate 24 0) (List.replicate 15 1)).isSome = true ∧
    (process small 1000 (freshFramer small) (List.replicate 24 0) (List.replicate 15 1 ++ List.replicate 7 0)).isNone = true := by
  decide +kernel

/-- The overrun of the metre detection at the standard window of 512. -/
example : findMeter (List.replicate 512 (some (1 : ℚ))) 85 = none :=
  C37_meter_overrun _ _ 85 (by norm_num [MathReal.round]) List.length_replicate

end QM.TempoTrack
