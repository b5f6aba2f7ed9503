import Verif.TempoTrack.Steps
import Verif.Framer.Props

/-! # Invariant of the tempo tracker's frame loop -/

namespace QM.TempoTrack

open QM.MathReal

variable {K E : Type} [Field K] [LinearOrder K] [FloorRing K] [IsStrictOrderedRing K] {b : Prop}

/-- What the tracker needs from the code it calls: positive exponentials, an autocorrelation of the length of the window whose values
are positive numbers, and smoothing that keeps the length. -/
structure Calls (env : Env K E) : Prop where
  ex_pos : ∀ x, 0 < env.ex x
  root_pos : 0 < env.root
  acf_length : ∀ f, f.length = env.win → (env.acf f).length = env.win
  acf_pos : ∀ f, f.length = env.win → Pos (env.acf f)
  smooth_length : ∀ l, l.length = env.lag → (env.smooth l).length = env.lag

/-- Window and lag lengths for which every read stays inside the autocorrelation, and enough rounds for placing beats. -/
structure Sizes (env : Env K E) (fuel : Nat) : Prop where
  four : 4 * env.lag + 3 ≤ env.win
  six : ∀ q, q ≤ env.lag → env.win ≠ 6 * q + 2
  fuel : env.lag < fuel

/-- The beats of `n` frames: in each frame an alignment and a period. -/
def Placed (lag n : Nat) (beats : List Int) : Prop :=
  ∃ align period : Nat → Nat, (∀ k, k < n → align k < period k ∧ period k ≤ lag) ∧
    beats = (List.range n).flatMap (fun k => beatsIn lag (k * lag) (align k) (period k))

theorem Placed.snoc {lag n al q : Nat} {beats : List Int} (h : Placed lag n beats) (h1 : al < q) (h2 : q ≤ lag) :
    Placed lag (n + 1) (beats ++ beatsIn lag (n * lag) al q) := by
  obtain ⟨a, p, h3, h4⟩ := h
  refine ⟨fun k => if k = n then al else a k, fun k => if k = n then q else p k, fun k hk => ?_, ?_⟩
  · by_cases hkn : k = n
    · simp only [hkn, if_pos]; exact ⟨h1, h2⟩
    · simp only [if_neg hkn]; exact h3 k (by omega)
  · rw [List.range_succ, List.flatMap_append, h4]
    congr 1
    · apply List.flatMap_congr
      intro k hk
      have hkn : k ≠ n := by have := List.mem_range.mp hk; omega
      simp only [if_neg hkn]
    · simp

/-- The invariant at the start of frame `idx` of `n`. -/
structure Inv (env : Env K E) (n : Nat) (df : List K) (idx : Nat) (s : St K) : Prop where
  src : s.framer.src = df
  frame : s.framer.frameLength = env.win
  step : s.framer.stepSize = env.lag
  maxf : s.framer.maxFrames = n
  pos : s.framer.srcIndex = ((idx * env.lag : Nat) : Int)
  raw : s.raw.length = env.win
  flag0 : s.stepFlag ≤ 2
  flag2 : s.stepFlag = 2 → 1 ≤ idx
  flag1 : s.stepFlag = 1 → 2 ≤ idx
  const : s.constFlag = 0
  fsp : s.fsp = ((idx * env.lag : Nat) : Int)
  last : s.lastBeat = 0 ∨ s.lastBeat < s.fsp
  gwl : s.gw.length = env.lag
  gw : (∀ w ∈ s.gw, w = 0) ∨ ((∀ w ∈ s.gw, 0 < w) ∧ (s.tsig = 3 ∨ s.tsig = 4))
  pw : s.pw.length = env.lag
  pp : s.periodP.length = n
  pg : s.periodG.length = n
  beats : Placed env.lag idx s.beats
  locked : Tempo s.locked
  tempi : s.tempi.length = idx ∧ ∀ t ∈ s.tempi, Tempo t

theorem stepDetect_ok {pp pg : List K} {n idx flag : Nat} (h1 : pp.length = n) (h2 : pg.length = n) (hi : idx < n) :
    Tri b (stepDetect pp pg idx flag) (fun f => f = flag ∨ (flag = 0 ∧ f = 3)) := by
  unfold stepDetect
  refine Tri.bind (Tri.get (fun _ => by omega)) (fun g _ => ?_)
  refine Tri.bind (Tri.get (fun _ => by omega)) (fun p _ => ?_)
  refine Tri.get_ite (fun _ => Tri.pure (Or.inl rfl)) (fun hf => Tri.pure ?_)
  split
  · exact Or.inr ⟨by omega, rfl⟩
  · exact Or.inl rfl

theorem flags_ok {pp : List K} {n idx sf : Nat} (h1 : pp.length = n) (hi : idx < n) (h3 : sf = 1 → 2 ≤ idx) :
    Tri b (flags pp idx sf 0) (fun r => r.1 = sf - 1 ∧ (r.2 ≠ 0 → sf = 1)) := by
  unfold flags
  refine Tri.get_ite (fun h => ?_) (fun h => Tri.pure ⟨rfl, fun h => absurd rfl h⟩)
  have hidx := h3 h
  unfold constDetect
  have : Tri b (do
      let x ← rdI pp (idx : Int)
      let y ← rdI pp ((idx : Int) - 1)
      let z ← rdI pp ((idx : Int) - 2)
      Pure.pure (if |2 * x - y - z| < 2 * (39017 / 10000) then 1 else 0)) (fun _ : Nat => True) := by
    refine Tri.bind (Tri.getI (fun _ => by omega) (fun _ => by omega)) (fun x _ => ?_)
    refine Tri.bind (Tri.getI (fun _ => by omega) (fun _ => by omega)) (fun y _ => ?_)
    exact Tri.bind (Tri.getI (fun _ => by omega) (fun _ => by omega)) (fun z _ => Tri.pure trivial)
  exact Tri.bind this (fun c _ => Tri.pure ⟨by rw [h], fun _ => h⟩)

theorem contextPeriod_ok (env : Env K E) (hc : Calls env) (hlag : 3 ≤ env.lag) {acf : List (Option K)} (hl : acf.length = env.win)
    (hp : Pos acf) {gw : List K} (hgl : gw.length = env.lag) {tsig : Nat}
    (hgw : (∀ w ∈ gw, w = 0) ∨ ((∀ w ∈ gw, 0 < w) ∧ (tsig = 3 ∨ tsig = 4))) (hb : b → 4 * env.lag + 3 ≤ env.win) {locked : K}
    (hk : Tempo locked) :
    Tri b (contextPeriod env acf gw tsig locked) (fun r => ((∃ w ∈ gw, w ≠ 0) → Good env.lag r.1) ∧ Tempo r.2) := by
  unfold contextPeriod
  refine Tri.bind (Tri.get (fun _ => by omega)) (fun g0 hg0 => ?_)
  rcases hgw with h | ⟨h, ht⟩
  · rw [if_neg (by rw [h g0 (List.mem_of_getElem? hg0)]; simp)]
    exact Tri.pure ⟨fun ⟨w, h1, h2⟩ => absurd (h w h1) h2, hk⟩
  · rw [if_pos (ne_of_gt (h g0 (List.mem_of_getElem? hg0)))]
    exact Tri.mono (tempoMM_ok env hlag hc.smooth_length hl hp hgl h (Or.inr ht) hb hk) (fun r hr => ⟨fun _ => hr.1, hr.2⟩)

theorem round_43 : MathReal.round (((5168 / 120 : Nat) : K)) = (43 : Nat) := by
  unfold MathReal.round
  rw [if_neg (not_lt.mpr (Nat.cast_nonneg _)), Int.floor_eq_iff]
  norm_num

/-- `choose` in a good state. -/
theorem choose_ok (env : Env K E) (hc : Calls env) (hlag : 3 ≤ env.lag) (fuel n : Nat) (hb : b → Sizes env fuel) {acf : List (Option K)}
    (hl : acf.length = env.win) (hp : Pos acf) (idx : Nat) (hi : idx < n) (s : St K) (hconst : s.constFlag = 0)
    (hflag1 : s.stepFlag = 1 → 2 ≤ idx) (hlast : s.lastBeat = 0 ∨ s.lastBeat < s.fsp) (hgwl : s.gw.length = env.lag)
    (hgw : (∀ w ∈ s.gw, w = 0) ∨ ((∀ w ∈ s.gw, 0 < w) ∧ (s.tsig = 3 ∨ s.tsig = 4))) (hpw : s.pw.length = env.lag)
    (hpp : s.periodP.length = n) (hpg : s.periodG.length = n) (hpP : ∀ p, s.periodP[idx]? = some p → Good env.lag p)
    (hpG : ∀ p, s.periodG[idx]? = some p → (∃ w ∈ s.gw, w ≠ 0) → Good env.lag p) (hk : Tempo s.locked) :
    Tri b (choose env acf idx s) (fun c => Good env.lag c.2 ∧ c.1.framer = s.framer ∧ c.1.raw = s.raw ∧ c.1.stepFlag = s.stepFlag - 1 ∧
      c.1.constFlag = 0 ∧ c.1.fsp = s.fsp ∧ c.1.gw.length = env.lag ∧
      ((∀ w ∈ c.1.gw, w = 0) ∨ ((∀ w ∈ c.1.gw, 0 < w) ∧ (c.1.tsig = 3 ∨ c.1.tsig = 4))) ∧ c.1.pw.length = env.lag ∧
      c.1.periodP.length = n ∧ c.1.periodG.length = n ∧ c.1.beats = s.beats ∧ Tempo c.1.locked ∧ c.1.tempi = s.tempi) := by
  unfold choose
  rw [hconst]
  refine Tri.bind (flags_ok hpp hi hflag1) (fun fl ⟨hf1, hf2⟩ => ?_)
  dsimp only
  refine Tri.bind (Tri.get (fun _ => by omega)) (fun g0 hg0 => ?_)
  refine Tri.bind (Tri.get (fun _ => by omega)) (fun pP hpPv => ?_)
  have hgood := hpP pP hpPv
  refine Tri.get_ite (fun hcf => ?_) (fun hcf => ?_)
  · refine Tri.bind (findMeter_ok hl hgood (fun h => (hb h).four) (fun h => (hb h).six)) (fun tsig ht => ?_)
    refine Tri.bind (createCombFilter_ok env hc.ex_pos hc.root_pos hgwl hgood.1.le) (fun gw ⟨hg1, hg2⟩ => ?_)
    refine Tri.bind (tempoMM_ok env hlag hc.smooth_length hl hp hg1 hg2 (Or.inr ht) (fun h => (hb h).four) hk) (fun r ⟨hr1, hr2⟩ => ?_)
    refine Tri.bind (wr_length hpg hi) (fun pg hpg' => ?_)
    refine Tri.bind (createPhaseExtractor_ok env hpw hr1 (Or.inl rfl)) (fun pw hpw' => Tri.pure ?_)
    exact ⟨hr1, rfl, rfl, hf1, rfl, rfl, hg1, Or.inr ⟨hg2, ht⟩, hpw', hpp, hpg', rfl, hr2, rfl⟩
  · have hfl2 : fl.2 = 0 := not_not.mp hcf
    refine Tri.get_ite (fun hg => ?_) (fun hg => ?_)
    · refine Tri.bind (Tri.get (fun _ => by omega)) (fun pg hpgv => ?_)
      have hgd := hpG pg hpgv ⟨g0, List.mem_of_getElem? hg0, hg⟩
      have hgd' : Good env.lag (if pg > 10000 then ((5168 / 120 : Nat) : K) else pg) := by
        by_cases hbig : pg > 10000
        · rw [if_pos hbig]
          refine ⟨by norm_num, 43, round_43, by omega, ?_⟩
          obtain ⟨_, q, hq1, _, hq3⟩ := hgd
          have : (10000 : Int) ≤ MathReal.round pg := by
            unfold MathReal.round
            rw [if_neg (by linarith), Int.le_floor]
            push_cast; linarith
          omega
        · rw [if_neg hbig]; exact hgd
      refine Tri.bind (createPhaseExtractor_ok env hpw hgd' hlast) (fun pw hpw' => Tri.pure ?_)
      exact ⟨hgd', rfl, rfl, hf1, hfl2, rfl, hgwl, hgw, hpw', hpp, hpg, rfl, hk, rfl⟩
    · refine Tri.bind (createPhaseExtractor_ok env hpw hgood (Or.inl rfl)) (fun pw hpw' => Tri.pure ?_)
      exact ⟨hgood, rfl, rfl, hf1, hfl2, rfl, hgwl, hgw, hpw', hpp, hpg, rfl, hk, rfl⟩

theorem set_get {α : Type} {xs ys : List α} {i : Nat} {v : α} (h : i < xs.length ∧ ys = xs.set i v) :
    ys.length = xs.length ∧ ∀ w, ys[i]? = some w → w = v := by
  obtain ⟨h1, rfl⟩ := h
  refine ⟨by simp, fun w hw => ?_⟩
  rw [List.getElem?_set_self h1] at hw
  exact (Option.some.inj hw).symm

theorem frameStep_ok (env : Env K E) (hc : Calls env) (hlag : 3 ≤ env.lag) (fuel n : Nat) (hb : b → Sizes env fuel) (df rw : List K)
    (hrw : rw.length = env.lag) (hrwp : ∀ w ∈ rw, 0 < w) (idx : Nat) (hi : idx < n) (hin : idx * env.lag ≤ df.length) (s : St K)
    (h : Inv env n df idx s) : Tri b (frameStep env fuel rw idx s) (Inv env n df (idx + 1)) := by
  unfold frameStep
  obtain ⟨d, hd1, hd2, hd3⟩ := Framer.getFrame_spec s.framer (idx * env.lag) h.pos (by rw [h.src]; exact hin) s.raw
    (by rw [h.frame]; exact h.raw)
  rw [bind_ok hd1]
  dsimp only
  rw [h.frame] at hd2
  have hl := hc.acf_length d hd2
  have hp := hc.acf_pos d hd2
  refine Tri.bind (tempoMM_ok env hlag hc.smooth_length hl hp hrw hrwp (Or.inl rfl) (fun h => (hb h).four) h.locked) (fun r ⟨hr1, hr2⟩ => ?_)
  refine Tri.bind (Tri.wr (fun _ => by rw [h.pp]; exact hi)) (fun pp hpp => ?_)
  obtain ⟨hpp1, hpp2⟩ := set_get hpp
  refine Tri.bind (contextPeriod_ok env hc hlag hl hp h.gwl h.gw (fun h => (hb h).four) hr2) (fun g ⟨hg1, hg2⟩ => ?_)
  refine Tri.bind (Tri.wr (fun _ => by rw [h.pg]; exact hi)) (fun pg hpg => ?_)
  obtain ⟨hpg1, hpg2⟩ := set_get hpg
  refine Tri.bind (stepDetect_ok (hpp1.trans h.pp) (hpg1.trans h.pg) hi) (fun f hf => ?_)
  refine Tri.bind (choose_ok env hc hlag fuel n hb hl hp idx hi _ h.const ?_ h.last h.gwl h.gw h.pw (hpp1.trans h.pp) (hpg1.trans h.pg)
    (fun p hp => by rw [hpp2 p hp]; exact hr1) (fun p hp hw => by rw [hpg2 p hp]; exact hg1 hw) hg2) ?_
  · intro hf1
    dsimp only at hf1
    rcases hf with hf | hf
    · exact h.flag1 (by omega)
    · omega
  · rintro c ⟨c1, c2, c3, c4, c5, c6, c7, c8, c9, c10, c11, c12, c13, c14⟩
    dsimp only at c2 c3 c4 c6 c12 c14
    obtain ⟨_, q, hq, hq1, hq2⟩ := c1
    refine Tri.bind (phaseMM_ok (by rw [c3]; exact hd2) c9 ⟨‹_›, q, hq, hq1, hq2⟩) (fun al hal => ?_)
    rw [hq] at hal
    rw [c6, h.fsp, c12]
    refine Tri.bind (beatPredict_ok hq hq1 hq2 (by exact_mod_cast hal) fuel (fun h => (hb h).fuel) s.beats) (fun r ⟨r1, r2, r3⟩ => Tri.pure ?_)
    have e : ((idx * env.lag : Nat) : Int) + env.lag = (((idx + 1) * env.lag : Nat) : Int) := by push_cast; ring
    have e' : idx * env.lag + env.lag = (idx + 1) * env.lag := by ring
    have hsf := h.flag0
    exact
      { src := by rw [c2]; exact h.src
        frame := by rw [c2]; exact h.frame
        step := by rw [c2]; exact h.step
        maxf := by rw [c2]; exact h.maxf
        pos := by
          show c.1.framer.srcIndex = _
          rw [c2, h.step, e']
        raw := by rw [c3]; exact hd2
        flag0 := by show c.1.stepFlag ≤ 2; omega
        flag2 := fun _ => by omega
        flag1 := fun hh => by
          have h2 : c.1.stepFlag = 1 := hh
          have := h.flag2
          have h3 : s.stepFlag = 2 := by omega
          have := this h3
          omega
        const := c5
        fsp := e
        last := Or.inr (show r.1 < _ from r2)
        gwl := c7
        gw := c8
        pw := c9
        pp := c10
        pg := c11
        beats := by
          show Placed env.lag (idx + 1) r.2
          rw [r3]; exact h.beats.snoc (by exact_mod_cast hal) hq2
        locked := c13
        tempi := by
          show (c.1.tempi ++ [c.1.locked]).length = _ ∧ _
          rw [c14]
          refine ⟨by rw [List.length_append, h.tempi.1]; rfl, fun t ht => ?_⟩
          rcases List.mem_append.mp ht with h1 | h1
          · exact h.tempi.2 t h1
          · rw [List.mem_singleton.mp h1]; exact c13 }

end QM.TempoTrack
