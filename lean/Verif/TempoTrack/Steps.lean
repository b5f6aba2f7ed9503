import Verif.TempoTrack.Lemmas
import Mathlib.Tactic.Positivity

/-! # What each step of the tempo tracker guarantees -/

namespace QM.TempoTrack

open QM.MathReal

variable {K E : Type} [Field K] [LinearOrder K] [FloorRing K] [IsStrictOrderedRing K] {b : Prop}

/-- A usable period: positive, and between one and `lag` when rounded. -/
def Good (lag : Nat) (p : K) : Prop := 0 < p ∧ ∃ q : Nat, MathReal.round p = q ∧ 1 ≤ q ∧ q ≤ lag

/-- A reported tempo: none yet, or between 30 and 180. -/
def Tempo (t : K) : Prop := t = 0 ∨ (30 ≤ t ∧ t ≤ 180)

theorem good_of {lag m : Nat} {p : K} (h1 : 1 ≤ m) (h2 : m ≤ lag - 1) (h3 : (m : K) + 1 / 8 ≤ p) (h4 : p < (m : K) + 3 / 2) : Good lag p := by
  have hm : (0 : K) ≤ (m : K) := Nat.cast_nonneg m
  refine ⟨by linarith, ?_⟩
  rcases round_between h3 h4 with h | h
  · exact ⟨m, h, h1, by omega⟩
  · exact ⟨m + 1, by rw [h]; push_cast; rfl, by omega, by omega⟩

theorem tempoMM_ok (env : Env K E) (hlag : 3 ≤ env.lag) (hs : ∀ l, l.length = env.lag → (env.smooth l).length = env.lag)
    {acf : List (Option K)} (hl : acf.length = env.win) (hp : Pos acf) {weight : List K} (hw : weight.length = env.lag)
    (hwp : ∀ w ∈ weight, 0 < w) {tsig : Nat} (ht : tsig = 0 ∨ tsig = 3 ∨ tsig = 4) (hb : b → 4 * env.lag + 3 ≤ env.win)
    {locked : K} (hk : Tempo locked) :
    Tri b (tempoMM env acf weight tsig locked) (fun r => Good env.lag r.1 ∧ Tempo r.2) := by
  unfold tempoMM
  refine Tri.bind (combBank_ok hl hp hw hwp ht hb) (fun scr ⟨h1, h2⟩ => ?_)
  have hm : Tri b (bestLag env scr tsig) (fun m => 1 ≤ m ∧ m ≤ env.lag - 1) := by
    unfold bestLag
    refine Tri.get_ite (fun _ => Tri.pure ?_) (fun _ => pairIndex_ok env (by omega) (hs scr h1))
    have := maxIndex_ok hlag h1 h2
    omega
  refine Tri.bind hm (fun m ⟨hm1, hm2⟩ => ?_)
  have ht' : (if tsig = 0 then 4 else tsig) = 3 ∨ (if tsig = 0 then 4 else tsig) = 4 := by rcases ht with h | h | h <;> subst h <;> decide
  refine Tri.bind (periodOf_ok ht' (fun hb' => by have := hb hb'; omega)) (fun p ⟨hp1, hp2⟩ => Tri.pure ?_)
  refine ⟨good_of hm1 hm2 hp1 hp2, ?_⟩
  dsimp only
  by_cases hc : m ≠ 0 ∧ 30 ≤ (5168 : K) / (m : K) ∧ (5168 : K) / (m : K) ≤ 180
  · rw [if_pos hc]; exact Or.inr hc.2
  · rw [if_neg hc]; exact hk

theorem energy_ok {acf : List (Option K)} {c : Int} (h0 : b → 2 ≤ c) (h1 : b → c + 2 < acf.length) : Tri b (energy acf c) (fun _ => True) := by
  unfold energy
  refine Tri.loop (fun _ _ => True) trivial ?_
  intro i s hi _
  exact Tri.bind (Tri.getI (fun hb => by have := h0 hb; omega) (fun hb => by have := h1 hb; omega)) (fun _ _ => Tri.pure trivial)

theorem findMeter_ok {lag win : Nat} {acf : List (Option K)} (hl : acf.length = win) {p : K} (hp : Good lag p)
    (hb : b → 4 * lag + 3 ≤ win) (hb6 : b → ∀ q, q ≤ lag → win ≠ 6 * q + 2) :
    Tri b (findMeter acf p) (fun t => t = 3 ∨ t = 4) := by
  obtain ⟨_, q, hq, h1, h2⟩ := hp
  unfold findMeter
  dsimp only
  rw [hq]
  refine Tri.get_ite (fun h hb' => by have := hb hb'; omega) (fun _ => ?_)
  refine Tri.get_ite (fun h => ?_) (fun h => ?_)
  · refine Tri.bind (energy_ok (fun _ => by omega) (fun hb' => by have := hb hb'; omega)) (fun e3 _ => ?_)
    refine Tri.bind (energy_ok (fun _ => by omega) (fun hb' => by have := hb hb'; omega)) (fun e4 _ => Tri.pure ?_)
    by_cases hc : gtNN e3 e4 = true
    · rw [if_pos hc]; exact Or.inl rfl
    · rw [if_neg hc]; exact Or.inr rfl
  · refine Tri.bind (energy_ok (fun _ => by omega) (fun hb' => by have := hb hb'; omega)) (fun a3 _ => ?_)
    refine Tri.bind (energy_ok (fun _ => by omega) (fun hb' => by have := hb hb'; omega)) (fun a4 _ => ?_)
    refine Tri.bind (energy_ok (fun _ => by omega) (fun hb' => by have := hb6 hb' q h2; omega)) (fun b3 _ => ?_)
    refine Tri.bind (energy_ok (fun _ => by omega) (fun hb' => by have := hb hb'; omega)) (fun b4 _ => Tri.pure ?_)
    split
    · exact Or.inl rfl
    · exact Or.inr rfl

theorem createCombFilter_ok (env : Env K E) (hex : ∀ x, 0 < env.ex x) (hroot : 0 < env.root) {filter : List K} (hl : filter.length = env.lag)
    {beatLag : K} (hbl : 0 ≤ beatLag) :
    Tri b (createCombFilter env filter beatLag) (fun f => f.length = env.lag ∧ ∀ w ∈ f, 0 < w) := by
  unfold createCombFilter
  refine Tri.mono (Tri.loop (fun (i : Nat) (f : List K) => f.length = env.lag ∧ ∀ j v, j < i → f[j]? = some v → 0 < v) ?_ ?_) ?_
  · exact ⟨hl, fun j v hj => absurd hj (by omega)⟩
  · intro i f hi ⟨h1, h2⟩
    have key : ∀ v : K, 0 < v → Tri b (wr f i v) (fun f => f.length = env.lag ∧ ∀ j v, j < i + 1 → f[j]? = some v → 0 < v) := by
      intro v hv
      refine Tri.mono (Tri.wr (fun _ => by omega)) ?_
      rintro ys ⟨_, rfl⟩
      refine ⟨by simpa using h1, fun j w hj hw => ?_⟩
      by_cases hji : j = i
      · subst hji
        rw [List.getElem?_set_self (by omega)] at hw
        rw [← Option.some.inj hw]; exact hv
      · rw [List.getElem?_set_ne (by omega)] at hw
        exact h2 j w (by omega) hw
    by_cases h0 : beatLag = 0
    · rw [if_pos h0]
      apply key
      have := hex (-((i + 1 : Nat) : K) ^ 2 / (2 * 43 ^ 2))
      positivity
    · rw [if_neg h0]
      apply key
      have hb0 : 0 < beatLag := lt_of_le_of_ne hbl (Ne.symm h0)
      have := hex (-(1 / 2) * (((((i + 1 : Nat) : K) - beatLag)) / (beatLag / 4)) ^ 2)
      positivity
  · intro f ⟨h1, h2⟩
    refine ⟨h1, fun w hw => ?_⟩
    obtain ⟨j, hj⟩ := List.mem_iff_getElem?.mp hw
    exact h2 j w (by have := lt_of_getElem?_some hj; omega) hj

theorem wr_length {α : Type} {xs : List α} {i : Nat} {v : α} {n : Nat} (h : xs.length = n) (hi : i < n) :
    Tri b (wr xs i v) (fun ys => ys.length = n) := by
  refine Tri.mono (Tri.wr (fun _ => by omega)) ?_
  rintro ys ⟨_, rfl⟩
  simpa using h

theorem createPhaseExtractor_ok (env : Env K E) {filter : List K} (hl : filter.length = env.lag) {period : K} (hp : Good env.lag period)
    {fsp lastBeat : Int} (hlast : lastBeat = 0 ∨ lastBeat < fsp) :
    Tri b (createPhaseExtractor env filter period fsp lastBeat) (fun f => f.length = env.lag) := by
  obtain ⟨_, q, hq, h1, h2⟩ := hp
  unfold createPhaseExtractor
  dsimp only
  rw [hq, if_neg (by omega)]
  simp only [Int.toNat_natCast]
  refine Tri.get_ite (fun hc => ?_) (fun hc => ?_)
  · have hoff : 0 ≤ lastBeat + q - fsp ∧ lastBeat + q - fsp < q := by
      by_cases hd : lastBeat ≠ 0 ∧ lastBeat + q - fsp < 0
      · rw [if_pos hd] at hc; exact absurd rfl hc
      · rw [if_neg hd] at hc
        constructor
        · omega
        · omega
    refine Tri.bind (Tri.loop (fun _ (s : List K) => s.length = q * 2 + 2) (by simp) ?_) (fun scr hscr => ?_)
    · intro i s hi hs
      exact wr_length hs (by omega)
    refine Tri.bind (Tri.loop (fun _ (s : List K) => s.length = q * 2 + 2) hscr ?_) (fun scr hscr => ?_)
    · intro i s hi hs
      exact Tri.bind (Tri.get (fun _ => by omega)) (fun t _ => wr_length hs (by omega))
    refine Tri.loop (fun _ (s : List K) => s.length = env.lag) hl ?_
    intro i s hi hs
    refine Tri.bind (Tri.getI (fun _ => by omega) (fun _ => by omega)) (fun v _ => wr_length hs (by omega))
  · refine Tri.loop (fun _ (s : List K) => s.length = env.lag) hl ?_
    intro i s hi hs
    exact wr_length hs (by omega)

theorem phaseMM_ok {df weighting : List K} {lag win : Nat} (hdf : df.length = win) (hw : weighting.length = lag) {period : K}
    (hp : Good lag period) : Tri b (phaseMM df weighting win period) (fun a => (a : Int) < MathReal.round period) := by
  obtain ⟨_, q, hq, h1, h2⟩ := hp
  unfold phaseMM
  dsimp only
  rw [hq, if_neg (by omega)]
  simp only [Int.toNat_natCast]
  refine Tri.bind (Tri.loop (fun _ (s : List K) => s.length = q) (by simp) ?_) (fun al hal => ?_)
  · intro o s ho hs
    refine Tri.bind (Tri.loop (fun _ (_ : K) => True) trivial ?_) (fun temp _ => ?_)
    · intro k t hk _
      have : o + k * (q + 1) < df.length := by
        have h3 : (k + 1) * (q + 1) ≤ win - o + q := (Nat.le_div_iff_mul_le (by omega)).mp (Nat.succ_le_of_lt hk)
        have h4 : (k + 1) * (q + 1) = k * (q + 1) + (q + 1) := by ring
        omega
      exact Tri.bind (Tri.get (fun _ => this)) (fun v _ => Tri.pure trivial)
    · exact Tri.bind (Tri.get (fun _ => by omega)) (fun w _ => wr_length hs (by omega))
  refine Tri.bind (Tri.loop (fun _ (s : K × Nat) => s.2 < q) (by dsimp only; omega) ?_) (fun s hs => Tri.pure (by exact_mod_cast hs))
  intro i s hi hs
  refine Tri.bind (Tri.get (fun _ => by omega)) (fun v _ => Tri.pure ?_)
  by_cases hv : v > s.1
  · rw [if_pos hv]; exact hi
  · rw [if_neg hv]; exact hs

theorem place_ok {p fep : Int} (hp : 1 ≤ p) (d : Nat) : ∀ (fuel : Nat) (beat : Int) (beats : List Int), beat + d * p < fep →
    fep ≤ beat + (d + 1) * p → (b → d < fuel) →
    Tri b (place p fep fuel beat beats) (fun r => r.1 = beat + d * p ∧
      r.2 = beats ++ (List.range d).map (fun j : Nat => beat + ((j : Int) + 1) * p)) := by
  induction d with
  | zero =>
    intro fuel beat beats h1 h2 hf
    cases fuel with
    | zero => intro hb; have := hf hb; omega
    | succ fuel =>
      unfold place
      push_cast at h1 h2
      rw [if_neg (by linarith)]
      exact ⟨by push_cast; ring, by simp⟩
  | succ d ih =>
    intro fuel beat beats h1 h2 hf
    cases fuel with
    | zero => intro hb; have := hf hb; omega
    | succ fuel =>
      unfold place
      push_cast at h1 h2
      have hd : (0 : Int) ≤ d * p := by positivity
      rw [if_pos (by nlinarith)]
      refine Tri.mono (ih fuel (beat + p) (beats ++ [beat + p]) (by linarith) (by linarith) (fun hb => by have := hf hb; omega)) ?_
      rintro r ⟨hr1, hr2⟩
      refine ⟨by rw [hr1]; push_cast; ring, ?_⟩
      rw [hr2, List.range_succ_eq_map, List.map_cons, List.map_map, List.append_assoc]
      congr 1
      rw [List.singleton_append]
      congr 1
      · push_cast; ring
      · apply List.map_congr_left
        intro j _
        simp only [Function.comp]
        push_cast; ring

/-- The beats placed in one frame of `lag` values from `fsp`: the first at `align`, and every `p` from there. -/
def beatsIn (lag fsp align p : Nat) : List Int :=
  (List.range ((lag - 1 - align) / p + 1)).map (fun j : Nat => (fsp : Int) + align + j * p)

theorem beatPredict_ok {lag fsp al : Nat} {period : K} {q : Nat} (hq : MathReal.round period = q) (h1 : 1 ≤ q) (h2 : q ≤ lag)
    (hal : al < q) (fuel : Nat) (hf : b → lag < fuel) (beats : List Int) :
    Tri b (beatPredict fuel fsp (al : K) period lag beats) (fun r => (fsp : Int) ≤ r.1 ∧ r.1 < fsp + lag ∧ r.2 = beats ++ beatsIn lag fsp al q) := by
  have hr : MathReal.round (al : K) = al := by
    unfold MathReal.round
    rw [if_neg (not_lt.mpr (Nat.cast_nonneg al))]
    rw [Int.floor_eq_iff]
    push_cast
    constructor <;> linarith
  unfold beatPredict
  dsimp only
  rw [hq, hr]
  set d := (lag - 1 - al) / q with hd
  have hd1 : d * q ≤ lag - 1 - al := Nat.div_mul_le_self _ _
  have hd2 : lag - 1 - al < (d + 1) * q := by
    have := Nat.lt_mul_div_succ (lag - 1 - al) (show 0 < q by omega)
    rw [Nat.mul_comm] at this; exact this
  have e1 : ((d * q : Nat) : Int) ≤ (lag - 1 - al : Nat) := by exact_mod_cast hd1
  have e2 : ((lag - 1 - al : Nat) : Int) < ((d + 1) * q : Nat) := by exact_mod_cast hd2
  push_cast at e1 e2
  have e3 : ((lag - 1 - al : Nat) : Int) = (lag : Int) - 1 - al := by omega
  rw [e3] at e1 e2
  refine Tri.mono (place_ok (by omega) d fuel _ _ (by linarith) (by linarith) (fun hb => ?_)) ?_
  · have := hf hb
    have h3 : d ≤ lag - 1 - al := Nat.div_le_self _ _
    omega
  · rintro r ⟨hr1, hr2⟩
    have h0 : (0 : Int) ≤ (d : Int) * q := by positivity
    refine ⟨by rw [hr1]; omega, by rw [hr1]; linarith, ?_⟩
    rw [hr2, List.append_assoc]
    congr 1
    unfold beatsIn
    rw [← hd, List.range_succ_eq_map, List.map_cons, List.map_map]
    rw [List.singleton_append]
    congr 1
    · push_cast; ring

end QM.TempoTrack
