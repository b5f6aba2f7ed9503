import Verif.TempoTrackV2.Pulse
import Mathlib.Tactic.IntervalCases

/-!
# C96: a regular pulse is tracked exactly
-/

namespace QM.TempoTrackV2

/-- The weights of the code are greatest at the period. -/
theorem peaked_txwt {tightness : ℝ} (ht : tightness ≠ 0) (m : Nat → Nat) (hm : ∀ i, 1 ≤ m i) (n : Nat) :
    Peaked (fun i p => Real.exp (-(1 / 2) * (tightness * Real.log (((i : ℝ) - p) / m i)) ^ 2)) m n := by
  constructor
  · intro i p _ h
    have h0 : (m i : ℝ) ≠ 0 := by
      have := hm i
      exact_mod_cast (by omega : m i ≠ 0)
    have : (i : ℝ) - p = m i := by
      have : (i : ℝ) = ((p + m i : Nat) : ℝ) := by rw [h]
      rw [this]; push_cast; ring
    rw [this, div_self h0, Real.log_one]
    simp
  · intro i p _ hpr h
    have h0 : (0 : ℝ) < m i := by exact_mod_cast hm i
    have hnear : 1 ≤ near ((m i : ℝ)) := near_pos (by exact_mod_cast hm i)
    have hlt : p < i := by have := hpr.1; dsimp only at this; omega
    have hd : (0 : ℝ) < (i : ℝ) - p := by
      have : (p : ℝ) < i := by exact_mod_cast hlt
      linarith
    have hlog : Real.log (((i : ℝ) - p) / m i) ≠ 0 := by
      refine Real.log_ne_zero_of_pos_of_ne_one (div_pos hd h0) ?_
      intro e
      rw [div_eq_one_iff_eq h0.ne'] at e
      apply h
      have : ((p + m i : Nat) : ℝ) = (i : ℝ) := by push_cast; linarith
      exact_mod_cast this
    have : 0 < (tightness * Real.log (((i : ℝ) - p) / m i)) ^ 2 := by positivity
    rw [Real.exp_lt_one_iff]
    nlinarith

/-- **C96** A pulse, whatever its tempo and however the tempo changes, is tracked exactly. Let the detection function have equal peaks, each as far from the one before as the beat period says there,
with silence before the first and between and after them values less than `(1 - alpha)` times the peaks, and let the last peak lie in the last period. Then from the first
peak on the beats are the peaks (a peak at frame 0 is left out). Before the first peak there are further beats, each two periods before the next, as far
back as there is room. -/
theorem C96_pulse (df bp : List ℝ) (m t : Nat → Nat) (N : Nat) {alpha tightness h : ℝ} (ha : 0 < alpha) (ha1 : alpha < 1) (ht : tightness ≠ 0) (hh : 0 < h)
    (hm : ∀ i, 1 ≤ m i) (hbp : bp = (List.range df.length).map (fun i => (m i : ℝ))) (hN : 1 ≤ N)
    (hp : IsPulse h ((1 - alpha) * h) N t m (fun i => df.getD i 0) df.length)
    (hlast : m (df.length - 1) ≤ df.length) (hend : df.length - m (df.length - 1) ≤ t N) :
    ∃ lead : List Nat, calculateBeats (txwt tightness) alpha df.length df bp [] =
        some ((lead.reverse ++ ((List.range (N + 1)).map t).filter (0 < ·)).map fun (x : Nat) => (x : ℝ)) ∧
      (t 0 :: lead).IsChain (fun later earlier => earlier + 2 * m later = later) ∧ (∀ b ∈ lead, 0 < b) ∧
      ∀ b, (t 0 :: lead).getLast? = some b → b ≤ 2 * m b := by
  have hin := hp.inside
  have hlen : bp.length = df.length := by rw [hbp]; simp
  have hb : ∀ i, i < df.length → bp[i]? = some (m i : ℝ) := fun i hi => by rw [hbp]; simp [hi]
  have hP : ∀ i, i < df.length → (1 : ℝ) ≤ (m i : ℝ) := fun i _ => by exact_mod_cast hm i
  have hpp : ∀ i, i < df.length → (0 : ℝ) ≤ (m i : ℝ) := fun i hi => le_trans zero_le_one (hP i hi)
  have hla : bp.getLast? = some (m (df.length - 1) : ℝ) := by
    rw [List.getLast?_eq_getElem?, hlen]
    exact hb _ (by omega)
  have hw := C36_weights tightness m hm df.length
  have hpk := peaked_txwt ht m hm df.length
  obtain ⟨cum, back, C, B, h1, h2, h3, h4⟩ := table_ok (wt := txwt tightness) (alpha := alpha) (X := fun i => df.getD i 0) (P := fun i => (m i : ℝ)) (holds_getD df 0) hb hpp
  obtain ⟨s, h5, h6, h7, h8⟩ := startPoint_max h2 hla (hm _) hlast (fun i hi => table_nonneg ha.le ha1.le hp.nonneg h4 hi)
  obtain ⟨c1, c2⟩ := scores hw hpk hm ha ha1 hh hp h4 N le_rfl
  have hs : s = t N := by
    have h9 := h8 (t N) hend hin
    rw [c1] at h9
    rcases lt_trichotomy s (t N) with c | c | c
    · linarith [c2 s c]
    · exact c
    · linarith [after hw hpk hm ha ha1 hh hp h4 h7 c]
  subst hs
  have hB : ∀ i, i < df.length → B i ≤ i := fun i hi => by
    have := back_le (h4 i hi) (hpp i hi)
    have := near_nonneg (hpp i hi)
    omega
  have hcalc : calculateBeats (txwt tightness) alpha df.length df bp [] = some ((trace B df.length (t N)).reverse.map fun (x : Nat) => (x : ℝ)) := by
    unfold calculateBeats
    rw [if_neg (by omega), bind_ok h1]
    dsimp only
    rw [bind_ok h5, bind_ok (trace_ok h3 hB df.length (t N) [] h7 h7), List.append_nil]
    simp [Function.comp_def]
  have htail : ((List.range N).map (fun j => t (j + 1))).filter (0 < ·) = (List.range N).map (fun j => t (j + 1)) := by
    rw [List.filter_eq_self]
    intro x hx
    obtain ⟨j, hj, rfl⟩ := List.mem_map.mp hx
    have := pulse_lt hp hm (j := 0) (k := j + 1) (by omega) (by have := List.mem_range.mp hj; omega)
    simp only [decide_eq_true_eq]
    omega
  have hsplit : (List.range (N + 1)).map t = t 0 :: (List.range N).map (fun j => t (j + 1)) := by
    rw [List.range_succ_eq_map, List.map_cons, List.map_map]
    rfl
  rw [hcalc, hsplit]
  rcases Nat.eq_zero_or_pos (t 0) with h0 | h0
  · refine ⟨[], ?_, by simp, by simp, ?_⟩
    · rw [trace_pulse_zero hw hpk hm ha ha1 hh hp h4 h0 N hN le_rfl df.length h7, List.filter_cons_of_neg (by simp [h0]), htail]
      simp
    · intro b hb'
      rw [List.getLast?_singleton, Option.some.injEq] at hb'
      omega
  · obtain ⟨f0, e1, e2⟩ := trace_pulse hw hpk hm ha ha1 hh hp h4 h0 N le_rfl df.length h7
    obtain ⟨lead, l1, l2, l3, l4⟩ := trace_lead hw hpk hm ha ha1 hh hp h4 f0 (t 0) le_rfl e1
    refine ⟨lead, ?_, l2, l3, l4⟩
    rw [e2, l1, List.filter_cons_of_pos (by simpa using h0), htail, List.reverse_cons, List.append_assoc]
    rfl

/-- **C96** For a steady tempo and a first peak within the first two periods the beats are the peaks, no more and no fewer. -/
theorem C96_steady (df : List ℝ) (p t0 N : Nat) {alpha tightness h : ℝ} (ha : 0 < alpha) (ha1 : alpha < 1) (ht : tightness ≠ 0) (hh : 0 < h) (h1 : 1 ≤ p) (hN : 1 ≤ N)
    (h2 : 0 < t0) (h3 : t0 ≤ 2 * p) (h4 : t0 + N * p < df.length) (h5 : df.length ≤ t0 + N * p + p)
    (hpeak : ∀ k, k ≤ N → df.getD (t0 + k * p) 0 = h) (hbefore : ∀ i, i < t0 → df.getD i 0 = 0)
    (hbetween : ∀ i, i < df.length → (∀ k, k ≤ N → i ≠ t0 + k * p) → 0 ≤ df.getD i 0 ∧ df.getD i 0 < (1 - alpha) * h) :
    calculateBeats (txwt tightness) alpha df.length df (List.replicate df.length (p : ℝ)) [] = some ((List.range (N + 1)).map fun k => ((t0 + k * p : Nat) : ℝ)) := by
  have hbp : List.replicate df.length (p : ℝ) = (List.range df.length).map (fun _ => (p : ℝ)) := by
    rw [List.map_const', List.length_range]
  have hp : IsPulse h ((1 - alpha) * h) N (fun k => t0 + k * p) (fun _ => p) (fun i => df.getD i 0) df.length := by
    refine ⟨hpeak, fun k _ => by ring, h4, fun i hi => hbefore i (by simpa using hi), fun i hi => ?_, fun i hi hno => (hbetween i hi hno).2⟩
    by_cases c : ∃ k, k ≤ N ∧ i = t0 + k * p
    · obtain ⟨k, hk, rfl⟩ := c
      rw [hpeak k hk]
      exact hh.le
    · exact (hbetween i hi fun k hk e => c ⟨k, hk, e⟩).1
  have hNp : p ≤ N * p := Nat.le_mul_of_pos_left p hN
  obtain ⟨lead, e, l1, l2, _⟩ := C96_pulse df (List.replicate df.length (p : ℝ)) (fun _ => p) (fun k => t0 + k * p) N ha ha1 ht hh (fun _ => h1) hbp hN hp (by omega) (by omega)
  have hlead : lead = [] := by
    cases lead with
    | nil => rfl
    | cons a l =>
      rw [List.isChain_cons_cons] at l1
      have := l1.1
      have := l2 a (by simp)
      omega
  rw [e, hlead, List.filter_eq_self.mpr]
  · simp
  · intro x hx
    obtain ⟨k, _, rfl⟩ := List.mem_map.mp hx
    simp only [decide_eq_true_eq]
    omega

/-- The hypotheses are met: three peaks three frames apart, with a little noise after the first. -/
example : calculateBeats (txwt 4) (9 / 10) 9 [0, 1, 0, (1 / 100 : ℝ), 1, 0, 0, 1, 0] (List.replicate 9 ((3 : Nat) : ℝ)) [] = some [1, 4, 7] := by
  have h := C96_steady [0, 1, 0, (1 / 100 : ℝ), 1, 0, 0, 1, 0] 3 1 2 (alpha := 9 / 10) (tightness := 4) (h := 1) (by norm_num) (by norm_num) (by norm_num) (by norm_num) (by norm_num)
    (by norm_num) (by norm_num) (by norm_num) (by simp) (by simp)
    (by intro k hk; interval_cases k <;> rfl) (by intro i hi; interval_cases i; rfl)
    (by
      intro i hi hno
      simp only [List.length_cons, List.length_nil] at hi
      have h0 := hno 0 (by norm_num)
      have h1 := hno 1 (by norm_num)
      have h2 := hno 2 (by norm_num)
      interval_cases i <;> first | omega | (simp; done) | (simp; norm_num))
  refine h.trans ?_
  norm_num [List.range_succ]

end QM.TempoTrackV2
