import Verif.TempoTrackV2.BeatsProps

/-! # Beats of a regular pulse: lemmas -/

namespace QM.TempoTrackV2

/-- A pulse: `N + 1` equal values `h` at the frames `t 0`, ..., `t N`, spaced by the period `m` in force at the later of two neighbours, silence before them, and
less than `c` elsewhere. -/
structure IsPulse (h c : ℝ) (N : Nat) (t m : Nat → Nat) (X : Nat → ℝ) (n : Nat) : Prop where
  height : ∀ k, k ≤ N → X (t k) = h
  spacing : ∀ k, k < N → t (k + 1) = t k + m (t (k + 1))
  inside : t N < n
  before : ∀ i, i < t 0 → X i = 0
  nonneg : ∀ i, i < n → 0 ≤ X i
  between : ∀ i, i < n → (∀ k, k ≤ N → i ≠ t k) → X i < c

section
variable {wt : ℝ → Nat → Option ℝ} {alpha h : ℝ} {n N : Nat} {t m : Nat → Nat} {X C : Nat → ℝ} {B : Nat → Int} {w : Nat → Nat → ℝ}

theorem far_nat (k : Nat) : far (k : ℝ) = 2 * k := by
  unfold far
  rw [show (2 : ℝ) * (k : ℝ) = ((2 * k : Nat) : ℝ) by push_cast; rfl, Int.floor_natCast]
  push_cast; rfl

theorem near_nat_le (k : Nat) (hk : 1 ≤ k) : near (k : ℝ) ≤ k := by
  have h1 : (1 : ℝ) ≤ k := by exact_mod_cast hk
  unfold near
  have : ⌊(k : ℝ) / 2 + 1 / 2⌋ < (k : Int) + 1 := Int.floor_lt.mpr (by push_cast; linarith)
  omega

/-- The score at the pulses. -/
def level (alpha h : ℝ) : Nat → ℝ
  | 0 => (1 - alpha) * h
  | k + 1 => alpha * level alpha h k + (1 - alpha) * h

theorem level_bounds (ha : 0 < alpha) (ha1 : alpha < 1) (hh : 0 < h) (k : Nat) : (1 - alpha) * h ≤ level alpha h k ∧ level alpha h k < h := by
  induction k with
  | zero => exact ⟨le_rfl, by show (1 - alpha) * h < h; nlinarith⟩
  | succ k ih =>
    obtain ⟨i1, i2⟩ := ih
    have h0 : 0 < (1 - alpha) * h := mul_pos (by linarith) hh
    show _ ≤ alpha * level alpha h k + (1 - alpha) * h ∧ alpha * level alpha h k + (1 - alpha) * h < h
    constructor
    · nlinarith
    · nlinarith

theorem level_lt (ha : 0 < alpha) (ha1 : alpha < 1) (hh : 0 < h) (k : Nat) : level alpha h k < level alpha h (k + 1) := by
  have := (level_bounds ha ha1 hh k).2
  show _ < alpha * level alpha h k + (1 - alpha) * h
  nlinarith

theorem pulse_mono (hp : IsPulse h c N t m X n) (hm : ∀ i, 1 ≤ m i) {k : Nat} (hk : k < N) : t k < t (k + 1) := by
  have := hp.spacing k hk
  have := hm (t (k + 1))
  omega

theorem pulse_lt (hp : IsPulse h c N t m X n) (hm : ∀ i, 1 ≤ m i) {j : Nat} : ∀ {k : Nat}, j < k → k ≤ N → t j < t k := by
  intro k
  induction k with
  | zero => intro h _; omega
  | succ k ih =>
    intro h1 h2
    have := pulse_mono hp hm (k := k) (by omega)
    rcases Nat.lt_or_ge j k with h | h
    · have := ih h (by omega)
      omega
    · obtain rfl : j = k := by omega
      exact this

theorem pulse_le (hp : IsPulse h c N t m X n) (hm : ∀ i, 1 ≤ m i) {j k : Nat} (hjk : j ≤ k) (hk : k ≤ N) : t j ≤ t k := by
  rcases hjk.eq_or_lt with rfl | h
  · exact le_rfl
  · exact (pulse_lt hp hm h hk).le

/-- What the weights are like: one at the period, less elsewhere. -/
structure Peaked (w : Nat → Nat → ℝ) (m : Nat → Nat) (n : Nat) : Prop where
  one : ∀ i p, i < n → p + m i = i → w i p = 1
  less : ∀ i p, i < n → Prev (fun i => (m i : ℝ)) i p → p + m i ≠ i → w i p < 1

variable (hw : Weights wt (fun i => (m i : ℝ)) w n) (hpk : Peaked w m n) (hm : ∀ i, 1 ≤ m i) (ha : 0 < alpha) (ha1 : alpha < 1) (hh : 0 < h)
  (hp : IsPulse h ((1 - alpha) * h) N t m X n) (hrow : ∀ i, i < n → Row wt alpha X (fun i => (m i : ℝ)) C B i)
include hw hpk hm ha ha1 hh hp hrow

theorem w_le {i p : Nat} (hi : i < n) (h : Prev (fun i => (m i : ℝ)) i p) : w i p ≤ 1 := by
  by_cases c : p + m i = i
  · exact (hpk.one i p hi c).le
  · exact (hpk.less i p hi h c).le

theorem step_le {i : Nat} {M : ℝ} (hi : i < n) (hM0 : 0 ≤ M) (hM : ∀ p, p < i → C p ≤ M) : C i ≤ alpha * M + (1 - alpha) * X i := by
  have h1 : ∀ i, i < n → (1 : ℝ) ≤ (m i : ℝ) := fun i _ => by exact_mod_cast hm i
  have hC0 : ∀ i, i < n → 0 ≤ C i := fun i hi => table_nonneg ha.le ha1.le hp.nonneg hrow hi
  rcases back_value hw ha.le ha1.le hp.nonneg h1 hrow hi with ⟨_, e⟩ | ⟨p, _, hpr, e⟩
  · rw [e]
    nlinarith [mul_nonneg ha.le hM0]
  · have hnear := near_pos (h1 i hi)
    have hlt : p < i := by have := hpr.1; dsimp only at this; omega
    rw [e]
    have a1 := w_le hw hpk hm ha ha1 hh hp hrow hi hpr
    have a2 : w i p * C p ≤ 1 * M := mul_le_mul a1 (hM p hlt) (hC0 p (by omega)) zero_le_one
    nlinarith

/-- Silence has no score. -/
theorem silent {i : Nat} (hi : i < t 0) : C i = 0 := by
  have ht : t 0 < n := lt_of_le_of_lt (pulse_le hp hm (Nat.zero_le N) le_rfl) hp.inside
  induction i using Nat.strong_induction_on with
  | _ i ih =>
    have h1 := step_le hw hpk hm ha ha1 hh hp hrow (i := i) (M := 0) (by omega) le_rfl (fun p hpi => (ih p hpi (by omega)).le)
    rw [hp.before i hi] at h1
    have h2 : 0 ≤ C i := table_nonneg ha.le ha1.le hp.nonneg hrow (by omega)
    linarith

/-- Between two pulses. -/
theorem between_le {k : Nat} (hk : k < N) (i1 : C (t k) = level alpha h k) (i2 : ∀ p, p < t k → C p < level alpha h k) (p : Nat) (hlt : p < t (k + 1)) : C p ≤ level alpha h k := by
  have hlev := level_bounds ha ha1 hh k
  have hpos : 0 < (1 - alpha) * h := mul_pos (by linarith) hh
  have ht : t (k + 1) < n := lt_of_le_of_lt (pulse_le hp hm hk le_rfl) hp.inside
  induction p using Nat.strong_induction_on with
  | _ p ihp =>
    rcases lt_trichotomy p (t k) with c | c | c
    · exact (i2 p c).le
    · rw [c, i1]
    · have hno : ∀ j, j ≤ N → p ≠ t j := by
        intro j hj e
        rcases Nat.lt_or_ge k j with c2 | c2
        · have := pulse_le hp hm (j := k + 1) (k := j) (by omega) hj
          omega
        · have := pulse_le hp hm (j := j) (k := k) c2 (by omega)
          omega
      have := step_le hw hpk hm ha ha1 hh hp hrow (i := p) (by omega) (by linarith) (fun q hq => ihp q hq (by omega))
      have hx := hp.between p (by omega) hno
      nlinarith

/-- The score at a pulse is greater than at any frame before it. -/
theorem scores (k : Nat) (hk : k ≤ N) : C (t k) = level alpha h k ∧ ∀ p, p < t k → C p < level alpha h k := by
  have h1 : ∀ i, i < n → (1 : ℝ) ≤ (m i : ℝ) := fun i _ => by exact_mod_cast hm i
  induction k with
  | zero =>
    have ht : t 0 < n := lt_of_le_of_lt (pulse_le hp hm (Nat.zero_le N) le_rfl) hp.inside
    have hs := fun p (hp' : p < t 0) => silent hw hpk hm ha ha1 hh hp hrow hp'
    refine ⟨le_antisymm ?_ ?_, fun p hlt => ?_⟩
    · have := step_le hw hpk hm ha ha1 hh hp hrow (M := 0) ht le_rfl (fun p h => (hs p h).le)
      rw [hp.height 0 (Nat.zero_le N)] at this
      show _ ≤ (1 - alpha) * h
      linarith
    · have := total_le hw ha.le (fun i hi => near_pos (h1 i hi)) hrow [] (t 0) ht (by simp)
      have e : total w alpha X [t 0] = (1 - alpha) * X (t 0) := rfl
      rw [e, hp.height 0 (Nat.zero_le N)] at this
      exact this
    · rw [hs p hlt]
      exact mul_pos (by linarith) hh
  | succ k ih =>
    obtain ⟨i1, i2⟩ := ih (by omega)
    have hlev := level_bounds ha ha1 hh k
    have hpos : 0 < (1 - alpha) * h := mul_pos (by linarith) hh
    have ht : t (k + 1) < n := lt_of_le_of_lt (pulse_le hp hm hk le_rfl) hp.inside
    have hsp := hp.spacing k (by omega)
    have hmt := hm (t (k + 1))
    have hbet := between_le hw hpk hm ha ha1 hh hp hrow (k := k) (by omega) i1 i2
    have hpr : Prev (fun i => (m i : ℝ)) (t (k + 1)) (t k) := by
      have a1 := near_nat_le (m (t (k + 1))) hmt
      have a2 := far_nat (m (t (k + 1)))
      constructor
      · dsimp only
        omega
      · dsimp only
        omega
    have hC : C (t (k + 1)) = level alpha h (k + 1) := by
      refine le_antisymm ?_ ?_
      · have := step_le hw hpk hm ha ha1 hh hp hrow ht (by linarith) hbet
        rw [hp.height (k + 1) hk] at this
        exact this
      · have h3 := row_ge (C := C) hw ht hpr (near_pos (h1 _ ht))
        rw [hpk.one _ _ ht (by omega), one_mul, i1] at h3
        rw [(hrow _ ht).1, hp.height (k + 1) hk]
        show alpha * level alpha h k + (1 - alpha) * h ≤ _
        nlinarith
    exact ⟨hC, fun p hlt => lt_of_le_of_lt (hbet p hlt) (level_lt ha ha1 hh k)⟩

/-- After the last pulse the scores are smaller. -/
theorem after {i : Nat} (hi : i < n) (h1 : t N < i) : C i < level alpha h N := by
  obtain ⟨s1, s2⟩ := scores hw hpk hm ha ha1 hh hp hrow N le_rfl
  have hlev := level_bounds ha ha1 hh N
  have hpos : 0 < (1 - alpha) * h := mul_pos (by linarith) hh
  induction i using Nat.strong_induction_on with
  | _ i ih =>
    have hno : ∀ j, j ≤ N → i ≠ t j := by
      intro j hj e
      have := pulse_le hp hm hj le_rfl
      omega
    have hle : ∀ p, p < i → C p ≤ level alpha h N := by
      intro p hpi
      rcases lt_trichotomy p (t N) with c | c | c
      · exact (s2 p c).le
      · rw [c, s1]
      · exact (ih p hpi (by omega) c).le
    have := step_le hw hpk hm ha ha1 hh hp hrow hi (by linarith) hle
    have hx := hp.between i hi hno
    nlinarith

/-- The beat before a pulse is the pulse before. -/
theorem link {k : Nat} (hk : k < N) : B (t (k + 1)) = t k := by
  have h1 : ∀ i, i < n → (1 : ℝ) ≤ (m i : ℝ) := fun i _ => by exact_mod_cast hm i
  have ht : t (k + 1) < n := lt_of_le_of_lt (pulse_le hp hm hk le_rfl) hp.inside
  obtain ⟨s1, s2⟩ := scores hw hpk hm ha ha1 hh hp hrow k hk.le
  obtain ⟨u1, u2⟩ := scores hw hpk hm ha ha1 hh hp hrow (k + 1) hk
  have hlev := level_bounds ha ha1 hh k
  have hpos : 0 < (1 - alpha) * h := mul_pos (by linarith) hh
  have hsp := hp.spacing k hk
  rcases back_value hw ha.le ha1.le hp.nonneg h1 hrow ht with ⟨_, e⟩ | ⟨p, hB, hpr, e⟩
  · rw [u1, hp.height _ hk] at e
    have e' : alpha * level alpha h k + (1 - alpha) * h = (1 - alpha) * h := e
    nlinarith
  · rw [hB]
    by_contra hne
    have hnear := near_pos (h1 _ ht)
    have hlt : p < t (k + 1) := by have := hpr.1; dsimp only at this; omega
    rw [u1, hp.height _ hk] at e
    have e' : alpha * level alpha h k + (1 - alpha) * h = alpha * (w (t (k + 1)) p * C p) + (1 - alpha) * h := e
    have e2 : level alpha h k = w (t (k + 1)) p * C p := by
      have : alpha * level alpha h k = alpha * (w (t (k + 1)) p * C p) := by linarith
      exact mul_left_cancel₀ ha.ne' this
    have a1 := hpk.less _ p ht hpr (by omega)
    have a0 := (hw _ p ht hpr).1
    have a2 := between_le hw hpk hm ha ha1 hh hp hrow hk s1 s2 p hlt
    have a3 : 0 ≤ C p := table_nonneg ha.le ha1.le hp.nonneg hrow (by omega)
    nlinarith

/-- In silence the link goes two periods back. -/
theorem link_silent {i : Nat} (hi : i ≤ t 0) : B i = (i : Int) - 2 * m i := by
  have h1 : ∀ i, i < n → (1 : ℝ) ≤ (m i : ℝ) := fun i _ => by exact_mod_cast hm i
  have ht : t 0 < n := lt_of_le_of_lt (pulse_le hp hm (Nat.zero_le N) le_rfl) hp.inside
  have hin : i < n := by omega
  have hs := fun p (hp' : p < t 0) => silent hw hpk hm ha ha1 hh hp hrow hp'
  rw [(hrow i hin).2, far_nat]
  have h0 : getMaxInd (cands wt (fun i => (m i : ℝ)) C i) = 0 := by
    rcases (maxOf (cands wt (fun i => (m i : ℝ)) C i)).1 with ⟨_, e⟩ | ⟨e1, e2⟩
    · exact e
    · exfalso
      have hmem := List.mem_of_getElem? e2
      clear e2
      generalize getMaxVal (cands wt (fun i => (m i : ℝ)) C i) = M at e1 hmem
      unfold cands at hmem
      obtain ⟨j, _, hj⟩ := List.mem_map.mp hmem
      unfold cand at hj
      have hz : (if ((i : Int) - far ((m i : ℝ)) + j).toNat < i then C ((i : Int) - far ((m i : ℝ)) + j).toNat else 0) = 0 := by
        split
        · exact hs _ (by omega)
        · rfl
      split at hj
      · dsimp only at hj
        rw [hz] at hj
        simp only [mul_zero] at hj
        obtain ⟨x, _, hx⟩ := Option.map_eq_some_iff.mp hj
        linarith
      · rw [Option.some.injEq] at hj
        linarith
  rw [h0]
  simp

/-- The beats from the first pulse on. -/
theorem trace_pulse (h0 : 0 < t 0) (k : Nat) (hk : k ≤ N) : ∀ f, t k < f → ∃ f0, t 0 < f0 ∧ (trace B f (t k)).reverse = (trace B f0 (t 0)).reverse ++ (List.range k).map (fun j => t (j + 1)) := by
  induction k with
  | zero => exact fun f hf => ⟨f, hf, by simp⟩
  | succ k ih =>
    intro f hf
    obtain ⟨g, rfl⟩ : ∃ g, f = g + 1 := ⟨f - 1, by omega⟩
    have hl := link hw hpk hm ha ha1 hh hp hrow (k := k) (by omega)
    have hlt := pulse_mono hp hm (k := k) (by omega)
    have h0k := pulse_le hp hm (Nat.zero_le k) (by omega)
    obtain ⟨f0, e1, e2⟩ := ih (by omega) g (by omega)
    refine ⟨f0, e1, ?_⟩
    rw [trace, hl, if_pos (by omega), Int.toNat_natCast, List.reverse_cons, e2, List.range_succ, List.map_append, List.append_assoc]
    rfl

/-- A pulse at frame 0 is not a beat. -/
theorem trace_pulse_zero (h0 : t 0 = 0) (k : Nat) (h1 : 1 ≤ k) (hk : k ≤ N) : ∀ f, t k < f → (trace B f (t k)).reverse = (List.range k).map (fun j => t (j + 1)) := by
  induction k, h1 using Nat.le_induction with
  | base =>
    intro f hf
    obtain ⟨g, rfl⟩ : ∃ g, f = g + 1 := ⟨f - 1, by omega⟩
    have hl := link hw hpk hm ha ha1 hh hp hrow (k := 0) (by omega)
    rw [trace, hl, h0, if_neg (by simp)]
    simp
  | succ k hk1 ih =>
    intro f hf
    obtain ⟨g, rfl⟩ : ∃ g, f = g + 1 := ⟨f - 1, by omega⟩
    have hl := link hw hpk hm ha ha1 hh hp hrow (k := k) (by omega)
    have hlt := pulse_mono hp hm (k := k) (by omega)
    have h0k := pulse_lt hp hm (j := 0) (k := k) (by omega) (by omega)
    rw [trace, hl, if_pos (by omega), Int.toNat_natCast, List.reverse_cons, ih (by omega) g (by omega), List.range_succ, List.map_append]
    rfl

/-- The beats up to the first pulse. -/
theorem trace_lead : ∀ f b, b ≤ t 0 → b < f → ∃ lead : List Nat, trace B f b = b :: lead ∧ (b :: lead).IsChain (fun b a => a + 2 * m b = b) ∧
    (∀ a ∈ lead, 0 < a) ∧ ∀ a, (b :: lead).getLast? = some a → a ≤ 2 * m a := by
  intro f
  induction f with
  | zero => intro b _ h; omega
  | succ f ih =>
    intro b hb hf
    have hl := link_silent hw hpk hm ha ha1 hh hp hrow hb
    have hmb := hm b
    rw [trace, hl]
    by_cases c : (b : Int) - 2 * m b > 0 ∧ (b : Int) - 2 * m b ≠ b
    · rw [if_pos c]
      obtain ⟨lead, e1, e2, e3, e4⟩ := ih ((b : Int) - 2 * m b).toNat (by omega) (by omega)
      refine ⟨_ :: lead, by rw [e1], ?_, ?_, ?_⟩
      · rw [List.isChain_cons_cons]
        exact ⟨by omega, e2⟩
      · intro a ha'
        rcases List.mem_cons.mp ha' with h | h
        · omega
        · exact e3 a h
      · intro a ha'
        rw [List.getLast?_cons_cons] at ha'
        exact e4 a ha'
    · rw [if_neg c]
      refine ⟨[], rfl, by simp, by simp, ?_⟩
      intro a ha'
      rw [List.getLast?_singleton, Option.some.injEq] at ha'
      subst ha'
      omega

end

end QM.TempoTrackV2
