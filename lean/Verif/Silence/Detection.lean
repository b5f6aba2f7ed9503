import Verif.Forget.Props

/-!
# C121: leading silence and detection functions
-/

namespace QM.DetectionFunction

/-- Frames without any sound. -/
def Silent (ss : List (Nat → ℂ)) : Prop := ∀ s ∈ ss, ∀ k, s k = 0

/-- The running peak of silence. -/
theorem peak_silent {c : Config} (hr : c.relax ≤ 1) (hf : 0 < c.floorVal) (k : Nat) {ss : List (Nat → ℂ)} (h : Silent ss) : peak c k ss = 0 ∨ peak c k ss = c.floorVal := by
  induction ss with
  | nil => exact .inl rfl
  | cons s ss ih =>
    right
    have ih := ih (fun t ht => h t (List.mem_cons_of_mem _ ht))
    have h0 := relax_nonneg c
    rw [peak_eq, h s List.mem_cons_self k, norm_zero]
    apply max_eq_right
    rcases ih with e | e <;> rw [e]
    · simp [hf.le]
    · refine max_le hf.le ?_
      nlinarith

/-- Silence does not change the running peaks of what follows. -/
theorem peak_after {c : Config} (hr : c.relax ≤ 1) (hf : 0 < c.floorVal) (k : Nat) (z : Nat → ℂ) (zs : List (Nat → ℂ)) {ss : List (Nat → ℂ)} (h : Silent ss) :
    peak c k (z :: (zs ++ ss)) = peak c k (z :: zs) := by
  induction zs generalizing z with
  | nil =>
    have h0 := relax_nonneg c
    rw [List.nil_append, peak_eq, peak_eq]
    have hz := norm_nonneg (z k)
    have e0 : peak c k [] = 0 := rfl
    rw [e0]
    rcases peak_silent hr hf k h with e | e <;> rw [e]
    by_cases hc : ‖z k‖ ≤ c.floorVal
    · rw [max_eq_right (max_le hc (by nlinarith)), max_eq_right (max_le hc (by nlinarith))]
    · rw [max_eq_left (show ‖z k‖ + (c.floorVal - ‖z k‖) * c.relax ≤ ‖z k‖ by nlinarith), max_eq_left (show ‖z k‖ + (0 - ‖z k‖) * c.relax ≤ ‖z k‖ by nlinarith)]
  | cons y ys ih =>
    rw [List.cons_append, peak_eq c k z, peak_eq c k z, ih]

theorem mag_after {c : Config} (hs : Safe c) (hr : c.whiten = true → c.relax ≤ 1) (k : Nat) (zs : List (Nat → ℂ)) {ss : List (Nat → ℂ)} (h : Silent ss) :
    mag c k (zs ++ ss) = mag c k zs := by
  cases zs with
  | nil =>
    cases ss with
    | nil => rfl
    | cons s ss =>
      show (if _ then _ else _) = (0 : ℝ)
      rw [h s List.mem_cons_self k, norm_zero, zero_div, ite_self]
  | cons z zs =>
    rw [List.cons_append, mag, mag]
    by_cases hw : c.whiten = true
    · rw [if_pos hw, if_pos hw, peak_after (hr hw) (hs hw) k z zs h]
    · rw [if_neg hw, if_neg hw]

theorem phase_after (k : Nat) (zs : List (Nat → ℂ)) {ss : List (Nat → ℂ)} (h : Silent ss) : phase k (zs ++ ss) = phase k zs := by
  cases zs with
  | nil =>
    cases ss with
    | nil => rfl
    | cons s ss =>
      show (s k).arg = 0
      rw [h s List.mem_cons_self k, Complex.arg_zero]
  | cons z zs => rfl

theorem phase_after_tail (k : Nat) (zs : List (Nat → ℂ)) {ss : List (Nat → ℂ)} (h : Silent ss) : phase k (zs ++ ss).tail = phase k zs.tail := by
  cases zs with
  | nil => exact phase_after k [] (ss := ss.tail) fun t ht => h t (List.mem_of_mem_tail ht)
  | cons z zs => exact phase_after k zs h

/-- A value is determined by magnitudes and phases. -/
theorem value_determined {c : Config} {h h' : List (Nat → ℂ)} {v v' : ℝ} (m0 : ∀ k, mag c k h = mag c k h') (m1 : ∀ k, mag c k h.tail = mag c k h'.tail)
    (p0 : ∀ k, phase k h = phase k h') (p1 : ∀ k, phase k h.tail = phase k h'.tail) (p2 : ∀ k, phase k h.tail.tail = phase k h'.tail.tail)
    (hv : IsValue c h v) (hv' : IsValue c h' v') : v = v' := by
  unfold IsValue at hv hv'
  cases hty : c.ty with
  | hfc =>
    simp only [hty] at hv hv'
    rw [hv, hv']
    simp only [m0]
  | specDiff =>
    simp only [hty] at hv hv'
    rw [hv, hv']
    simp only [m0, m1]
  | broadband =>
    simp only [hty] at hv hv'
    rw [hv, hv']
    have : ∀ k, Rose c k h ↔ Rose c k h' := fun k => by
      unfold Rose
      rw [m0, m1]
    classical
    rw [Finset.filter_congr fun k _ => this k]
  | phaseDev =>
    simp only [hty] at hv hv'
    obtain ⟨d, hd, rfl⟩ := hv
    obtain ⟨d', hd', rfl⟩ := hv'
    refine Finset.sum_congr rfl fun k hk => ?_
    have hk' : k ≤ c.frame / 2 := by have := Finset.mem_range.mp hk; omega
    rw [forget_dev_unique (hd k hk') (hd' k hk') (p0 k) (p1 k) (p2 k)]
  | complexSD =>
    simp only [hty] at hv hv'
    obtain ⟨d, hd, rfl⟩ := hv
    obtain ⟨d', hd', rfl⟩ := hv'
    refine Finset.sum_congr rfl fun k hk => ?_
    have hk' : k ≤ c.frame / 2 := by have := Finset.mem_range.mp hk; omega
    rw [forget_dev_unique (hd k hk') (hd' k hk') (p0 k) (p1 k) (p2 k), m0, m1]

theorem value_after {c : Config} (hs : Safe c) (hr : c.whiten = true → c.relax ≤ 1) {z : Nat → ℂ} {zs ss : List (Nat → ℂ)} (h : Silent ss) {v v' : ℝ}
    (hv : IsValue c (z :: (zs ++ ss)) v) (hv' : IsValue c (z :: zs) v') : v = v' :=
  value_determined (fun k => mag_after hs hr k (z :: zs) h) (fun k => mag_after hs hr k zs h) (fun _ => rfl) (fun k => phase_after k zs h)
    (fun k => phase_after_tail k zs h) hv hv'

/-- **C121** (detection functions). Frames of silence before the first sound do not change any later value, of any type, with or without
whitening: an object that has heard them and one that has not give the same value for every following frame. -/
theorem C121_detection (c : Config) (h : Valid c) (hr : c.whiten = true → c.relax ≤ 1) {zs ss : List (Nat → ℂ)} (hs : Silent ss) {d d' : DF}
    (hd : Reach c (zs ++ ss) d) (hd' : Reach c zs d') (reals imags : List ℝ) (h1 : c.frame / 2 + 1 ≤ reals.length)
    (h2 : c.frame / 2 + 1 ≤ imags.length) :
    ∃ e e' v, processFreq d reals imags = some (e, v) ∧ processFreq d' reals imags = some (e', v) := by
  obtain ⟨e, v, a1, a2⟩ := C28_frequency_value c h hd reals imags h1 h2
  obtain ⟨e', v', b1, b2⟩ := C28_frequency_value c h hd' reals imags h1 h2
  obtain rfl := value_after h.safe hr hs a2 b2
  exact ⟨e, e', v, a1, b1⟩

/-- **C121** The same for frames of samples. -/
theorem C121_detection_time (c : Config) (h : Valid c) (hr : c.whiten = true → c.relax ≤ 1) {zs ss : List (Nat → ℂ)} (hs : Silent ss) {d d' : DF}
    (hd : Reach c (zs ++ ss) d) (hd' : Reach c zs d') (samples : List ℝ) (h1 : c.frame ≤ samples.length) :
    ∃ e e' v, processTime d samples = some (e, v) ∧ processTime d' samples = some (e', v) := by
  obtain ⟨e, v, a1, a2⟩ := C28_time_value c h hd samples h1
  obtain ⟨e', v', b1, b2⟩ := C28_time_value c h hd' samples h1
  obtain rfl := value_after h.safe hr hs a2 b2
  exact ⟨e, e', v, a1, b1⟩

/-- **C121** While nothing has been heard yet, every value is 0. -/
theorem C121_detection_silent (c : Config) (h : Valid c) {ss : List (Nat → ℂ)} (hs : Silent ss) {d : DF} (hd : Reach c ss d) (n : Nat) (hn : c.frame / 2 + 1 ≤ n) :
    ∃ e, processFreq d (List.replicate n 0) (List.replicate n 0) = some (e, 0) := by
  obtain ⟨e, v, a1, a2⟩ := C28_frequency_value c h hd (List.replicate n 0) (List.replicate n 0) (by simpa using hn) (by simpa using hn)
  refine ⟨e, ?_⟩
  rw [a1]
  have hz : Silent (ofSplit (List.replicate n 0) (List.replicate n 0) :: ss) := by
    intro t ht k
    rcases List.mem_cons.mp ht with rfl | ht
    · have hg : (List.replicate n (0 : ℝ)).getD k 0 = 0 := by
        by_cases hk : k < n <;> simp [List.getD, hk]
      simp only [ofSplit, hg]
      rfl
    · exact hs t ht k
  have hm : ∀ (l : List (Nat → ℂ)), Silent l → ∀ k, mag c k l = 0 := fun l hl k => by
    cases l with
    | nil => rfl
    | cons s l =>
      show (if _ then _ else _) = (0 : ℝ)
      rw [hl s List.mem_cons_self k, norm_zero, zero_div, ite_self]
  have hp : ∀ (l : List (Nat → ℂ)), Silent l → ∀ k, phase k l = 0 := fun l hl k => by
    simpa [phase] using phase_after k [] hl
  have hst : Silent ss.tail := fun t ht => hs t (List.mem_of_mem_tail ht)
  have : v = 0 := by
    unfold IsValue at a2
    have hdev : ∀ k d, IsDev k (ofSplit (List.replicate n 0) (List.replicate n 0) :: ss) d → d = 0 := fun k d hd => by
      have h0 : IsDev k ([] : List (Nat → ℂ)) 0 := ⟨by simpa using Real.pi_pos, Real.pi_pos.le, 0, by simp [phase]⟩
      exact forget_dev_unique hd h0 (hp _ hz k) (hp _ hs k) (hp _ hst k)
    cases hty : c.ty with
    | hfc =>
      simp only [hty] at a2
      rw [a2]
      exact Finset.sum_eq_zero fun k _ => by rw [hm _ hz, mul_zero]
    | specDiff =>
      simp only [hty] at a2
      rw [a2]
      exact Finset.sum_eq_zero fun k _ => by rw [hm _ hz, List.tail_cons, hm _ hs]; simp
    | broadband =>
      simp only [hty] at a2
      classical
      rw [a2, Finset.filter_false_of_mem (fun k _ => by unfold Rose; rw [hm _ hz]; simp)]
      simp
    | phaseDev =>
      simp only [hty] at a2
      obtain ⟨d, hd, rfl⟩ := a2
      exact Finset.sum_eq_zero fun k hk => by
        rw [hdev k (d k) (hd k (by have := Finset.mem_range.mp hk; omega)), abs_zero]
    | complexSD =>
      simp only [hty] at a2
      obtain ⟨d, hd, rfl⟩ := a2
      exact Finset.sum_eq_zero fun k hk => by rw [hm _ hz, List.tail_cons, hm _ hs]; simp
  rw [this]

/-- Two silent frames before a frame of the complex domain function with whitening. -/
example : ∃ d d' e e' v, processFreq d [1, 2, 3] [4, 5, 6] = some (e, v) ∧ processFreq d' [1, 2, 3] [4, 5, 6] = some (e', v) ∧
    Reach ⟨2, 4, .complexSD, 3, true, -1, -1⟩ [ofSplit [1, 0, 0] [0, 1, 0], ofSplit [0, 0, 0] [0, 0, 0], ofSplit [0, 0, 0] [0, 0, 0]] d ∧
    Reach ⟨2, 4, .complexSD, 3, true, -1, -1⟩ [ofSplit [1, 0, 0] [0, 1, 0]] d' := by
  have hv : Valid ⟨2, 4, .complexSD, 3, true, -1, -1⟩ := ⟨rfl, by norm_num, by norm_num, fun _ => by norm_num⟩
  obtain ⟨d, hd⟩ := reach_any _ hv [([1, 0, 0], [0, 1, 0]), ([0, 0, 0], [0, 0, 0]), ([0, 0, 0], [0, 0, 0])] (by simp)
  obtain ⟨d', hd'⟩ := reach_any _ hv [([1, 0, 0], [0, 1, 0])] (by simp)
  have hs : Silent [ofSplit [0, 0, 0] [0, 0, 0], ofSplit [0, 0, 0] [0, 0, 0]] := by
    intro t ht k
    have : t = ofSplit [0, 0, 0] [0, 0, 0] := by simpa using ht
    subst this
    rcases k with _ | _ | _ | k <;> simp [ofSplit] <;> rfl
  obtain ⟨e, e', v, h1, h2⟩ := C121_detection _ hv (fun _ => by norm_num [Config.relax]) (zs := [ofSplit [1, 0, 0] [0, 1, 0]]) hs hd hd' [1, 2, 3] [4, 5, 6] (by simp) (by simp)
  exact ⟨d, d', e, e', v, h1, h2, hd, hd'⟩

end QM.DetectionFunction
