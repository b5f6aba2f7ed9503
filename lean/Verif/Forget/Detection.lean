import Verif.DetectionFunction.Props

/-!
# How much of its past a detection function remembers
-/

namespace QM.DetectionFunction

/-- How many frames before the current one the function compares it with. -/
def DFType.past : DFType → Nat
  | .hfc => 0
  | .specDiff => 1
  | .broadband => 1
  | .phaseDev => 2
  | .complexSD => 2

theorem forget_dev_unique {k : Nat} {h h' : List (Nat → ℂ)} {d d' : ℝ} (hd : IsDev k h d) (hd' : IsDev k h' d') (h0 : phase k h = phase k h')
    (h1 : phase k h.tail = phase k h'.tail) (h2 : phase k h.tail.tail = phase k h'.tail.tail) : d = d' := by
  obtain ⟨a1, a2, i, hi⟩ := hd
  obtain ⟨b1, b2, j, hj⟩ := hd'
  rw [h0, h1, h2, hj] at hi
  have hpi := Real.pi_pos
  have e : d - d' = 2 * Real.pi * ((j - i : ℤ) : ℝ) := by push_cast; linarith
  have c1 : j - i < 1 := by
    by_contra hc
    have : (1 : ℝ) ≤ ((j - i : ℤ) : ℝ) := by exact_mod_cast not_lt.mp hc
    nlinarith
  have c2 : -1 < j - i := by
    by_contra hc
    have : ((j - i : ℤ) : ℝ) ≤ -1 := by exact_mod_cast not_lt.mp hc
    nlinarith
  have : j - i = 0 := by omega
  rw [this] at e
  simp at e
  linarith

theorem phase_tails (k : Nat) {z : Nat → ℂ} {zs zs' : List (Nat → ℂ)} (h : zs.take 2 = zs'.take 2) :
    phase k (z :: zs) = phase k (z :: zs') ∧ phase k (z :: zs).tail = phase k (z :: zs').tail ∧ phase k (z :: zs).tail.tail = phase k (z :: zs').tail.tail := by
  refine ⟨rfl, ?_⟩
  rcases zs with _ | ⟨a, _ | ⟨b, zs⟩⟩ <;> rcases zs' with _ | ⟨a', _ | ⟨b', zs'⟩⟩ <;> simp_all [phase]

theorem mag_tail {c : Config} (hw : c.whiten = false) (k : Nat) {zs zs' : List (Nat → ℂ)} (h : zs.take 1 = zs'.take 1) : mag c k zs = mag c k zs' := by
  rcases zs with _ | ⟨a, zs⟩ <;> rcases zs' with _ | ⟨a', zs'⟩ <;> simp_all [mag]

theorem take_one {α : Type} {l l' : List α} (h : l.take 2 = l'.take 2) : l.take 1 = l'.take 1 := by
  have := congrArg (List.take 1) h
  simpa [List.take_take] using this

/-- The value depends on as much of the past as the type says. -/
theorem value_recent {c : Config} (hw : c.whiten = false ∨ c.ty = .phaseDev) {z : Nat → ℂ} {zs zs' : List (Nat → ℂ)}
    (h : zs.take c.ty.past = zs'.take c.ty.past) {v v' : ℝ} (hv : IsValue c (z :: zs) v) (hv' : IsValue c (z :: zs') v') : v = v' := by
  unfold IsValue at hv hv'
  have hm : c.whiten = false → ∀ k, mag c k (z :: zs) = mag c k (z :: zs') := fun hw k => mag_tail hw k rfl
  cases hty : c.ty with
  | hfc =>
    have hw : c.whiten = false := hw.resolve_right (by simp [hty])
    simp only [hty] at hv hv'
    rw [hv, hv']
    simp only [hm hw]
  | specDiff =>
    have hw : c.whiten = false := hw.resolve_right (by simp [hty])
    simp only [hty, List.tail_cons] at hv hv'
    rw [hty] at h
    rw [hv, hv']
    simp only [hm hw, mag_tail hw _ h]
  | broadband =>
    have hw : c.whiten = false := hw.resolve_right (by simp [hty])
    simp only [hty] at hv hv'
    rw [hty] at h
    rw [hv, hv']
    have : ∀ k, Rose c k (z :: zs) ↔ Rose c k (z :: zs') := fun k => by
      unfold Rose
      simp only [List.tail_cons, hm hw, mag_tail hw k h]
    classical
    rw [Finset.filter_congr fun k _ => this k]
  | phaseDev =>
    simp only [hty] at hv hv'
    rw [hty] at h
    obtain ⟨d, hd, rfl⟩ := hv
    obtain ⟨d', hd', rfl⟩ := hv'
    refine Finset.sum_congr rfl fun k hk => ?_
    have hk' : k ≤ c.frame / 2 := by have := Finset.mem_range.mp hk; omega
    obtain ⟨p0, p1, p2⟩ := phase_tails k (z := z) h
    rw [forget_dev_unique (hd k hk') (hd' k hk') p0 p1 p2]
  | complexSD =>
    have hw : c.whiten = false := hw.resolve_right (by simp [hty])
    simp only [hty] at hv hv'
    rw [hty] at h
    obtain ⟨d, hd, rfl⟩ := hv
    obtain ⟨d', hd', rfl⟩ := hv'
    refine Finset.sum_congr rfl fun k hk => ?_
    have hk' : k ≤ c.frame / 2 := by have := Finset.mem_range.mp hk; omega
    obtain ⟨p0, p1, p2⟩ := phase_tails k (z := z) h
    rw [forget_dev_unique (hd k hk') (hd' k hk') p0 p1 p2, hm hw, List.tail_cons, List.tail_cons, mag_tail hw k (take_one h)]

/-! ## Whitening -/

theorem peak_eq (c : Config) (k : Nat) (z : Nat → ℂ) (zs : List (Nat → ℂ)) :
    peak c k (z :: zs) = max (max ‖z k‖ (‖z k‖ + (peak c k zs - ‖z k‖) * c.relax)) c.floorVal := by
  have h0 := relax_nonneg c
  rw [peak]
  have e : (if ‖z k‖ < peak c k zs then ‖z k‖ + (peak c k zs - ‖z k‖) * c.relax else ‖z k‖) =
      max ‖z k‖ (‖z k‖ + (peak c k zs - ‖z k‖) * c.relax) := by
    split
    · rw [max_eq_right]
      nlinarith
    · rw [max_eq_left]
      nlinarith
  simp only [e]
  split
  · rw [max_eq_right (le_of_lt ‹_›)]
  · rename_i hc
    rw [max_eq_left (not_lt.mp hc)]

/-- One more common frame brings the running peaks nearer to each other. -/
theorem peak_contract (c : Config) (k : Nat) (ts zs zs' : List (Nat → ℂ)) :
    |peak c k (ts ++ zs) - peak c k (ts ++ zs')| ≤ c.relax ^ ts.length * |peak c k zs - peak c k zs'| := by
  induction ts with
  | nil => simp
  | cons z ts ih =>
    have h0 := relax_nonneg c
    rw [List.cons_append, List.cons_append, peak_eq c, peak_eq c, List.length_cons, pow_succ]
    refine (abs_max_sub_max_le_abs _ _ _).trans ?_
    rw [max_comm ‖z k‖, max_comm ‖z k‖]
    refine (abs_max_sub_max_le_abs _ _ _).trans ?_
    rw [show ‖z k‖ + (peak c k (ts ++ zs) - ‖z k‖) * c.relax - (‖z k‖ + (peak c k (ts ++ zs') - ‖z k‖) * c.relax) =
      (peak c k (ts ++ zs) - peak c k (ts ++ zs')) * c.relax by ring, abs_mul, abs_of_nonneg h0]
    calc _ ≤ c.relax ^ ts.length * |peak c k zs - peak c k zs'| * c.relax := mul_le_mul_of_nonneg_right ih h0
      _ = _ := by ring

/-- Running peaks are not above the greatest magnitude so far and the floor. -/
theorem peak_le (c : Config) (hr : c.relax ≤ 1) (k : Nat) (P : ℝ) (hP : c.floorVal ≤ P) (hP0 : 0 ≤ P) (zs : List (Nat → ℂ)) (h : ∀ z ∈ zs, ‖z k‖ ≤ P) :
    0 ≤ peak c k zs ∧ peak c k zs ≤ P := by
  have h0 := relax_nonneg c
  induction zs with
  | nil => exact ⟨le_rfl, hP0⟩
  | cons z zs ih =>
    obtain ⟨i1, i2⟩ := ih (fun w hw => h w (List.mem_cons_of_mem _ hw))
    have hz := h z List.mem_cons_self
    have hz0 := norm_nonneg (z k)
    rw [peak_eq]
    refine ⟨le_trans hz0 (le_trans (le_max_left _ _) (le_max_left _ _)), max_le (max_le hz ?_) hP⟩
    nlinarith [mul_nonneg (sub_nonneg.mpr i2) h0, mul_nonneg (sub_nonneg.mpr hz) (sub_nonneg.mpr hr)]

/-- Whitened magnitudes after different pasts. -/
theorem mag_near (c : Config) (hw : c.whiten = true) (hr : c.relax ≤ 1) (hf : 0 < c.floorVal) (k : Nat) (P : ℝ) (hP : c.floorVal ≤ P) (z : Nat → ℂ)
    (ts zs zs' : List (Nat → ℂ)) (h : ∀ w ∈ zs, ‖w k‖ ≤ P) (h' : ∀ w ∈ zs', ‖w k‖ ≤ P) :
    |mag c k (z :: (ts ++ zs)) - mag c k (z :: (ts ++ zs'))| ≤ c.relax ^ (ts.length + 1) * (P / c.floorVal) := by
  have hc := peak_contract c k (z :: ts) zs zs'
  rw [List.length_cons, List.cons_append, List.cons_append] at hc
  have hP0 : 0 ≤ P := hf.le.trans hP
  have b := peak_le c hr k P hP hP0 zs h
  have b' := peak_le c hr k P hP hP0 zs' h'
  have hd : |peak c k zs - peak c k zs'| ≤ P := abs_sub_le_iff.mpr ⟨by linarith, by linarith⟩
  have hrn : 0 ≤ c.relax ^ (ts.length + 1) := pow_nonneg (relax_nonneg c) _
  set p := peak c k (z :: (ts ++ zs)) with hp
  set p' := peak c k (z :: (ts ++ zs')) with hp'
  have f1 : c.floorVal ≤ p := peak_ge c k z _
  have f2 : ‖z k‖ ≤ p' := norm_le_peak c k z _
  have f3 : c.floorVal ≤ p' := peak_ge c k z _
  have q0 : 0 < p := hf.trans_le f1
  have q1 : 0 < p' := hf.trans_le f3
  simp only [mag, if_pos hw]
  rw [← hp, ← hp']
  have e : ‖z k‖ / p - ‖z k‖ / p' = ‖z k‖ / p' * (p' - p) / p := by
    field_simp
  rw [e, abs_div, abs_mul, abs_of_pos q0, abs_of_nonneg (div_nonneg (norm_nonneg _) q1.le), abs_sub_comm]
  have g1 : ‖z k‖ / p' ≤ 1 := (div_le_one q1).mpr f2
  have g2 : ‖z k‖ / p' * |p - p'| ≤ c.relax ^ (ts.length + 1) * P := by
    calc ‖z k‖ / p' * |p - p'| ≤ 1 * |p - p'| := mul_le_mul_of_nonneg_right g1 (abs_nonneg _)
      _ = |p - p'| := one_mul _
      _ ≤ c.relax ^ (ts.length + 1) * |peak c k zs - peak c k zs'| := hc
      _ ≤ c.relax ^ (ts.length + 1) * P := mul_le_mul_of_nonneg_left hd hrn
  rw [← mul_div_assoc]
  exact div_le_div₀ (mul_nonneg hrn hP0) g2 hf f1

end QM.DetectionFunction
