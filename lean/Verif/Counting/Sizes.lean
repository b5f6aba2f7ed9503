import Verif.Counting.Lemmas

/-!
# Sizes in the resampler, and rounding to whole numbers
-/

namespace QM.Counting

open QM QM.Resampler QM.Double

variable {R : Type} [CommRing R] {fl : ℝ → ℝ} (hfl : Nearest fl)

omit [CommRing R] in
include hfl in
theorem mkPhase_eq (I O : Nat) (filter : List R) (phase : Nat) (hI : 0 < I) (hI' : I ≤ 2 ^ 53) (hO : O < 2 ^ 53) (hf : filter.length < 2 ^ 53) :
    mkPhase fl I O filter phase = Resampler.mkPhase I O filter phase := by
  unfold mkPhase Resampler.mkPhase
  have h1 : max 0 ((O : ℝ) - phase) = ((O - phase : ℕ) : ℝ) := by
    rcases le_total phase O with h | h
    · rw [Nat.cast_sub h, max_eq_right]
      have : (phase : ℝ) ≤ O := by exact_mod_cast h
      linarith
    · rw [Nat.sub_eq_zero_of_le h, max_eq_left, Nat.cast_zero]
      have : (O : ℝ) ≤ phase := by exact_mod_cast h
      linarith
  rw [h1, ceil_div hfl _ I (by omega) hI hI', Int.toNat_natCast, ceilDiv_eq hfl _ I (by omega) hI hI']

theorem outLoop_rates (k : Nat) : ∀ (s s' : State R) (out : List R), outLoop s k = .ok (s', out) → s'.sourceRate = s.sourceRate ∧ s'.targetRate = s.targetRate := by
  induction k with
  | zero =>
    intro s s' out h
    simp only [outLoop, Except.ok.injEq, Prod.mk.injEq] at h
    rw [← h.1]
    exact ⟨rfl, rfl⟩
  | succ k ih =>
    intro s s' out h
    unfold outLoop at h
    split at h
    · cases h
    · split at h
      · split at h
        · cases h
        · next s1 v h1 =>
          have hr : s1.sourceRate = s.sourceRate ∧ s1.targetRate = s.targetRate := by
            unfold reconstructOne at h1
            split at h1
            · cases h1
            · dsimp only at h1
              split at h1
              · cases h1
              · split at h1
                · cases h1
                · simp only [Except.ok.injEq, Prod.mk.injEq] at h1
                  rw [← h1.1]
                  exact ⟨rfl, rfl⟩
          split at h
          · cases h
          · next s2 o h2 =>
            simp only [Except.ok.injEq, Prod.mk.injEq] at h
            have := ih s1 s2 o h2
            rw [← h.1, this.1, this.2]
            exact hr
      · simp only [Except.ok.injEq, Prod.mk.injEq] at h
        rw [← h.1]
        exact ⟨rfl, rfl⟩

theorem process_rates (s s' : State R) (src out : List R) (h : Resampler.process s src = .ok (s', out)) :
    s'.sourceRate = s.sourceRate ∧ s'.targetRate = s.targetRate := by
  unfold Resampler.process at h
  dsimp only at h
  split at h
  · cases h
  · next s1 o h1 =>
    have := outLoop_rates _ _ _ _ h1
    split at h
    · cases h
    · simp only [Except.ok.injEq, Prod.mk.injEq] at h
      rw [← h.1]
      exact this

theorem cdiv_le (a b : Nat) (hb : 0 < b) : cdiv a b ≤ a := by
  obtain ⟨h1, h2⟩ := cdiv_spec a b hb
  by_contra hc
  have : (a + 1) * b ≤ cdiv a b * b := Nat.mul_le_mul_right _ (by omega)
  have : (a + 1) * b = a * b + b := by ring
  have : a * 1 ≤ a * b := Nat.mul_le_mul_left _ hb
  omega

theorem new_rates (S T : Nat) (f : List R) (scale : R) (r : State R) (h : Resampler.new S T f scale = some r) :
    r.sourceRate = S ∧ r.targetRate = T ∧ r.latency ≤ f.length := by
  unfold Resampler.new at h
  cases hg : QM.MathInt.gcd (min S T) (max S T) with
  | none => rw [hg] at h; cases h
  | some g =>
    rw [hg] at h
    simp only [Option.bind_eq_bind, Option.bind_some] at h
    split at h
    · cases h
    · cases hp : (List.range (T / g)).mapM (Resampler.mkPhase (T / g) (S / g) f) with
      | none => rw [hp] at h; cases h
      | some pd =>
        rw [hp] at h
        simp only [Option.bind_some] at h
        split at h
        · cases h
        · next h0 =>
          cases h
          refine ⟨rfl, rfl, ?_⟩
          have := cdiv_le (f.length - f.length / 2) (S / g) (Nat.pos_of_ne_zero (fun hc => h0 (Or.inl hc)))
          exact this.trans (Nat.sub_le _ _)

include hfl in
theorem round_pos (y : ℝ) (h0 : 0 ≤ y) (hy : y ≤ 2 ^ 51) : |(⌊fl (y + 1 / 2)⌋ : ℝ) - y| ≤ 1 / 2 + (y + 1) / 2 ^ 53 ∧
    (∀ k : ℕ, y = k → ⌊fl (y + 1 / 2)⌋ = k) ∧ ∀ k : ℕ, y = k + 1 / 2 → ⌊fl (y + 1 / 2)⌋ = k + 1 := by
  refine ⟨?_, fun k hk => ?_, fun k hk => ?_⟩
  · have herr := hfl.rounds (y + 1 / 2) (by
      rw [abs_of_nonneg (by linarith)]
      have : y + 1 / 2 ≤ 2 ^ 52 := by
        norm_num at hy ⊢
        linarith
      exact this.trans (pow_le_pow_right₀ (by norm_num) (by norm_num)))
    rw [abs_of_nonneg (show 0 ≤ y + 1 / 2 by linarith), abs_le] at herr
    have ht : (1 : ℝ) / 2 ^ 1075 ≤ 1 / 2 / 2 ^ 53 := tiny106.le.trans (by norm_num)
    have e : (y + 1) / 2 ^ 53 = (y + 1 / 2) / 2 ^ 53 + 1 / 2 / 2 ^ 53 := by ring
    have h1 := Int.floor_le (fl (y + 1 / 2))
    have h2 := Int.lt_floor_add_one (fl (y + 1 / 2))
    generalize (1 : ℝ) / 2 ^ 1075 = t at *
    rw [abs_le, e]
    constructor <;> linarith [herr.1, herr.2]
  · have hk' : k ≤ 2 ^ 51 := by
      have : (k : ℝ) ≤ ((2 ^ 51 : ℕ) : ℝ) := by
        rw [← hk]
        exact_mod_cast hy
      exact_mod_cast this
    have hd : IsDbl (y + 1 / 2) := ⟨2 * k + 1, -1, by rw [abs_of_nonneg (by positivity)]; omega, by norm_num, by
      rw [hk]
      push_cast
      rw [zpow_neg, zpow_one]
      ring⟩
    rw [hfl.exact hd, hk, Int.floor_eq_iff]
    push_cast
    constructor <;> linarith
  · have hk' : k ≤ 2 ^ 51 := by
      have : (k : ℝ) ≤ ((2 ^ 51 : ℕ) : ℝ) := by
        push_cast
        linarith
      exact_mod_cast this
    have hd : IsDbl (y + 1 / 2) := by
      have := isDbl_nat (k + 1) (by omega)
      rw [hk]
      push_cast at this
      convert this using 1
      ring
    rw [hfl.exact hd, hk, Int.floor_eq_iff]
    push_cast
    constructor <;> linarith

end QM.Counting
