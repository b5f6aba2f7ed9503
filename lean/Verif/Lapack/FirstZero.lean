import Verif.Lapack.Spec
import Mathlib.Algebra.Field.Basic
import Mathlib.Order.Defs.LinearOrder

/-!
# The number of the first zero
-/

namespace QM.Lapack

variable {K : Type} [Field K] [LinearOrder K]

omit [LinearOrder K] in
theorem FirstZero.zero (d : Nat → K) : FirstZero 0 d 0 := Or.inl ⟨rfl, fun _ h => absurd h (by omega)⟩

omit [LinearOrder K] in
theorem FirstZero.iff {k info : Nat} {d : Nat → K} (h : FirstZero k d info) : info = 0 ↔ ∀ i < k, d i ≠ 0 := by
  rcases h with ⟨h1, h2⟩ | ⟨h1, h2, h3, h4⟩
  · exact ⟨fun _ => h2, fun _ => h1⟩
  · exact ⟨fun h => absurd h (by omega), fun h => absurd h3 (h (info - 1) (by omega))⟩

omit [LinearOrder K] in
theorem FirstZero.congr {k info : Nat} {d d' : Nat → K} (h : FirstZero k d info) (hd : ∀ i < k, d' i = d i) : FirstZero k d' info := by
  rcases h with ⟨h1, h2⟩ | ⟨h1, h2, h3, h4⟩
  · exact Or.inl ⟨h1, fun i hi => by rw [hd i hi]; exact h2 i hi⟩
  · exact Or.inr ⟨h1, h2, by rw [hd _ (by omega)]; exact h3, fun i hi => by rw [hd i (by omega)]; exact h4 i hi⟩

omit [LinearOrder K] in
/-- The result for `j` numbers and the result for the `w` that follow. -/
theorem FirstZero.append {j w i1 i2 : Nat} {d : Nat → K} (h1 : FirstZero j d i1) (h2 : FirstZero w (fun i => d (j + i)) i2) :
    FirstZero (j + w) d (if i1 = 0 ∧ 0 < i2 then i2 + j else i1) := by
  rcases h1 with ⟨a1, a2⟩ | ⟨a1, a2, a3, a4⟩
  · subst a1
    rcases h2 with ⟨b1, b2⟩ | ⟨b1, b2, b3, b4⟩
    · subst b1
      rw [if_neg (by omega)]
      refine Or.inl ⟨rfl, fun i hi => ?_⟩
      by_cases h : i < j
      · exact a2 i h
      · have := b2 (i - j) (by omega)
        beta_reduce at this
        rwa [show j + (i - j) = i by omega] at this
    · rw [if_pos ⟨rfl, b1⟩]
      refine Or.inr ⟨by omega, by omega, ?_, fun i hi => ?_⟩
      · beta_reduce at b3
        rwa [show j + (i2 - 1) = i2 + j - 1 by omega] at b3
      · by_cases h : i < j
        · exact a2 i h
        · have := b4 (i - j) (by omega)
          beta_reduce at this
          rwa [show j + (i - j) = i by omega] at this
  · rw [if_neg (by omega)]
    exact Or.inr ⟨a1, by omega, a3, a4⟩

theorem FirstZero.succ {k info : Nat} {d d' : Nat → K} (h : FirstZero k d info) (hd : ∀ i < k, d' i = d i) :
    FirstZero (k + 1) d' (if d' k = 0 ∧ info = 0 then k + 1 else info) := by
  have h1 := (h.congr hd).append (w := 1) (i2 := if d' k = 0 then 1 else 0) (by
    by_cases h0 : d' k = 0
    · rw [if_pos h0]
      exact Or.inr ⟨by omega, by omega, by simpa using h0, fun i hi => absurd hi (by omega)⟩
    · rw [if_neg h0]
      refine Or.inl ⟨rfl, fun i hi => ?_⟩
      obtain rfl : i = 0 := by omega
      exact h0)
  by_cases h0 : d' k = 0
  · by_cases h2 : info = 0
    · rw [if_pos (by simp [h0, h2]), if_pos h0] at h1
      rw [if_pos ⟨h0, h2⟩, Nat.add_comm]
      rwa [Nat.add_comm 1 k] at h1 ⊢
    · rw [if_neg (by simp [h2])] at h1
      rwa [if_neg (by simp [h2])]
  · rw [if_neg (by simp [h0])] at h1
    rwa [if_neg (by simp [h0])]

omit [LinearOrder K] in
theorem FirstZero.unique {k a b : Nat} {d : Nat → K} (h1 : FirstZero k d a) (h2 : FirstZero k d b) : a = b := by
  rcases h1 with ⟨a1, a2⟩ | ⟨a1, a2, a3, a4⟩ <;> rcases h2 with ⟨b1, b2⟩ | ⟨b1, b2, b3, b4⟩
  · omega
  · exact absurd b3 (a2 _ (by omega))
  · exact absurd a3 (b2 _ (by omega))
  · rcases Nat.lt_trichotomy a b with h | h | h
    · exact absurd a3 (b4 _ (by omega))
    · exact h
    · exact absurd b3 (a4 _ (by omega))

end QM.Lapack
