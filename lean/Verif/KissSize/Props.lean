import Verif.KissSize.Model
import Mathlib.Data.Nat.Prime.Basic
import Mathlib.Data.Int.GCD
import Mathlib.Tactic.NormNum.Prime
import Mathlib.Tactic.Linarith
import Mathlib.Tactic.Ring

/-!
# C65: the next fast FFT size
-/

namespace QM.KissSize

/-- `n` has no prime factor other than 2, 3 and 5. -/
def Smooth (n : Nat) : Prop := n ≠ 0 ∧ ∀ p, Nat.Prime p → p ∣ n → p = 2 ∨ p = 3 ∨ p = 5

theorem strip_spec (p : Nat) (hp : Nat.Prime p) (n : Nat) (hn : n ≠ 0) :
    ∃ m e : Nat, strip p (n : Int) = some (m : Int) ∧ n = p ^ e * m ∧ m ≠ 0 ∧ ¬ p ∣ m := by
  induction n using Nat.strong_induction_on with
  | _ n ih =>
    rw [strip, if_neg (by exact_mod_cast hn)]
    by_cases hd : p ∣ n
    · obtain ⟨c, rfl⟩ := hd
      have hc : c ≠ 0 := by rintro rfl; simp at hn
      have h2 := hp.two_le
      rw [if_pos ⟨by rw [Int.natCast_mul]; simp, h2⟩]
      have : ((p * c : Nat) : Int).tdiv p = (c : Int) := by
        rw [Int.natCast_mul]
        exact Int.mul_tdiv_cancel_left _ (by exact_mod_cast hp.ne_zero)
      rw [this]
      obtain ⟨m, e, h1, h3, h4, h5⟩ := ih c (by nlinarith [Nat.pos_of_ne_zero hc]) hc
      exact ⟨m, e + 1, h1, by rw [h3]; ring, h4, h5⟩
    · rw [if_neg]
      · exact ⟨n, 0, rfl, by simp, hn, hd⟩
      · rintro ⟨h, _⟩
        exact hd (by exact_mod_cast Int.dvd_of_tmod_eq_zero h)

theorem core_spec (n : Nat) (hn : n ≠ 0) :
    ∃ m : Nat, core (n : Int) = some (m : Int) ∧ (m ≤ 1 ↔ Smooth n) := by
  obtain ⟨m1, a, h1, e1, z1, d1⟩ := strip_spec 2 Nat.prime_two n hn
  obtain ⟨m2, b, h2, e2, z2, d2⟩ := strip_spec 3 Nat.prime_three m1 z1
  obtain ⟨m3, c, h3, e3, z3, d3⟩ := strip_spec 5 (by norm_num) m2 z2
  refine ⟨m3, by unfold core; rw [h1]; simp only [Option.bind_eq_bind, Option.bind_some, h2, h3], ?_⟩
  have en : n = 2 ^ a * (3 ^ b * (5 ^ c * m3)) := by rw [e1, e2, e3]
  constructor
  · intro hm
    have : m3 = 1 := by omega
    subst this
    refine ⟨hn, fun p hp hd => ?_⟩
    rw [en, mul_one] at hd
    rcases (Nat.Prime.dvd_mul hp).mp hd with h | h
    · left; exact (Nat.prime_dvd_prime_iff_eq hp Nat.prime_two).mp (hp.dvd_of_dvd_pow h)
    · rcases (Nat.Prime.dvd_mul hp).mp h with h | h
      · right; left; exact (Nat.prime_dvd_prime_iff_eq hp Nat.prime_three).mp (hp.dvd_of_dvd_pow h)
      · right; right; exact (Nat.prime_dvd_prime_iff_eq hp (by norm_num)).mp (hp.dvd_of_dvd_pow h)
  · intro hs
    by_contra hm
    obtain ⟨p, hp, hd⟩ := Nat.exists_prime_and_dvd (n := m3) (by omega)
    have hpn : p ∣ n := by
      rw [en]
      exact dvd_mul_of_dvd_right (dvd_mul_of_dvd_right (dvd_mul_of_dvd_right hd _) _) _
    rcases hs.2 p hp hpn with rfl | rfl | rfl
    · apply d1; rw [e2, e3]
      exact dvd_mul_of_dvd_right (dvd_mul_of_dvd_right hd _) _
    · apply d2; rw [e3]
      exact dvd_mul_of_dvd_right hd _
    · exact d3 hd

/-- C65. For every length `n ≥ 1` that fits an `int`: if the result is `r`, then `r` is the smallest
number not below `n` whose only prime factors are 2, 3 and 5, and it fits an `int`. -/
theorem C65_least (n : Nat) (hn : 1 ≤ n) (hi : n ≤ MathInt.intMax) (r : Int)
    (h : nextFastSize n = some r) :
    ∃ k : Nat, r = k ∧ n ≤ k ∧ k ≤ MathInt.intMax ∧ Smooth k ∧ ∀ j, n ≤ j → j < k → ¬ Smooth j := by
  induction hd : MathInt.intMax - n generalizing n with
  | zero =>
    obtain ⟨m, h1, h2⟩ := core_spec n (by omega)
    rw [nextFastSize, h1] at h
    dsimp only at h
    by_cases hm : m ≤ 1
    · rw [if_pos (by exact_mod_cast hm)] at h
      cases h
      exact ⟨n, rfl, le_refl _, hi, h2.mp hm, by intro j a b; omega⟩
    · rw [if_neg (by omega), if_pos (by omega)] at h
      cases h
  | succ d ih =>
    obtain ⟨m, h1, h2⟩ := core_spec n (by omega)
    rw [nextFastSize, h1] at h
    dsimp only at h
    by_cases hm : m ≤ 1
    · rw [if_pos (by exact_mod_cast hm)] at h
      cases h
      exact ⟨n, rfl, le_refl _, hi, h2.mp hm, by intro j a b; omega⟩
    · rw [if_neg (by omega), if_neg (by omega)] at h
      obtain ⟨k, g1, g2, g3, g4, g5⟩ := ih (n + 1) (by omega) (by omega) (by exact_mod_cast h) (by omega)
      refine ⟨k, g1, by omega, g3, g4, fun j a b => ?_⟩
      by_cases hj : j = n
      · subst hj; exact fun hs => hm (h2.mpr hs)
      · exact g5 j (by omega) b

/-- C65. The search ends exactly when there is such a number among the `int`s from `n` on; otherwise the
counter overflows. -/
theorem C65_returns_iff (n : Nat) (hn : 1 ≤ n) (hi : n ≤ MathInt.intMax) :
    (∃ r, nextFastSize n = some r) ↔ ∃ k, n ≤ k ∧ k ≤ MathInt.intMax ∧ Smooth k := by
  constructor
  · rintro ⟨r, h⟩
    obtain ⟨k, _, h1, h2, h3, _⟩ := C65_least n hn hi r h
    exact ⟨k, h1, h2, h3⟩
  · rintro ⟨k, h1, h2, h3⟩
    induction hd : k - n generalizing n with
    | zero =>
      obtain rfl : n = k := by omega
      obtain ⟨m, g1, g2⟩ := core_spec n (by omega)
      refine ⟨n, ?_⟩
      rw [nextFastSize, g1]
      dsimp only
      rw [if_pos (by exact_mod_cast g2.mpr h3)]
    | succ d ih =>
      obtain ⟨m, g1, g2⟩ := core_spec n (by omega)
      rw [nextFastSize, g1]
      dsimp only
      by_cases hm : m ≤ 1
      · exact ⟨n, by rw [if_pos (by exact_mod_cast hm)]⟩
      · rw [if_neg (by omega), if_neg (by omega)]
        exact_mod_cast ih (n + 1) (by omega) (by omega) (by omega) (by omega)

/-- C65. Every request up to `2^30` is answered. -/
theorem C65_total (n : Nat) (hn : 1 ≤ n) (hi : n ≤ 2 ^ 30) : ∃ r, nextFastSize n = some r := by
  refine (C65_returns_iff n hn (by unfold MathInt.intMax; omega)).mpr
    ⟨2 ^ 30, hi, by unfold MathInt.intMax; omega, by norm_num, fun p hp hd => ?_⟩
  left; exact (Nat.prime_dvd_prime_iff_eq hp Nat.prime_two).mp (hp.dvd_of_dvd_pow hd)

/-- C65. For `n = 0` the function does not return. -/
theorem C65_zero_diverges : nextFastSize 0 = none := by
  rw [nextFastSize]
  have : core 0 = none := by unfold core; rw [strip]; rfl
  rw [this]

theorem strip_neg (p : Nat) (hp : 0 < p) (m : Int) (hm : m < 0) :
    ∃ r, strip p m = some r ∧ r < 0 := by
  induction hk : m.natAbs using Nat.strong_induction_on generalizing m with
  | _ k ih =>
    rw [strip, if_neg (by omega)]
    split
    · next h =>
      obtain ⟨c, rfl⟩ := Int.dvd_of_tmod_eq_zero h.1
      rw [Int.mul_tdiv_cancel_left _ (by omega)]
      have hc : c < 0 := by
        by_contra hc
        have : 0 ≤ (p : Int) * c := mul_nonneg (by omega) (by omega)
        omega
      refine ih c.natAbs ?_ c hc rfl
      rw [Int.natAbs_mul] at hk
      have : 1 ≤ c.natAbs := by omega
      have h2 := h.2
      simp only [Int.natAbs_natCast] at hk
      nlinarith
    · exact ⟨m, rfl, hm⟩

/-- C65. A negative request is handed back unchanged. -/
theorem C65_negative (n : Int) (hn : n < 0) : nextFastSize n = some n := by
  obtain ⟨m1, h1, z1⟩ := strip_neg 2 (by omega) n hn
  obtain ⟨m2, h2, z2⟩ := strip_neg 3 (by omega) m1 z1
  obtain ⟨m3, h3, z3⟩ := strip_neg 5 (by omega) m2 z2
  have : core n = some m3 := by
    unfold core; rw [h1]; simp only [Option.bind_eq_bind, Option.bind_some, h2, h3]
  rw [nextFastSize, this]
  dsimp only
  rw [if_pos (by omega)]

example : ∃ r, nextFastSize 7 = some r := C65_total 7 (by omega) (by omega)

example : nextFastSize (-7) = some (-7) := C65_negative (-7) (by omega)

end QM.KissSize
