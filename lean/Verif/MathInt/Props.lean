import Verif.MathInt.Model
import Mathlib.Data.Nat.Size
import Mathlib.Data.Nat.Factorial.Basic
import Mathlib.Order.Bounds.Basic
import Mathlib.Tactic.Linarith
import Mathlib.Tactic.Ring

/-!
# C01, C02: integer helpers of `MathUtilities`
-/

namespace QM.MathInt

/-- Specification: `p` is a power of two. -/
def IsPow2 (p : Int) : Prop := ∃ k : Nat, p = 2 ^ k

/-! ## Helper lemmas -/

theorem land_pred_eq_zero_iff (n : Nat) (h : 1 ≤ n) : n &&& (n - 1) = 0 ↔ ∃ k, n = 2 ^ k :=  by
  have := @Nat.and_sub_one_eq_zero_iff_isPowerOfTwo n (by omega)
  rw [this]
  rfl

theorem shiftLoop_eq (x n : Nat) (hn : 1 ≤ n) :
    shiftLoop x n = if n * 2 ^ x.size ≤ intMax ∨ x = 0 then some (n * 2 ^ x.size) else none := by
  induction x using Nat.strong_induction_on generalizing n with
  | _ x ih =>
    rw [shiftLoop]
    by_cases hx : x = 0
    · simp [hx]
    · have hs : x.size = (x / 2).size + 1 := by
        have h2 : x = Nat.bit (x.bodd) (x / 2) := by
          rw [← Nat.div2_val]; exact (Nat.bit_bodd_div2 x).symm
        have h3 : Nat.bit (x.bodd) (x / 2) ≠ 0 := by rw [← h2]; exact hx
        calc x.size = (Nat.bit x.bodd (x/2)).size := by rw [← h2]
          _ = _ := by rw [Nat.size_bit h3]
      have hp : n * 2 ^ x.size = n * 2 * 2 ^ (x/2).size := by rw [hs, pow_succ]; ring
      have hpos : 1 ≤ 2 ^ (x/2).size := Nat.one_le_two_pow
      rw [if_neg hx]
      by_cases ho : n * 2 > intMax
      · rw [if_pos ho, if_neg]
        rintro (h | h)
        · rw [hp] at h
          have : n * 2 * 1 ≤ n * 2 * 2 ^ (x/2).size := Nat.mul_le_mul_left _ hpos
          omega
        · exact hx h
      · rw [if_neg ho, ih (x/2) (by omega) (n*2) (by omega), hp]
        by_cases h0 : x / 2 = 0
        · have hz : (x/2).size = 0 := by rw [h0]; rfl
          rw [if_pos (Or.inr h0), if_pos]
          left; rw [hz]; omega
        · by_cases hle : n * 2 * 2 ^ (x / 2).size ≤ intMax
          · rw [if_pos (Or.inl hle), if_pos (Or.inl hle)]
          · rw [if_neg, if_neg] <;> tauto

/-! ## C01: powers of two -/

/-- C01. `isPowerOfTwo` is true exactly of the powers of two `2^0, 2^1, ...`, for every int. -/
theorem C01_isPowerOfTwo_iff (x : Int) : isPowerOfTwo x = true ↔ IsPow2 x := by
  unfold isPowerOfTwo IsPow2
  by_cases h : x < 1
  · simp only [h, if_true, Bool.false_eq_true, false_iff, not_exists]
    intro k hk
    have : (0:Int) < 2 ^ k := by positivity
    omega
  · simp only [h, if_false]
    have hx : x = (x.toNat : Int) := by omega
    have h1 : (x - 1).toNat = x.toNat - 1 := by omega
    rw [h1]
    have := land_pred_eq_zero_iff x.toNat (by omega)
    by_cases hz : x.toNat &&& (x.toNat - 1) = 0
    · simp only [hz, ne_eq, not_true_eq_false, if_false, true_iff]
      obtain ⟨k, hk⟩ := this.mp hz
      exact ⟨k, by rw [hx, hk]; push_cast; rfl⟩
    · simp only [ne_eq, hz, not_false_eq_true, if_true, Bool.false_eq_true, false_iff]
      rintro ⟨k, hk⟩
      exact hz (this.mpr ⟨k, by
        have : ((x.toNat : Nat) : Int) = ((2 ^ k : Nat) : Int) := by rw [← hx, hk]; push_cast; rfl
        exact_mod_cast this⟩)

example : isPowerOfTwo 4096 = true ∧ IsPow2 4096 := ⟨by decide, 12, by norm_num⟩

theorem pow2_mono_int {a b : Nat} (h : a ≤ b) : (2:Int)^a ≤ 2^b :=
  pow_le_pow_right₀ (by norm_num) h

/-- C01. Whenever `nextPowerOfTwo x` has a defined result it is the least power of two `≥ x`. -/
theorem C01_nextPowerOfTwo_least (x r : Int) (h : nextPowerOfTwo x = some r) :
    IsLeast {p : Int | IsPow2 p ∧ x ≤ p} r := by
  unfold nextPowerOfTwo at h
  split at h
  · next hp =>
    cases h
    exact ⟨⟨(C01_isPowerOfTwo_iff x).mp hp, le_refl _⟩, fun p hp => hp.2⟩
  · next hnp =>
    split at h
    · next hlt =>
      cases h
      refine ⟨⟨⟨0, by norm_num⟩, by omega⟩, ?_⟩
      rintro p ⟨⟨k, rfl⟩, -⟩
      have : (0:Int) < 2 ^ k := by positivity
      omega
    · next hge =>
      rw [shiftLoop_eq _ _ (le_refl 1)] at h
      split at h
      · simp only [one_mul, Option.map_some, Option.some.injEq] at h
        subst h
        have hlt := Nat.lt_size_self x.toNat
        have hx : x = (x.toNat : Int) := by omega
        refine ⟨⟨⟨_, by push_cast; rfl⟩, ?_⟩, ?_⟩
        · rw [hx]; exact_mod_cast le_of_lt hlt
        · rintro p ⟨⟨k, rfl⟩, hk⟩
          push_cast
          apply pow2_mono_int
          rw [Nat.size_le]
          have h1 : (x.toNat : Int) ≤ 2 ^ k := by rw [← hx]; exact hk
          have h2 : x.toNat ≤ 2 ^ k := by exact_mod_cast h1
          rcases Nat.lt_or_ge x.toNat (2^k) with h3 | h3
          · exact h3
          · exfalso
            apply hnp
            rw [C01_isPowerOfTwo_iff]
            exact ⟨k, by rw [hx]; have : x.toNat = 2^k := by omega
                         rw [this]; push_cast; rfl⟩
      · simp at h

example : nextPowerOfTwo 1300 = some 2048 := by simp [nextPowerOfTwo, isPowerOfTwo, shiftLoop, intMax]

/-- C01. Exactly when `nextPowerOfTwo` is defined on ints: it overflows (undefined behaviour) for
precisely the ints above `2^30`; on all others it returns a value. -/
theorem C01_nextPowerOfTwo_overflow_iff (x : Int) (hx : isInt32 x) :
    nextPowerOfTwo x = none ↔ 2 ^ 30 < x := by
  unfold nextPowerOfTwo
  by_cases hp : isPowerOfTwo x = true
  · simp only [hp, if_true, reduceCtorEq, false_iff, not_lt]
    obtain ⟨k, rfl⟩ := (C01_isPowerOfTwo_iff x).mp hp
    by_contra hc
    have : k ≥ 31 := by
      by_contra hk
      exact hc (pow2_mono_int (by omega))
    have := pow2_mono_int this
    have := hx.2
    norm_num at *
    omega
  · rw [if_neg hp]
    by_cases h1 : x < 1
    · rw [if_pos h1]; simp; omega
    · rw [if_neg h1, shiftLoop_eq _ _ (le_refl 1)]
      have hx' : x = (x.toNat : Int) := by omega
      have hne : x.toNat ≠ 0 := by omega
      simp only [one_mul, hne, or_false, Option.map_eq_none_iff, ite_eq_right_iff, reduceCtorEq,
        imp_false, not_le]
      have hkey : intMax < 2 ^ x.toNat.size ↔ 31 ≤ x.toNat.size := by
        constructor
        · intro h; by_contra hc
          have : 2 ^ x.toNat.size ≤ 2 ^ 30 := Nat.pow_le_pow_right (by norm_num) (by omega)
          unfold intMax at h; norm_num at this; omega
        · intro h
          have : 2 ^ 31 ≤ 2 ^ x.toNat.size := Nat.pow_le_pow_right (by norm_num) h
          unfold intMax; norm_num at this; omega
      rw [hkey, show (31 ≤ x.toNat.size) ↔ (30 < x.toNat.size) from Iff.rfl, Nat.lt_size]
      constructor
      · intro h
        have h' : (2:Int)^30 ≤ x := by rw [hx']; exact_mod_cast h
        rcases lt_or_eq_of_le h' with h3 | h3
        · exact h3
        · exact absurd ((C01_isPowerOfTwo_iff x).mpr ⟨30, h3.symm⟩) hp
      · intro h
        have : (2:Int)^30 ≤ (x.toNat : Int) := by rw [← hx']; exact le_of_lt h
        exact_mod_cast this

/-- C01 fails as stated on the whole int range: the concrete int `2^30 + 1` makes `nextPowerOfTwo`
(and with it `nearestPowerOfTwo`) overflow. -/
theorem C01_violation : isInt32 1073741825 ∧ nextPowerOfTwo 1073741825 = none ∧
    nearestPowerOfTwo 1073741825 = none := by
  refine ⟨by unfold isInt32; norm_num, ?_, ?_⟩
  · exact (C01_nextPowerOfTwo_overflow_iff _ (by unfold isInt32; norm_num)).mpr (by norm_num)
  · have h := (C01_nextPowerOfTwo_overflow_iff 1073741825 (by unfold isInt32; norm_num)).mpr
      (by norm_num)
    unfold nearestPowerOfTwo
    rw [h]
    have : isPowerOfTwo 1073741825 = false := by decide
    rw [this]; simp

/-- C01. For `x ≥ 1`, `previousPowerOfTwo` is defined on every int and is the greatest power of
two `≤ x`; for `x < 1` it is 1. -/
theorem C01_previousPowerOfTwo_greatest (x : Int) (hx : isInt32 x) :
    ∃ r, previousPowerOfTwo x = some r ∧
      (1 ≤ x → IsGreatest {p : Int | IsPow2 p ∧ p ≤ x} r) ∧ (x < 1 → r = 1) := by
  unfold previousPowerOfTwo
  by_cases hp : isPowerOfTwo x = true
  · simp only [hp, if_true, Option.some.injEq, exists_eq_left']
    obtain ⟨k, hk⟩ := (C01_isPowerOfTwo_iff x).mp hp
    refine ⟨fun _ => ⟨⟨⟨k, hk⟩, le_refl _⟩, fun p hp => hp.2⟩, ?_⟩
    intro h
    have : (0:Int) < 2 ^ k := by positivity
    omega
  · rw [if_neg hp]
    by_cases h1 : x < 1
    · rw [if_pos h1]; refine ⟨1, rfl, fun h => by omega, fun _ => rfl⟩
    · rw [if_neg h1, shiftLoop_eq _ _ (le_refl 1)]
      have hx' : x = (x.toNat : Int) := by omega
      have hx2 := hx.2
      have hle : (x.toNat / 2).size ≤ 30 := by
        rw [Nat.size_le]
        have : x.toNat ≤ 2147483647 := by omega
        norm_num; omega
      have hfit : 2 ^ (x.toNat / 2).size ≤ intMax := by
        have : 2 ^ (x.toNat / 2).size ≤ 2 ^ 30 := Nat.pow_le_pow_right (by norm_num) hle
        unfold intMax; norm_num at this; omega
      rw [if_pos (Or.inl (by rw [one_mul]; exact hfit))]
      refine ⟨_, rfl, fun h => ?_, fun h => absurd h h1⟩
      refine ⟨⟨⟨(x.toNat/2).size, by push_cast; ring⟩, ?_⟩, ?_⟩
      · show ((1 * 2 ^ (x.toNat / 2).size : Nat) : Int) ≤ x
        conv_rhs => rw [hx']
        by_cases h0 : (x.toNat / 2).size = 0
        · rw [h0]; simp; omega
        · have h2 : 2 ^ ((x.toNat/2).size - 1) ≤ x.toNat / 2 := by
            rw [← Nat.lt_size]; omega
          have h3 : 2 ^ (x.toNat/2).size = 2 * 2 ^ ((x.toNat/2).size - 1) := by
            rw [← pow_succ']; congr 1; omega
          have h4 : 1 * 2 ^ (x.toNat/2).size ≤ x.toNat := by omega
          exact_mod_cast h4
      · rintro p ⟨⟨k, rfl⟩, hk⟩
        push_cast
        rw [one_mul]
        apply pow2_mono_int
        by_cases hk0 : k = 0
        · omega
        · have h1 : (2:Int)^k ≤ (x.toNat : Int) := by rw [← hx']; exact hk
          have h2 : 2 ^ k ≤ x.toNat := by exact_mod_cast h1
          have h3 : 2 ^ k = 2 * 2 ^ (k-1) := by rw [← pow_succ']; congr 1; omega
          have h4 : k - 1 < (x.toNat / 2).size := by rw [Nat.lt_size]; omega
          omega

example : previousPowerOfTwo 1300 = some 1024 ∧ isInt32 1300 := by
  constructor
  · simp [previousPowerOfTwo, isPowerOfTwo, shiftLoop, intMax]
  · unfold isInt32; norm_num

/-- C01 (partial: the range where `nextPowerOfTwo` does not overflow, i.e. `x ≤ 2^30`; above it the
code is undefined, see `C01_violation`). `nearestPowerOfTwo x` is a power of two, no power of two is
closer to `x`, and among equally close ones it is the larger. -/
theorem C01_nearestPowerOfTwo_partial (x : Int) (hx : isInt32 x) (hle : x ≤ 2 ^ 30) :
    ∃ r, nearestPowerOfTwo x = some r ∧ IsPow2 r ∧
      ∀ p, IsPow2 p → |r - x| ≤ |p - x| ∧ (|r - x| = |p - x| → p ≤ r) := by
  unfold nearestPowerOfTwo
  by_cases hp : isPowerOfTwo x = true
  · rw [if_pos hp]
    refine ⟨x, rfl, (C01_isPowerOfTwo_iff x).mp hp, fun p _ => ⟨by simp, ?_⟩⟩
    simp only [sub_self, abs_zero]
    intro h
    have := abs_eq_zero.mp h.symm
    omega
  · rw [if_neg hp]
    obtain ⟨n0, h0, hg, hg'⟩ := C01_previousPowerOfTwo_greatest x hx
    obtain ⟨n1, h1⟩ : ∃ n1, nextPowerOfTwo x = some n1 := by
      rcases h : nextPowerOfTwo x with _ | n1
      · have := (C01_nextPowerOfTwo_overflow_iff x hx).mp h; omega
      · exact ⟨n1, rfl⟩
    have hl := C01_nextPowerOfTwo_least x n1 h1
    rw [h0, h1]
    simp only
    have hn1 : x ≤ n1 := hl.1.2
    by_cases hx1 : x < 1
    · have hn0 := hg' hx1
      subst hn0
      have hone : n1 = 1 := le_antisymm (hl.2 ⟨⟨0, by norm_num⟩, by omega⟩) (by
        obtain ⟨k, hk⟩ := hl.1.1
        have : (0:Int) < 2 ^ k := by positivity
        omega)
      subst hone
      refine ⟨1, ite_self _, ⟨0, by norm_num⟩, ?_⟩
      rintro p ⟨k, rfl⟩
      have : (0:Int) < 2 ^ k := by positivity
      rw [abs_of_nonneg (by omega), abs_of_nonneg (by omega)]
      omega
    · have hG := hg (by omega)
      have hn0 : n0 ≤ x := hG.1.2
      have hcase : ∀ p, IsPow2 p → p ≤ n0 ∨ n1 ≤ p := by
        intro p hp2
        rcases le_total p x with h | h
        · exact Or.inl (hG.2 ⟨hp2, h⟩)
        · exact Or.inr (hl.2 ⟨hp2, h⟩)
      split
      · refine ⟨n0, rfl, hG.1.1, fun p hp2 => ?_⟩
        rw [abs_of_nonpos (by omega : n0 - x ≤ 0)]
        rcases hcase p hp2 with h | h
        · rw [abs_of_nonpos (by omega : p - x ≤ 0)]; omega
        · rw [abs_of_nonneg (by omega : 0 ≤ p - x)]; omega
      · refine ⟨n1, rfl, hl.1.1, fun p hp2 => ?_⟩
        rw [abs_of_nonneg (by omega : 0 ≤ n1 - x)]
        rcases hcase p hp2 with h | h
        · rw [abs_of_nonpos (by omega : p - x ≤ 0)]; omega
        · rw [abs_of_nonneg (by omega : 0 ≤ p - x)]; omega

example : nearestPowerOfTwo 12 = some 16 ∧ isInt32 12 ∧ (12:Int) ≤ 2^30 := by
  refine ⟨?_, by unfold isInt32; norm_num, by norm_num⟩
  simp [nearestPowerOfTwo, previousPowerOfTwo, nextPowerOfTwo, isPowerOfTwo, shiftLoop, intMax]

/-! ## C02: gcd and factorial -/

/-- C02. `gcd a b` is the greatest common divisor for all naturals `a` and positive `b`. -/
theorem C02_gcd_correct (a b : Nat) (hb : 0 < b) : gcd a b = some (Nat.gcd a b) := by
  induction b using Nat.strong_induction_on generalizing a with
  | _ b ih =>
    rw [gcd, if_neg (by omega)]
    by_cases h : a % b = 0
    · rw [if_pos h, Nat.gcd_eq_right (Nat.dvd_of_mod_eq_zero h)]
    · rw [if_neg h, ih (a % b) (Nat.mod_lt _ hb) b (by omega), Nat.gcd_comm a b, Nat.gcd_rec b a,
        Nat.gcd_comm]

/-- C02. A zero second argument is a division by zero, whatever the first argument. -/
theorem C02_gcd_zero (a : Nat) : gcd a 0 = none := by rw [gcd]; simp

example : gcd 44100 48000 = some 300 := by rw [C02_gcd_correct _ _ (by norm_num)]; rfl

theorem factLoop_eq (n : Nat) : factLoop n = n.factorial := by
  induction n with
  | zero => rfl
  | succ n ih => rw [factLoop, ih, Nat.factorial_succ, Nat.mul_comm]

/-- C02. `factorial x = x!` for every non-negative int, 0 for negative ones. -/
theorem C02_factorial (x : Int) :
    (∀ n : Nat, x = n → factorial x = n.factorial) ∧ (x < 0 → factorial x = 0) := by
  constructor
  · rintro n rfl
    unfold factorial
    rw [if_neg (by omega), factLoop_eq]; simp
  · intro h; simp [factorial, h]

example : factorial 5 = 120 := by decide

end QM.MathInt
