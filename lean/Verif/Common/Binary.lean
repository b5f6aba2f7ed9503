import Mathlib.Algebra.Order.Ring.Int
import Mathlib.Data.Nat.Log
import Mathlib.Tactic.Ring
import Mathlib.Tactic.Linarith
import Mathlib.Tactic.Positivity

/-!
# Double precision, bit for bit

Every finite double is a whole multiple of the smallest positive one, `2 ^ (-1074)`, so a finite double is an integer here, counting these units.
Rounding is to nearest, with ties to even, and gradual underflow; results too large for a double are infinite. There is one zero only, the positive one.
-/

namespace QM

/-- A double: not a number, infinite (negative or not), or `n * 2 ^ (-1074)`. -/
inductive B64 where
  | nan
  | inf (neg : Bool)
  | fin (n : Int)
deriving DecidableEq

/-- The integers that are doubles, in units of `2 ^ (-1074)`: a significand of 53 bits times a power of two, below the overflow threshold `2 ^ 1024`. -/
def IsDouble (n : Int) : Prop := (∃ m : Int, ∃ e : Nat, |m| < 2 ^ 53 ∧ n = m * 2 ^ e) ∧ |n| < 2 ^ 2098

namespace B64

/-- The quotient rounded to 53 bits, to nearest with ties to even. -/
def nearest (num den : Nat) : Nat :=
  let u := 2 ^ (Nat.log2 (num / den) - 52)
  let m := num / (den * u)
  let r := num % (den * u)
  if 2 * r < den * u ∨ (2 * r = den * u ∧ m % 2 = 0) then m * u else (m + 1) * u

/-- The double nearest to `num / den` units. -/
def rnd (num : Int) (den : Nat) : B64 :=
  let r := nearest num.natAbs den
  if r < 2 ^ 2098 then fin (if num < 0 then -(r : Int) else r) else inf (decide (num < 0))

/-- The number of units in 1. -/
def one : Nat := 2 ^ 1074

/-- The conversion from an integer. -/
def ofInt (k : Int) : B64 := rnd (k * one) 1

/-- Sign change. -/
def neg : B64 → B64
  | nan => nan
  | inf s => inf (!s)
  | fin x => fin (-x)

/-- Sum. -/
def add : B64 → B64 → B64
  | fin x, fin y => rnd (x + y) 1
  | nan, _ => nan
  | _, nan => nan
  | inf s, inf t => if s = t then inf s else nan
  | inf s, fin _ => inf s
  | fin _, inf t => inf t

/-- Product. -/
def mul : B64 → B64 → B64
  | fin x, fin y => rnd (x * y) one
  | nan, _ => nan
  | _, nan => nan
  | inf s, inf t => inf (s != t)
  | inf s, fin y => if y = 0 then nan else inf (s != decide (y < 0))
  | fin x, inf t => if x = 0 then nan else inf (decide (x < 0) != t)

/-- Quotient. -/
def div : B64 → B64 → B64
  | fin x, fin y => if y = 0 then (if x = 0 then nan else inf (decide (x < 0))) else rnd (x * one * y.sign) y.natAbs
  | nan, _ => nan
  | _, nan => nan
  | inf _, inf _ => nan
  | inf s, fin y => inf (s != decide (y < 0))
  | fin _, inf _ => fin 0

/-- `<`. -/
def lt : B64 → B64 → Bool
  | fin x, fin y => decide (x < y)
  | nan, _ => false
  | _, nan => false
  | inf s, inf t => s && !t
  | inf s, fin _ => s
  | fin _, inf t => !t

/-- `==`. -/
def eq : B64 → B64 → Bool
  | nan, _ => false
  | _, nan => false
  | x, y => decide (x = y)

/-- `<=`. -/
def le (x y : B64) : Bool := lt x y || eq x y

/-- The absolute value. -/
def abs : B64 → B64
  | nan => nan
  | inf _ => inf false
  | fin x => fin |x|

theorem unit_split {q : Nat} : q / 2 ^ (Nat.log2 q - 52) < 2 ^ 53 := by
  rw [Nat.div_lt_iff_lt_mul (by positivity), ← pow_add]
  by_cases h : q = 0
  · subst h; positivity
  · exact ((Nat.log2_lt h).1 (Nat.lt_succ_self _)).trans_le (Nat.pow_le_pow_right (by omega) (by omega))

theorem unit_large {q : Nat} (h : 0 < Nat.log2 q - 52) : 2 ^ 52 ≤ q / 2 ^ (Nat.log2 q - 52) := by
  rw [Nat.le_div_iff_mul_le (by positivity), ← pow_add]
  have hq : q ≠ 0 := by rintro rfl; simp at h
  exact (Nat.pow_le_pow_right (by omega) (by omega)).trans (Nat.log2_self_le hq)

/-- There is no double strictly between two neighbouring multiples of the unit. -/
theorem no_between {l m k e : Nat} (hm : 0 < l → 2 ^ 52 ≤ m) (hk : k < 2 ^ 53) : k * 2 ^ e ≤ m * 2 ^ l ∨ (m + 1) * 2 ^ l ≤ k * 2 ^ e := by
  by_cases h : l ≤ e
  · obtain ⟨d, rfl⟩ := Nat.exists_eq_add_of_le h
    have : k * 2 ^ (l + d) = k * 2 ^ d * 2 ^ l := by rw [pow_add]; ring
    rw [this]
    rcases Nat.lt_or_ge m (k * 2 ^ d) with h' | h'
    · exact Or.inr (Nat.mul_le_mul_right _ h')
    · exact Or.inl (Nat.mul_le_mul_right _ h')
  · left
    have h1 := hm (by omega)
    calc k * 2 ^ e ≤ 2 ^ 53 * 2 ^ (l - 1) := Nat.mul_le_mul hk.le (Nat.pow_le_pow_right (by omega) (by omega))
      _ = 2 ^ 52 * 2 ^ l := by rw [← pow_add, ← pow_add]; congr 1; omega
      _ ≤ m * 2 ^ l := Nat.mul_le_mul_right _ h1

/-- The rounded quotient has 53 bits, and no other number of 53 bits is nearer. -/
theorem nearest_spec (num : Nat) {den : Nat} (hd : 0 < den) :
    (∃ m e : Nat, m < 2 ^ 53 ∧ nearest num den = m * 2 ^ e) ∧
      ∀ k e : Nat, k < 2 ^ 53 → |(num : Int) - nearest num den * den| ≤ |(num : Int) - (k * 2 ^ e : Nat) * den| := by
  set l := Nat.log2 (num / den) - 52 with hl
  set m := num / (den * 2 ^ l) with hm
  set r := num % (den * 2 ^ l) with hr
  have hn : nearest num den = if 2 * r < den * 2 ^ l ∨ (2 * r = den * 2 ^ l ∧ m % 2 = 0) then m * 2 ^ l else (m + 1) * 2 ^ l := rfl
  have hm1 : m < 2 ^ 53 := by
    rw [hm, ← Nat.div_div_eq_div_mul]; exact unit_split
  have hm2 : 0 < l → 2 ^ 52 ≤ m := by
    intro h; rw [hm, ← Nat.div_div_eq_div_mul]; exact unit_large h
  have hdl : 0 < den * 2 ^ l := by positivity
  have h1 : den * 2 ^ l * m + r = num := Nat.div_add_mod num (den * 2 ^ l)
  have h2 : r < den * 2 ^ l := Nat.mod_lt _ hdl
  constructor
  · rw [hn]
    split
    · exact ⟨m, l, hm1, rfl⟩
    · rcases Nat.lt_or_ge (m + 1) (2 ^ 53) with h | h
      · exact ⟨m + 1, l, h, rfl⟩
      · have : m + 1 = 2 ^ 53 := by omega
        exact ⟨2 ^ 52, l + 1, by norm_num, by rw [this, pow_succ]; ring⟩
  · intro k e hk
    have h3 : (num : Int) = den * 2 ^ l * m + r := by rw [← h1]; push_cast; ring
    have h4 : (r : Int) < den * 2 ^ l := by exact_mod_cast h2
    have h0 : (0 : Int) ≤ r := by positivity
    have hden : (0 : Int) < den := by exact_mod_cast hd
    have lower : |(num : Int) - nearest num den * den| ≤ r ∧ |(num : Int) - nearest num den * den| ≤ den * 2 ^ l - r := by
      rw [hn]
      split
      · rename_i h
        have h' : 2 * (r : Int) ≤ den * 2 ^ l := by
          rcases h with h | h
          · exact_mod_cast h.le
          · exact_mod_cast h.1.le
        have : (num : Int) - ((m * 2 ^ l : Nat) : Int) * den = r := by rw [h3]; push_cast; ring
        rw [this, abs_of_nonneg h0]
        constructor <;> linarith
      · rename_i h
        push Not at h
        have h' : (den : Int) * 2 ^ l ≤ 2 * r := by exact_mod_cast h.1
        have : (num : Int) - (((m + 1) * 2 ^ l : Nat) : Int) * den = -(den * 2 ^ l - r) := by rw [h3]; push_cast; ring
        rw [this, abs_neg, abs_of_nonneg (by linarith)]
        constructor <;> linarith
    rcases no_between (k := k) (e := e) hm2 hk with h | h
    · refine lower.1.trans ?_
      have h5 : ((k * 2 ^ e : Nat) : Int) * den ≤ ((m * 2 ^ l : Nat) : Int) * den := by
        apply mul_le_mul_of_nonneg_right _ hden.le
        exact_mod_cast h
      have h6 : ((m * 2 ^ l : Nat) : Int) * den = den * 2 ^ l * m := by push_cast; ring
      refine le_trans ?_ (le_abs_self _)
      rw [h3]; linarith
    · refine lower.2.trans ?_
      have h5 : (((m + 1) * 2 ^ l : Nat) : Int) * den ≤ ((k * 2 ^ e : Nat) : Int) * den := by
        apply mul_le_mul_of_nonneg_right _ hden.le
        exact_mod_cast h
      have h6 : (((m + 1) * 2 ^ l : Nat) : Int) * den = den * 2 ^ l * m + den * 2 ^ l := by push_cast; ring
      refine le_trans ?_ (neg_le_abs _)
      rw [h3]; linarith

/-- A rounded result that is finite is a double, and no double is nearer to the exact value. -/
theorem rnd_spec {num : Int} {den : Nat} {x : Int} (hd : 0 < den) (h : rnd num den = fin x) :
    IsDouble x ∧ ∀ y, IsDouble y → |num - x * den| ≤ |num - y * den| := by
  unfold rnd at h
  dsimp only at h
  obtain ⟨⟨m, e, h1, h2⟩, h3⟩ := nearest_spec num.natAbs hd
  split at h
  · rename_i ht
    cases h
    have hcast : ((nearest num.natAbs den : Nat) : Int) < 2 ^ 2098 := by exact_mod_cast ht
    by_cases hneg : num < 0
    · have hnum : (num.natAbs : Int) = -num := by omega
      simp only [hneg, if_true]
      refine ⟨⟨⟨-m, e, ?_, ?_⟩, ?_⟩, ?_⟩
      · rw [abs_neg, Nat.abs_cast]; exact_mod_cast h1
      · rw [h2]; push_cast; ring
      · rw [abs_neg, Nat.abs_cast]; exact hcast
      · rintro y ⟨⟨k, e', hk, rfl⟩, -⟩
        have h4 := h3 k.natAbs e' (by have : (k.natAbs : Int) < 2 ^ 53 := by rw [Int.natCast_natAbs]; exact hk
                                      exact_mod_cast this)
        rw [hnum] at h4
        have h5 : |num - -((nearest num.natAbs den : Nat) : Int) * den| = |-num - ((nearest num.natAbs den : Nat) : Int) * den| := by
          rw [← abs_neg]; congr 1; ring
        rw [h5]
        refine h4.trans ?_
        have hden : (0 : Int) ≤ den := by positivity
        have hk2 : (0 : Int) ≤ |k| * 2 ^ e' * den := by positivity
        have hk3 : -(k * 2 ^ e' * den) ≤ |k| * 2 ^ e' * den := by
          have : -k ≤ |k| := neg_le_abs k
          have h6 : (0 : Int) ≤ 2 ^ e' * den := by positivity
          nlinarith [mul_le_mul_of_nonneg_right this h6]
        have hk4 : k * 2 ^ e' * den = -(|k| * 2 ^ e' * den) ∨ k * 2 ^ e' * den = |k| * 2 ^ e' * den := by
          rcases abs_choice k with hh | hh <;> rw [hh]
          · right; rfl
          · left; ring
        push_cast
        rcases hk4 with hh | hh
        · rw [hh, ← abs_neg (num - _)]; apply le_of_eq; congr 1; ring
        · rw [hh]
          rw [abs_of_neg (by linarith : num - |k| * 2 ^ e' * den < 0), abs_le]
          constructor <;> linarith
    · have hnum : (num.natAbs : Int) = num := by omega
      simp only [hneg, if_false]
      refine ⟨⟨⟨m, e, ?_, ?_⟩, ?_⟩, ?_⟩
      · rw [Nat.abs_cast]; exact_mod_cast h1
      · rw [h2]; push_cast; ring
      · rw [Nat.abs_cast]; exact hcast
      · rintro y ⟨⟨k, e', hk, rfl⟩, -⟩
        have h4 := h3 k.natAbs e' (by have : (k.natAbs : Int) < 2 ^ 53 := by rw [Int.natCast_natAbs]; exact hk
                                      exact_mod_cast this)
        rw [hnum] at h4
        refine h4.trans ?_
        have hk2 : (0 : Int) ≤ |k| * 2 ^ e' * den := by positivity
        have hk4 : k * 2 ^ e' * den = -(|k| * 2 ^ e' * den) ∨ k * 2 ^ e' * den = |k| * 2 ^ e' * den := by
          rcases abs_choice k with hh | hh <;> rw [hh]
          · right; rfl
          · left; ring
        push_cast
        rcases hk4 with hh | hh
        · rw [hh, abs_of_nonneg (by linarith : 0 ≤ num - -(|k| * 2 ^ e' * den)), abs_le]
          constructor <;> linarith
        · rw [hh]
  · exact absurd h (by simp)

/-- A quotient that is a double is not changed by rounding. -/
theorem rnd_exact {n : Int} {den : Nat} (hd : 0 < den) (h : IsDouble n) : rnd (n * den) den = fin n := by
  obtain ⟨⟨k, e, hk, hn⟩, ht⟩ := h
  have hden : (0 : Int) < den := by exact_mod_cast hd
  obtain ⟨-, h3⟩ := nearest_spec (n * den).natAbs hd
  have h4 := h3 k.natAbs e (by have : (k.natAbs : Int) < 2 ^ 53 := by rw [Int.natCast_natAbs]; exact hk
                               exact_mod_cast this)
  have h5 : ((k.natAbs * 2 ^ e : Nat) : Int) = (n.natAbs : Int) := by
    rw [hn, Int.natAbs_mul, Int.natAbs_pow]; rfl
  have h8 : (n * den).natAbs = n.natAbs * den := by rw [Int.natAbs_mul]; rfl
  rw [h5, h8] at h4
  have h6 : nearest (n.natAbs * den) den = n.natAbs := by
    have : |((n.natAbs * den : Nat) : Int) - (nearest (n.natAbs * den) den : Nat) * den| ≤ 0 := by
      refine h4.trans (le_of_eq ?_)
      push_cast
      rw [sub_self, abs_zero]
    have := sub_eq_zero.1 (abs_eq_zero.1 (le_antisymm this (abs_nonneg _)))
    have h9 : n.natAbs * den = nearest (n.natAbs * den) den * den := by exact_mod_cast this
    exact (Nat.eq_of_mul_eq_mul_right hd h9).symm
  unfold rnd
  dsimp only
  rw [h8, h6]
  have h7 : n.natAbs < 2 ^ 2098 := by
    have : (n.natAbs : Int) < 2 ^ 2098 := by rw [Int.natCast_natAbs]; exact ht
    exact_mod_cast this
  rw [if_pos h7]
  congr 1
  by_cases hs : n < 0
  · rw [if_pos (mul_neg_of_neg_of_pos hs hden)]; omega
  · rw [if_neg (not_lt.2 (mul_nonneg (not_lt.1 hs) hden.le))]; omega

/-- A double is its own rounding. -/
theorem rnd_double {n : Int} (h : IsDouble n) : rnd n 1 = fin n := by
  have := rnd_exact (den := 1) Nat.one_pos h
  rwa [Nat.cast_one, mul_one] at this

theorem one_pos : 0 < one := by
  unfold one; exact Nat.pow_pos (by norm_num)

/-- A sum that is a double is exact. -/
theorem add_exact {x y z : Int} (h : IsDouble z) (e : x + y = z) : add (fin x) (fin y) = fin z := by
  have h1 := rnd_double h
  rw [← e] at h1 ⊢
  rw [add, h1]

/-- A product that is a double is exact. -/
theorem mul_exact {x y z : Int} (h : IsDouble z) (e : x * y = z * one) : mul (fin x) (fin y) = fin z := by
  have h1 : rnd (z * (one : Int)) one = fin z := rnd_exact one_pos h
  rw [← e] at h1
  rw [mul, h1]

/-- A quotient that is a double is exact. -/
theorem div_exact {x y z : Int} (h : IsDouble z) (hy : 0 < y) (e : x * one = z * y) : div (fin x) (fin y) = fin z := by
  show (if y = 0 then _ else rnd (x * one * y.sign) y.natAbs) = fin z
  rw [if_neg hy.ne', Int.sign_eq_one_of_pos hy, mul_one, e]
  have : z * y = z * (y.natAbs : Int) := by congr 1; omega
  rw [this]
  exact rnd_exact (by omega) h

end B64

end QM
