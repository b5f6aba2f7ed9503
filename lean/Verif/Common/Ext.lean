import Mathlib.Analysis.SpecialFunctions.Log.Basic
import Mathlib.Algebra.BigOperators.Group.Finset.Basic
import Mathlib.Algebra.Order.BigOperators.Group.Finset

/-!
# Doubles with infinities and NaN

Finite results are exact. Zero has no sign: a division by zero has the sign of the dividend.
-/

namespace QM

/-- A finite double, an infinity or NaN. -/
inductive Ext where
  | nan
  | pinf
  | ninf
  | fin (x : ℝ)

namespace Ext

instance : Zero Ext := ⟨fin 0⟩
instance : One Ext := ⟨fin 1⟩

def neg : Ext → Ext
  | nan => nan
  | pinf => ninf
  | ninf => pinf
  | fin x => fin (-x)

instance : Neg Ext := ⟨neg⟩

def add : Ext → Ext → Ext
  | nan, _ => nan
  | _, nan => nan
  | fin x, fin y => fin (x + y)
  | fin _, y => y
  | x, fin _ => x
  | pinf, pinf => pinf
  | ninf, ninf => ninf
  | pinf, ninf => nan
  | ninf, pinf => nan

instance : Add Ext := ⟨add⟩
instance : Sub Ext := ⟨fun x y => x + -y⟩

/-- An infinity with the sign of a number, NaN for zero: infinity times the number. -/
noncomputable def infOf (x : ℝ) : Ext := if 0 < x then pinf else if x < 0 then ninf else nan

noncomputable def mul : Ext → Ext → Ext
  | nan, _ => nan
  | _, nan => nan
  | fin x, fin y => fin (x * y)
  | pinf, fin y => infOf y
  | ninf, fin y => infOf (-y)
  | fin x, pinf => infOf x
  | fin x, ninf => infOf (-x)
  | pinf, pinf => pinf
  | ninf, ninf => pinf
  | pinf, ninf => ninf
  | ninf, pinf => ninf

noncomputable instance : Mul Ext := ⟨mul⟩

noncomputable def div : Ext → Ext → Ext
  | nan, _ => nan
  | _, nan => nan
  | fin x, fin y => if y = 0 then infOf x else fin (x / y)
  | fin _, _ => 0
  | pinf, fin y => if y < 0 then ninf else pinf
  | ninf, fin y => if y < 0 then pinf else ninf
  | _, _ => nan

noncomputable instance : Div Ext := ⟨div⟩

/-- `log`. -/
noncomputable def log : Ext → Ext
  | nan => nan
  | ninf => nan
  | pinf => pinf
  | fin x => if 0 < x then fin (Real.log x) else if x = 0 then ninf else nan

/-- `exp`, where `ex` is its value for finite arguments. -/
def exp (ex : ℝ → ℝ) : Ext → Ext
  | nan => nan
  | ninf => 0
  | pinf => pinf
  | fin x => fin (ex x)

/-- `x < y`, false if one of them is NaN. -/
def lt : Ext → Ext → Prop
  | nan, _ => False
  | _, nan => False
  | fin x, fin y => x < y
  | ninf, ninf => False
  | ninf, _ => True
  | pinf, _ => False
  | fin _, pinf => True
  | fin _, ninf => False

noncomputable instance (x y : Ext) : Decidable (lt x y) := Classical.propDecidable _
noncomputable instance : DecidableEq Ext := Classical.decEq _

/-- The sum of `f 0`, …, `f (n - 1)`, added up from 0 on. -/
def total : Nat → (Nat → Ext) → Ext
  | 0, _ => 0
  | n + 1, f => total n f + f n

@[simp] theorem nan_add (x : Ext) : nan + x = nan := rfl
@[simp] theorem add_nan (x : Ext) : x + nan = nan := by cases x <;> rfl
@[simp] theorem nan_mul (x : Ext) : nan * x = nan := rfl
@[simp] theorem mul_nan (x : Ext) : x * nan = nan := by cases x <;> rfl
@[simp] theorem nan_div (x : Ext) : nan / x = nan := rfl
@[simp] theorem div_nan (x : Ext) : x / nan = nan := by cases x <;> rfl
@[simp] theorem neg_nan : -nan = nan := rfl
@[simp] theorem nan_sub (x : Ext) : nan - x = nan := rfl
@[simp] theorem sub_nan (x : Ext) : x - nan = nan := by cases x <;> rfl
@[simp] theorem log_nan : log nan = nan := rfl
@[simp] theorem exp_nan (ex : ℝ → ℝ) : exp ex nan = nan := rfl
@[simp] theorem lt_nan (x : Ext) : ¬ lt x nan := by cases x <;> exact id
@[simp] theorem nan_lt (x : Ext) : ¬ lt nan x := id
@[simp] theorem fin_add (x y : ℝ) : fin x + fin y = fin (x + y) := rfl
@[simp] theorem fin_mul (x y : ℝ) : fin x * fin y = fin (x * y) := rfl
@[simp] theorem neg_fin (x : ℝ) : -fin x = fin (-x) := rfl
@[simp] theorem fin_sub (x y : ℝ) : fin x - fin y = fin (x - y) := by rw [sub_eq_add_neg]; rfl
theorem zero_def : (0 : Ext) = fin 0 := rfl
theorem one_def : (1 : Ext) = fin 1 := rfl
theorem fin_div {x y : ℝ} (h : y ≠ 0) : fin x / fin y = fin (x / y) := if_neg h
theorem log_fin {x : ℝ} (h : 0 < x) : log (fin x) = fin (Real.log x) := if_pos h
theorem pinf_mul_zero : pinf * fin 0 = nan := by show infOf 0 = nan; unfold infOf; rw [if_neg (lt_irrefl _), if_neg (lt_irrefl _)]
theorem zero_mul_pinf : fin 0 * pinf = nan := by show infOf 0 = nan; unfold infOf; rw [if_neg (lt_irrefl _), if_neg (lt_irrefl _)]
theorem one_div_zero : (1 : Ext) / fin 0 = pinf := by
  show (if (0 : ℝ) = 0 then infOf 1 else fin (1 / 0)) = pinf
  rw [if_pos rfl]
  unfold infOf
  rw [if_pos one_pos]

/-- A number times zero is zero, and NaN for what is not finite. -/
theorem mul_fin_zero (x : Ext) : x * fin 0 = fin 0 ∨ x * fin 0 = nan := by
  cases x with
  | nan => exact Or.inr rfl
  | pinf => exact Or.inr pinf_mul_zero
  | ninf => refine Or.inr ?_; show infOf (-0) = nan; rw [neg_zero]; unfold infOf; rw [if_neg (lt_irrefl _), if_neg (lt_irrefl _)]
  | fin x => left; rw [fin_mul, mul_zero]

theorem total_nan : ∀ {n : Nat} {f : Nat → Ext} {i : Nat}, i < n → f i = nan → total n f = nan
  | 0, _, _, h, _ => absurd h (by omega)
  | n + 1, f, i, h, hi => by
    show total n f + f n = nan
    rcases Nat.lt_succ_iff_lt_or_eq.mp h with h' | rfl
    · rw [total_nan h' hi, nan_add]
    · rw [hi, add_nan]

theorem total_fin : ∀ {n : Nat} {f : Nat → Ext} {g : Nat → ℝ}, (∀ i, i < n → f i = fin (g i)) → total n f = fin (∑ i ∈ Finset.range n, g i)
  | 0, _, _, _ => by rw [Finset.sum_range_zero]; rfl
  | n + 1, f, g, h => by
    show total n f + f n = _
    rw [total_fin (fun i hi => h i (by omega)), h n (by omega), Finset.sum_range_succ]
    rfl

theorem total_congr {n : Nat} {f g : Nat → Ext} (h : ∀ i, i < n → f i = g i) : total n f = total n g := by
  induction n with
  | zero => rfl
  | succ n ih =>
    show total n f + f n = total n g + g n
    rw [ih (fun i hi => h i (by omega)), h n (by omega)]

end Ext

end QM
