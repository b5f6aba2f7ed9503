import Mathlib.Analysis.SpecialFunctions.Pow.Real
import Mathlib.Algebra.BigOperators.Group.Finset.Basic

/-!
# Numbers and not-a-number

A `double` that may be NaN. Numbers are exact reals; a division by zero, whose result is infinite or NaN in IEEE 754, is NaN here. Any operation with NaN gives NaN, also a
product with zero; any comparison with NaN is false.
-/

namespace QM.Nan

/-- A number or NaN. -/
inductive Num where
  | nan
  | val (x : ℝ)

namespace Num

/-- An operation on two doubles. -/
def op (f : ℝ → ℝ → ℝ) : Num → Num → Num
  | val x, val y => val (f x y)
  | _, _ => nan

instance : Zero Num := ⟨val 0⟩
instance : Add Num := ⟨op (· + ·)⟩
instance : Sub Num := ⟨op (· - ·)⟩
instance : Mul Num := ⟨op (· * ·)⟩

/-- Division. -/
noncomputable def div : Num → Num → Num
  | val x, val y => if y = 0 then nan else val (x / y)
  | _, _ => nan

noncomputable instance : Div Num := ⟨div⟩

/-- A function of the C library of one argument that gives a number for every number. -/
def map (f : ℝ → ℝ) : Num → Num
  | val x => val (f x)
  | nan => nan

/-- `x < y`, false if one of them is NaN. -/
def lt : Num → Num → Prop
  | val x, val y => x < y
  | _, _ => False

noncomputable instance (x y : Num) : Decidable (lt x y) := Classical.propDecidable _

@[simp] theorem nan_add (x : Num) : nan + x = nan := rfl
@[simp] theorem add_nan (x : Num) : x + nan = nan := by cases x <;> rfl
@[simp] theorem nan_sub (x : Num) : nan - x = nan := rfl
@[simp] theorem sub_nan (x : Num) : x - nan = nan := by cases x <;> rfl
@[simp] theorem nan_mul (x : Num) : nan * x = nan := rfl
@[simp] theorem mul_nan (x : Num) : x * nan = nan := by cases x <;> rfl
@[simp] theorem nan_div (x : Num) : nan / x = nan := rfl
@[simp] theorem div_nan (x : Num) : x / nan = nan := by cases x <;> rfl
@[simp] theorem val_add (x y : ℝ) : val x + val y = val (x + y) := rfl
@[simp] theorem val_sub (x y : ℝ) : val x - val y = val (x - y) := rfl
@[simp] theorem val_mul (x y : ℝ) : val x * val y = val (x * y) := rfl
@[simp] theorem div_zero (x : Num) : x / val 0 = nan := by
  cases x with
  | nan => rfl
  | val x => show div (val x) (val 0) = nan; simp [div]
@[simp] theorem map_nan (f : ℝ → ℝ) : map f nan = nan := rfl
@[simp] theorem map_val (f : ℝ → ℝ) (x : ℝ) : map f (val x) = val (f x) := rfl
@[simp] theorem not_nan_lt (x : Num) : ¬ lt nan x := fun h => h
@[simp] theorem not_lt_nan (x : Num) : ¬ lt x nan := by cases x <;> exact fun h => h
theorem zero_eq : (0 : Num) = val 0 := rfl
@[simp] theorem val_ne_nan (x : ℝ) : val x ≠ nan := nofun

/-- `x` is not NaN. -/
def Ok (x : Num) : Prop := x ≠ nan

theorem ok_iff (x : Num) : Ok x ↔ ∃ r, x = val r := by
  cases x with
  | nan => simp [Ok]
  | val r => simp [Ok]

instance : AddCommMonoid Num where
  add_assoc a b c := by cases a <;> cases b <;> cases c <;> simp [add_assoc]
  zero_add a := by cases a <;> simp [zero_eq]
  add_zero a := by cases a <;> simp [zero_eq]
  add_comm a b := by cases a <;> cases b <;> simp [add_comm]
  nsmul := nsmulRec

theorem sum_nan {n i : Nat} (f : Nat → Num) (hi : i < n) (h : f i = nan) : ∑ i ∈ Finset.range n, f i = nan := by
  rw [Finset.sum_eq_add_sum_sdiff_singleton_of_mem (Finset.mem_range.mpr hi), h, nan_add]

theorem sum_val (n : Nat) (f : Nat → Num) (g : Nat → ℝ) (h : ∀ i, i < n → f i = val (g i)) :
    ∑ i ∈ Finset.range n, f i = val (∑ i ∈ Finset.range n, g i) := by
  induction n with
  | zero => rfl
  | succ n ih => rw [Finset.sum_range_succ, Finset.sum_range_succ, ih fun i hi => h i (by omega), h n (by omega), val_add]

end Num

end QM.Nan
