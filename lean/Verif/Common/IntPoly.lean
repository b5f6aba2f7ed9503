import Mathlib.Data.Complex.Basic
import Mathlib.Algebra.Order.Ring.Abs
import Mathlib.Algebra.Order.Field.Basic
import Mathlib.Tactic.Ring
import Mathlib.Tactic.Linarith
import Mathlib.Tactic.LinearCombination
import Mathlib.Tactic.Positivity

/-!
# Polynomials with integer coefficients as lists, and a check that one is not negative on an interval

`pos p l u fuel` evaluates in the kernel; `pos_sound` says what it means.
-/

namespace QM.IntPoly

/-- The value at `x`; the constant coefficient comes first. -/
def ev {R : Type} [Ring R] : List ℤ → R → R
  | [], _ => 0
  | a :: p, x => (a : R) + x * ev p x

def add : List ℤ → List ℤ → List ℤ
  | [], q => q
  | p, [] => p
  | a :: p, b :: q => (a + b) :: add p q

def smul (k : ℤ) : List ℤ → List ℤ
  | [] => []
  | a :: p => (k * a) :: smul k p

def mul : List ℤ → List ℤ → List ℤ
  | [], _ => []
  | a :: p, q => add (smul a q) (0 :: mul p q)

/-- `p (x + m)`. -/
def shift (m : ℤ) : List ℤ → List ℤ
  | [] => []
  | a :: p => let q := shift m p; add [a] (add (0 :: q) (smul m q))

/-- `∑ |p i| d ^ i`. -/
def absSum (d : ℤ) : List ℤ → ℤ
  | [] => 0
  | a :: p => |a| + d * absSum d p

/-- `p 0 - ∑ i > 0, |p i| d ^ i` is not negative. -/
def lower (d : ℤ) : List ℤ → Bool
  | [] => true
  | a :: p => decide (d * absSum d p ≤ a)

/-- Bisection. -/
def pos (p : List ℤ) : ℤ → ℤ → Nat → Bool
  | l, u, 0 => lower (max (u - (l + u) / 2) ((l + u) / 2 - l)) (shift ((l + u) / 2) p)
  | l, u, n + 1 => lower (max (u - (l + u) / 2) ((l + u) / 2 - l)) (shift ((l + u) / 2) p) ||
      (pos p l ((l + u) / 2) n && pos p ((l + u) / 2) u n)

/-- `d ^ (length - 1) * p (x / d)` in terms of `x`. -/
def scale (d : ℤ) : List ℤ → List ℤ × ℤ
  | [] => ([], 1)
  | a :: p => let r := scale d p; ((a * r.2) :: r.1, d * r.2)

section
variable {R : Type} [CommRing R]

theorem ev_add (p q : List ℤ) (x : R) : ev (add p q) x = ev p x + ev q x := by
  induction p generalizing q with
  | nil => simp [add, ev]
  | cons a p ih =>
    cases q with
    | nil => simp [add, ev]
    | cons b q =>
      simp only [add, ev, ih, Int.cast_add]
      ring

theorem ev_smul (k : ℤ) (p : List ℤ) (x : R) : ev (smul k p) x = (k : R) * ev p x := by
  induction p with
  | nil => simp [smul, ev]
  | cons a p ih =>
    simp only [smul, ev, ih, Int.cast_mul]
    ring

theorem ev_mul (p q : List ℤ) (x : R) : ev (mul p q) x = ev p x * ev q x := by
  induction p with
  | nil => simp [mul, ev]
  | cons a p ih =>
    simp only [mul, ev, ev_add, ev_smul, ih, Int.cast_zero]
    ring

theorem ev_shift (m : ℤ) (p : List ℤ) (x : R) : ev (shift m p) x = ev p (x + m) := by
  induction p with
  | nil => simp [shift, ev]
  | cons a p ih =>
    simp only [shift, ev, ev_add, ev_smul, ih, Int.cast_zero]
    ring

end

section
variable {F : Type} [Field F] [LinearOrder F] [IsStrictOrderedRing F]

theorem abs_ev_le (p : List ℤ) (d : ℤ) (x : F) (hx : |x| ≤ d) : |ev p x| ≤ (absSum d p : ℤ) := by
  induction p with
  | nil => simp [ev, absSum]
  | cons a p ih =>
    simp only [ev, absSum, Int.cast_add, Int.cast_mul, Int.cast_abs]
    refine (abs_add_le _ _).trans ?_
    rw [abs_mul]
    have h0 : (0 : F) ≤ d := (abs_nonneg x).trans hx
    exact add_le_add le_rfl (mul_le_mul hx ih (abs_nonneg _) h0)

theorem lower_sound (p : List ℤ) (d : ℤ) (h : lower d p = true) (x : F) (hx : |x| ≤ d) : 0 ≤ ev p x := by
  cases p with
  | nil => simp [ev]
  | cons a p =>
    simp only [lower, decide_eq_true_eq] at h
    have h0 : (0 : F) ≤ d := (abs_nonneg x).trans hx
    have h1 := abs_ev_le p d x hx
    have h2 : |x * ev p x| ≤ d * (absSum d p : ℤ) := by
      rw [abs_mul]
      exact mul_le_mul hx h1 (abs_nonneg _) h0
    have h3 : (d : F) * (absSum d p : ℤ) ≤ a := by exact_mod_cast h
    have h4 := (abs_le.mp h2).1
    simp only [ev]
    linarith

theorem lower_shift (p : List ℤ) (l u m : ℤ) (h : lower (max (u - m) (m - l)) (shift m p) = true) (x : F) (hl : (l : F) ≤ x) (hu : x ≤ u) :
    0 ≤ ev p x := by
  have h1 := lower_sound _ _ h (x - m) (by
    rw [abs_le]
    push_cast
    constructor
    · have := le_max_right ((u : F) - m) (m - l)
      linarith
    · have := le_max_left ((u : F) - m) (m - l)
      linarith)
  rw [ev_shift] at h1
  simpa using h1

/-- What the check means. -/
theorem pos_sound (p : List ℤ) (n : Nat) : ∀ (l u : ℤ), pos p l u n = true → ∀ x : F, (l : F) ≤ x → x ≤ u → 0 ≤ ev p x := by
  induction n with
  | zero =>
    intro l u h x hl hu
    exact lower_shift p l u _ h x hl hu
  | succ n ih =>
    intro l u h x hl hu
    simp only [pos, Bool.or_eq_true, Bool.and_eq_true] at h
    rcases h with h | ⟨h1, h2⟩
    · exact lower_shift p l u _ h x hl hu
    · rcases le_total x (((l + u) / 2 : ℤ) : F) with hx | hx
      · exact ih _ _ h1 x hl hx
      · exact ih _ _ h2 x hx hu

theorem scale_sound (d : ℤ) (hd : 0 < d) (p : List ℤ) (x : F) : 0 < (scale d p).2 ∧
    ev (scale d p).1 ((d : F) * x) * d = ((scale d p).2 : F) * ev p x := by
  have hd' : (0 : F) < d := by exact_mod_cast hd
  induction p with
  | nil => simp [scale, ev]
  | cons a p ih =>
    obtain ⟨h1, h2⟩ := ih
    refine ⟨mul_pos hd h1, ?_⟩
    simp only [scale, ev, Int.cast_mul]
    have : (d : F) * x * ev (scale d p).1 (d * x) * d = d * x * ((scale d p).2 * ev p x) := by
      rw [← h2]
      ring
    linear_combination this

/-- The check on a grid of step `1 / d`. -/
theorem pos_scaled (d : ℤ) (hd : 0 < d) (p : List ℤ) (l u : ℤ) (n : Nat) (h : pos (scale d p).1 l u n = true) (x : F) (hl : (l : F) ≤ d * x)
    (hu : d * x ≤ u) : 0 ≤ ev p x := by
  have hd' : (0 : F) < d := by exact_mod_cast hd
  obtain ⟨h1, h2⟩ := scale_sound d hd p x
  have h3 := pos_sound _ n l u h (d * x) hl hu
  have h4 : (0 : F) < (scale d p).2 := by exact_mod_cast h1
  have h5 : 0 ≤ ((scale d p).2 : F) * ev p x := by
    rw [← h2]
    positivity
  exact nonneg_of_mul_nonneg_right h5 h4

end

/-- The remainder of the polynomial `p (z)` modulo `z² - 2 c z + 1`: `U + V z`, with coefficients that are polynomials in `c`. -/
def uv : List ℤ → List ℤ × List ℤ
  | [] => ([], [])
  | a :: p => let r := uv p; (add [a] (smul (-1) r.2), add r.1 (0 :: smul 2 r.2))

/-- `|p (z)|²` on the unit circle as a polynomial in the real part of `z`. -/
def normPoly (p : List ℤ) : List ℤ :=
  let r := uv p
  add (add (mul r.1 r.1) (0 :: smul 2 (mul r.1 r.2))) (mul r.2 r.2)

theorem uv_sound (p : List ℤ) (z : ℂ) (hz : Complex.normSq z = 1) :
    ev p z = (ev (uv p).1 z.re : ℝ) + (ev (uv p).2 z.re : ℝ) * z := by
  have hq : z * z = 2 * (z.re : ℂ) * z - 1 := by
    have h := hz
    rw [Complex.normSq_apply] at h
    apply Complex.ext
    · simp
      linarith
    · simp
      ring
  induction p with
  | nil => simp [ev, uv]
  | cons a p ih =>
    simp only [ev, uv, ih, ev_add, ev_smul]
    push_cast
    linear_combination ((ev (uv p).2 z.re : ℝ) : ℂ) * hq

/-- What the polynomial means. -/
theorem normPoly_sound (p : List ℤ) (z : ℂ) (hz : Complex.normSq z = 1) : Complex.normSq (ev p z) = ev (normPoly p) z.re := by
  have h := hz
  rw [Complex.normSq_apply] at h
  rw [uv_sound p z hz]
  simp only [normPoly, ev_add, ev_mul, ev_smul, ev, Complex.normSq_apply, Complex.add_re, Complex.add_im, Complex.mul_re, Complex.mul_im,
    Complex.ofReal_re, Complex.ofReal_im]
  push_cast
  linear_combination (ev (uv p).2 z.re) ^ 2 * h

end QM.IntPoly
