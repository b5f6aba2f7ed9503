import Verif.Wavelet.Props
import Mathlib.Algebra.Order.BigOperators.Group.Finset
import Mathlib.Algebra.Order.BigOperators.Ring.Finset

/-!
# Filter banks made of the wavelet filters

The library gives the two decomposition filters of a wavelet and leaves their use to the caller. This is the use they are made for, in the usual
textbook form: a signal is filtered with both and every other sample is kept; to get the signal back, zeros are put between the samples and the
two bands are filtered with the reconstruction filters, which are the decomposition filters exchanged and with alternating signs.
A signal is a function of all integers.
-/

namespace QM.Wavelet

open Finset

/-! ## Specification -/

/-- A band: the filter `f`, and every other sample. -/
def band (f : List ℚ) (x : ℤ → ℚ) (k : ℤ) : ℚ := ∑ i ∈ range f.length, f.getD i 0 * x (2 * k - i)

/-- Zeros between the samples. -/
def spread (x : ℤ → ℚ) (n : ℤ) : ℚ := if n % 2 = 0 then x (n / 2) else 0

/-- A filter. -/
def conv (f : List ℚ) (x : ℤ → ℚ) (n : ℤ) : ℚ := ∑ i ∈ range f.length, f.getD i 0 * x (n - i)

/-- The signs `+ - + - …`, or `- + - + …` for `s = -1`. -/
def alternate (s : ℚ) : List ℚ → List ℚ
  | [] => []
  | a :: as => s * a :: alternate (-s) as

/-- The signal made of a low and a high band, with the reconstruction filters that belong to `l` and `h`. -/
def merge (l h : List ℚ) (a d : ℤ → ℚ) (n : ℤ) : ℚ := conv (alternate (-1) h) (spread a) n + conv (alternate 1 l) (spread d) n

/-- The signal decomposed and reconstructed again. -/
def roundTrip (l h : List ℚ) (x : ℤ → ℚ) : ℤ → ℚ := merge l h (band l x) (band h x)

/-- The delay of a decomposition into `k` levels, for filters of length `N`. -/
def delay (N : Nat) : Nat → Nat
  | 0 => 0
  | k + 1 => 2 * delay N k + (N - 1)

/-- The low band is decomposed in turn, to `k` levels; the high bands wait for it. -/
def tree (l h : List ℚ) : Nat → (ℤ → ℚ) → ℤ → ℚ
  | 0, x => x
  | k + 1, x => merge l h (tree l h k (band l x)) (fun n => band h x (n - delay l.length k))

/-! ## The table -/

/-- The products of two lists of numbers, the second moved by `s` places. -/
def cross (xs ys : List Int) (s : Nat) : Int := (List.zipWith (· * ·) xs (ys.drop s)).sum

/-- Alternating signs, beginning with plus. -/
def altPos (xs : List Int) : List Int := altNeg false xs

/-- How far the two filters of a type are from perfect reconstruction, in units of 10⁻²⁸. -/
def defect (t : WType) : Nat :=
  ((List.range (flength t)).map fun s => if s % 2 = 0 then (cross (high t).reverse (altPos (low t)) s - if s = 0 then 10 ^ 28 else 0).natAbs else 0).sum +
  ((List.range (flength t)).map fun s => if s % 2 = 1 then (cross (altPos (low t)) (high t).reverse (s + 1)).natAbs else 0).sum

theorem defect_table : WType.all.all (fun t => decide (defect t ≤ if t = .Daubechies_40 then 27 * 10 ^ 22 else if t = .Meyer then 6 * 10 ^ 22 else 4 * 10 ^ 20)) = true := by
  decide +kernel

end QM.Wavelet
