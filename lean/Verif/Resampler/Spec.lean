import Verif.Resampler.Model
import Mathlib.Algebra.BigOperators.Group.Finset.Basic
import Mathlib.Algebra.BigOperators.Ring.Finset

/-!
# What a rational resampler is supposed to compute

Put input sample `m` at position `m * I` and output sample `j` at position `j * O` of a common time
grid (`I = target / gcd`, `O = source / gcd`), and lay the prototype filter over the grid with its
centre tap on the output sample. The output is the weighted sum of the input samples under the filter.
A stream delayed by `latency` output samples shifts `j` by that much.
-/

namespace QM.Resampler

variable {R : Type} [CommRing R]

/-- Prototype tap number `t`, zero outside the prototype. -/
def tap (f : List R) (t : Int) : R := if 0 ≤ t then f.getD t.toNat 0 else 0

/-- Output sample `j` of the ideal (latency-compensated) resampler; only the finitely many input samples
under the filter contribute, all of them have `m < bound`. -/
def outAt (I O : Nat) (f : List R) (scale : R) (x : Nat → R) (bound : Nat) (j : Int) : R :=
  scale * ∑ m ∈ Finset.range bound, x m * tap f ((f.length / 2 : Nat) + m * I - j * O)

/-- Sample `j` of the stream delivered by a resampler with the given latency. -/
def streamAt (I O : Nat) (f : List R) (scale : R) (latency : Nat) (x : Nat → R) (j : Nat) : R :=
  outAt I O f scale x (j * O + f.length) ((j : Int) - latency)

/-- Successive `process` calls; the list of the blocks of output. -/
def feed (s : State R) : List (List R) → Except Err (State R × List (List R))
  | [] => .ok (s, [])
  | b :: bs =>
    match process s b with
    | .error e => .error e
    | .ok (s, o) =>
      match feed s bs with
      | .error e => .error e
      | .ok (s, os) => .ok (s, o :: os)

end QM.Resampler
