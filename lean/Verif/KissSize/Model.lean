import Verif.MathInt.Model

/-!
# Model of `kiss_fft_next_fast_size` (ext/kissfft/kiss_fft.c)
-/

namespace QM.KissSize

/-- `while ((m % p) == 0) m /= p`, ext/kissfft/kiss_fft.c:401-403. For `m = 0` the loop never ends:
`none`. C's `%` and `/` truncate. (`2 ≤ p` holds in
all three uses and is there for the termination proof.) -/
def strip (p : Nat) (m : Int) : Option Int :=
  if m = 0 then none
  else if m.tmod p = 0 ∧ 2 ≤ p then strip p (m.tdiv p) else some m
termination_by m.natAbs
decreasing_by
  rename_i h0 h1
  rw [Int.natAbs_tdiv]
  exact Nat.div_lt_self (by omega) (by simp only [Int.natAbs_natCast]; omega)

/-- Lines 400-403: what is left of `n` without its factors 2, 3 and 5. -/
def core (n : Int) : Option Int := do
  let m ← strip 2 n
  let m ← strip 3 m
  strip 5 m

/-- `kiss_fft_next_fast_size`, ext/kissfft/kiss_fft.c:397-409. `none` stands for a call that never
returns and for the overflow of `n++`. -/
def nextFastSize (n : Int) : Option Int :=
  match core n with
  | none => none
  | some m =>
    if m ≤ 1 then some n
    else if n ≥ (MathInt.intMax : Int) then none
    else nextFastSize (n + 1)
termination_by ((MathInt.intMax : Int) - n).toNat
decreasing_by omega

end QM.KissSize
