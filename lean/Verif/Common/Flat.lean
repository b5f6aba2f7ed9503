import Verif.Common.Sum

namespace QM

variable {S : Type}

theorem loop_congr {n : Nat} {f g : Nat → S → Option S} (s : S) (h : ∀ i s, i < n → f i s = g i s) : loop n f s = loop n g s := by
  induction n with
  | zero => rfl
  | succ n ih =>
    rw [loop, loop, ih (fun i s hi => h i s (by omega))]
    cases loop n g s with
    | none => rfl
    | some s => exact h n s (by omega)

theorem loop_add (a b : Nat) (f : Nat → S → Option S) (s : S) :
    loop (a + b) f s = (loop a f s).bind (loop b (fun i => f (a + i))) := by
  induction b with
  | zero => simp [loop]
  | succ b ih =>
    rw [show a + (b + 1) = a + b + 1 by omega, loop, ih]
    cases loop a f s with
    | none => rfl
    | some s => rfl

/-- Two nested loops are one loop over the flat index. -/
theorem loop_nest (n m : Nat) (f : Nat → Nat → S → Option S) (s : S) :
    loop n (fun i s => loop m (f i) s) s = loop (n * m) (fun k s => f (k / m) (k % m) s) s := by
  induction n with
  | zero => simp [loop]
  | succ n ih =>
    rw [loop, ih, Nat.succ_mul, loop_add]
    congr 1
    funext s
    refine loop_congr s fun i s hi => ?_
    rw [Nat.mul_comm n m, Nat.mul_add_div (by omega), Nat.mul_add_mod, Nat.mod_eq_of_lt hi, Nat.div_eq_of_lt hi, Nat.add_zero]

theorem flat_div {m d t : Nat} (ht : t < m) : (d * m + t) / m = d := by
  rw [Nat.mul_comm d m, Nat.mul_add_div (by omega), Nat.div_eq_of_lt ht, Nat.add_zero]

theorem flat_mod {m d t : Nat} (ht : t < m) : (d * m + t) % m = t := by
  rw [Nat.mul_comm d m, Nat.mul_add_mod, Nat.mod_eq_of_lt ht]

theorem flat_lt {n m d t : Nat} (hd : d < n) (ht : t < m) : d * m + t < n * m := by
  have : (d + 1) * m ≤ n * m := Nat.mul_le_mul_right m hd
  rw [Nat.succ_mul] at this
  omega

theorem flat_eta (k m : Nat) : k / m * m + k % m = k := by
  rw [Nat.mul_comm]; exact Nat.div_add_mod k m

/-- Reading a flat array filled as an `n` by `m` matrix. -/
theorem Holds.flat {β : Type} {n m : Nat} {f : Nat → Nat → β} {xs : List β} (h : Holds (n * m) (fun k => f (k / m) (k % m)) xs)
    {d t : Nat} (hd : d < n) (ht : t < m) : xs[d * m + t]? = some (f d t) := by
  rw [h.2 _ (flat_lt hd ht)]
  simp only [flat_div ht, flat_mod ht]

end QM
