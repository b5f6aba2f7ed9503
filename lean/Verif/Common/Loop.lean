/-!
# Counting loops over a state that may fail

`loop n f s` runs `for (i = 0; i < n; ++i) s = f i s`, stopping with `none` as soon as an iteration
does something undefined (an access outside an array). `wr` is a checked array write.
-/

namespace QM

variable {S : Type} {β : Type}

/-- `for (i = 0; i < n; ++i) s = f i s` with failure. -/
def loop : Nat → (Nat → S → Option S) → S → Option S
  | 0, _, s => some s
  | n + 1, f, s => (loop n f s).bind (f n)

/-- Invariant rule for `loop`. -/
theorem loop_inv (n : Nat) (f : Nat → S → Option S) (s : S) (P : Nat → S → Prop) (h0 : P 0 s)
    (hstep : ∀ i s, i < n → P i s → ∃ s', f i s = some s' ∧ P (i + 1) s') :
    ∃ s', loop n f s = some s' ∧ P n s' := by
  induction n with
  | zero => exact ⟨s, rfl, h0⟩
  | succ n ih =>
    obtain ⟨s1, h1, h2⟩ := ih (fun i s hi hp => hstep i s (Nat.lt_succ_of_lt hi) hp)
    obtain ⟨s2, h3, h4⟩ := hstep n s1 (Nat.lt_succ_self n) h2
    exact ⟨s2, by rw [loop, h1]; exact h3, h4⟩

/-- A loop fails if one iteration does. -/
theorem loop_none_of_le {f : Nat → S → Option S} {s : S} {m n : Nat} (h : m ≤ n)
    (hm : loop m f s = none) : loop n f s = none := by
  induction n with
  | zero => simp at h; subst h; exact hm
  | succ n ih =>
    by_cases hmn : m ≤ n
    · rw [loop, ih hmn]; rfl
    · have : m = n + 1 := by omega
      subst this; exact hm

/-- Unchecked-in-C, checked-here array write. -/
def wr (xs : List β) (i : Nat) (v : β) : Option (List β) :=
  if i < xs.length then some (xs.set i v) else none

theorem wr_some {xs : List β} {i : Nat} (v : β) (h : i < xs.length) : wr xs i v = some (xs.set i v) := by
  simp [wr, h]

theorem wr_none {xs : List β} {i : Nat} (v : β) (h : xs.length ≤ i) : wr xs i v = none := by
  simp [wr, Nat.not_lt.mpr h]

/-- `xs[i]? = some v` gives the bound. -/
theorem lt_of_getElem?_some {xs : List β} {i : Nat} {v : β} (h : xs[i]? = some v) : i < xs.length := by
  by_cases hc : i < xs.length
  · exact hc
  · rw [List.getElem?_eq_none (by omega)] at h; cases h

/-- Array read at a C `int` index. -/
def rdI (xs : List β) (i : Int) : Option β := if i < 0 then none else xs[i.toNat]?

/-- Array write at a C `int` index. -/
def wrI (xs : List β) (i : Int) (v : β) : Option (List β) := if i < 0 then none else wr xs i.toNat v

theorem rdI_natCast (xs : List β) (i : Nat) : rdI xs (i : Int) = xs[i]? := by
  unfold rdI; rw [if_neg (by omega)]; simp

theorem wrI_natCast (xs : List β) (i : Nat) (v : β) : wrI xs (i : Int) v = wr xs i v := by
  unfold wrI; rw [if_neg (by omega)]; simp

end QM
