import Mathlib.Order.Monotone.Basic

/-!
# Dynamic programming over state sequences

Values in a linear order; one step from state `i` to state `j` at time `t` turns a value `v` into `M t i j v`, which is monotone in `v`.
-/

namespace QM.Viterbi

variable {V : Type} [LinearOrder V]

/-- The value of a state sequence up to time `t`. -/
def val (u : Nat → V) (M : Nat → Nat → Nat → V → V) (q : Nat → Nat) : Nat → V
  | 0 => u (q 0)
  | t + 1 => M t (q t) (q (t + 1)) (val u M q t)

variable {u : Nat → V} {M : Nat → Nat → Nat → V → V} {q : Nat → Nat} {phi : Nat → Nat → V} {N n : Nat}

/-- No sequence has a greater value than the table. -/
theorem val_le (hM : ∀ t i j, t < n → Monotone (M t i j)) (h0 : ∀ i, i < N → u i ≤ phi 0 i)
    (hs : ∀ t i j, t < n → i < N → j < N → M t i j (phi t i) ≤ phi (t + 1) j) (hq : ∀ t, t ≤ n → q t < N) :
    ∀ t, t ≤ n → val u M q t ≤ phi t (q t) := by
  intro t
  induction t with
  | zero => intro _; exact h0 _ (hq 0 (by omega))
  | succ t ih =>
    intro ht
    exact le_trans (hM t _ _ (by omega) (ih (by omega))) (hs t _ _ (by omega) (hq t (by omega)) (hq (t + 1) ht))

/-- A sequence that follows the back pointers has the value of the table. -/
theorem val_eq (h0 : phi 0 (q 0) = u (q 0)) (hs : ∀ t, t < n → phi (t + 1) (q (t + 1)) = M t (q t) (q (t + 1)) (phi t (q t))) :
    ∀ t, t ≤ n → val u M q t = phi t (q t) := by
  intro t
  induction t with
  | zero => intro _; exact h0.symm
  | succ t ih =>
    intro ht
    rw [hs t (by omega), ← ih (by omega)]
    rfl

/-- The track back is optimal. -/
theorem optimal (hM : ∀ t i j, t < n → Monotone (M t i j)) (h0 : ∀ i, i < N → phi 0 i = u i)
    (hs : ∀ t i j, t < n → i < N → j < N → M t i j (phi t i) ≤ phi (t + 1) j)
    (hb : ∀ t, t < n → phi (t + 1) (q (t + 1)) = M t (q t) (q (t + 1)) (phi t (q t)))
    (hq : ∀ t, t ≤ n → q t < N) (hlast : ∀ j, j < N → phi n j ≤ phi n (q n))
    (q' : Nat → Nat) (hq' : ∀ t, t ≤ n → q' t < N) : val u M q' n ≤ val u M q n := by
  rw [val_eq (h0 _ (hq 0 (by omega))) hb n (le_refl n)]
  exact le_trans (val_le hM (fun i hi => (h0 i hi).ge) hs hq' n (le_refl n)) (hlast _ (hq' n (le_refl n)))

end QM.Viterbi
