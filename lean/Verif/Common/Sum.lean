import Verif.Common.Part
import Mathlib.Algebra.BigOperators.Group.Finset.Basic
import Mathlib.Algebra.BigOperators.Intervals

namespace QM

theorem get_getD {α : Type} (xs : List α) (i : Nat) (d : α) (h : i < xs.length) : xs[i]? = some (xs.getD i d) := by
  simp [List.getElem?_eq_getElem h]

theorem bind_ok {α β : Type} {x : Option α} {a : α} (h : x = some a) (f : α → Option β) : (x >>= f) = f a := by rw [h]; rfl

/-- A loop over a whole array that replaces each element. -/
theorem fill_part {β : Type} {L : Nat} {new old : Nat → β} {xs : List β} {f : Nat → List β → Option (List β)} (h : Holds L old xs)
    (hf : ∀ i ys, i < L → Part L i new old ys → f i ys = wr ys i (new i)) : ∃ ys, loop L f xs = some ys ∧ Holds L new ys := by
  obtain ⟨ys, h1, h2⟩ := loop_inv (n := L) (f := f) (s := xs) (P := fun i ys => Part L i new old ys) (h.part new)
    (by
      intro i ys hi hp
      exact ⟨_, (hf i ys hi hp).trans (hp.wr hi), hp.step hi⟩)
  exact ⟨ys, h1, h2.holds⟩

/-- A loop that accumulates a sum. -/
theorem loop_sum {R : Type} [AddCommMonoid R] (n : Nat) (f : Nat → R → Option R) (g : Nat → R) (a : R)
    (hf : ∀ i acc, i < n → f i acc = some (acc + g i)) : loop n f a = some (a + ∑ i ∈ Finset.range n, g i) := by
  induction n with
  | zero => simp [loop]
  | succ n ih =>
    rw [loop, ih (fun i acc hi => hf i acc (by omega))]
    simp only [Option.bind_some]
    rw [hf n _ (by omega), Finset.sum_range_succ, add_assoc]

theorem list_sum_holds {R : Type} [AddCommMonoid R] {L : Nat} {f : Nat → R} {xs : List R} (h : Holds L f xs) :
    xs.sum = ∑ i ∈ Finset.range L, f i := by
  have : xs = (List.range L).map f := by
    apply List.ext_getElem?
    intro j
    by_cases hj : j < L
    · rw [h.2 j hj]; simp [hj]
    · rw [List.getElem?_eq_none (by rw [h.1]; omega), List.getElem?_eq_none (by simp; omega)]
  rw [this]
  clear this h
  induction L with
  | zero => simp
  | succ n ih => rw [List.range_succ, List.map_append, List.sum_append, ih, Finset.sum_range_succ]; simp

end QM
