import Verif.Common.Loop

namespace QM

/-- Array `xs` has `L` elements, element `j` being `f j`. -/
def Holds {β : Type} (L : Nat) (f : Nat → β) (xs : List β) : Prop := xs.length = L ∧ ∀ j : Nat, j < L → xs[j]? = some (f j)

/-- Array `xs` has `L` elements, the first `i` of which are already replaced. -/
def Part {β : Type} (L i : Nat) (new old : Nat → β) (xs : List β) : Prop :=
  xs.length = L ∧ ∀ j : Nat, j < L → xs[j]? = some (if j < i then new j else old j)

variable {β : Type} {L i : Nat} {new old : Nat → β} {xs : List β}

theorem Holds.part (h : Holds L old xs) (new : Nat → β) : Part L 0 new old xs :=
  ⟨h.1, fun j hj => by rw [h.2 j hj]; simp⟩

theorem Part.holds (h : Part L L new old xs) : Holds L new xs :=
  ⟨h.1, fun j hj => by rw [h.2 j hj, if_pos hj]⟩

theorem Part.get (h : Part L i new old xs) (hi : i < L) : xs[i]? = some (old i) := by
  rw [h.2 i hi, if_neg (Nat.lt_irrefl i)]

theorem Part.wr (h : Part L i new old xs) (hi : i < L) : QM.wr xs i (new i) = some (xs.set i (new i)) :=
  wr_some _ (by rw [h.1]; exact hi)

theorem Part.step (h : Part L i new old xs) (hi : i < L) : Part L (i + 1) new old (xs.set i (new i)) := by
  refine ⟨by simp [h.1], fun j hj => ?_⟩
  by_cases e : j = i
  · subst e
    rw [List.getElem?_set_self (by rw [h.1]; exact hi), if_pos (by omega)]
  · rw [List.getElem?_set_ne (Ne.symm e), h.2 j hj]
    congr 1
    by_cases hji : j < i
    · rw [if_pos hji, if_pos (by omega)]
    · rw [if_neg hji, if_neg (by omega)]

theorem Holds.congr {f g : Nat → β} (h : Holds L f xs) (he : ∀ j, j < L → f j = g j) : Holds L g xs :=
  ⟨h.1, fun j hj => by rw [h.2 j hj, he j hj]⟩

theorem holds_replicate (L : Nat) (v : β) : Holds L (fun _ => v) (List.replicate L v) :=
  ⟨by simp, fun j hj => by simp [List.getElem?_replicate, hj]⟩

theorem holds_getD (xs : List β) (d : β) : Holds xs.length (fun j => xs.getD j d) xs :=
  ⟨rfl, fun j hj => by simp [List.getElem?_eq_getElem hj]⟩

theorem holds_of_length (h : xs.length = L) (d : β) : Holds L (fun j => xs.getD j d) xs := by
  subst h; exact holds_getD xs d

theorem Holds.ext {f : Nat → β} {ys : List β} (h : Holds L f xs) (h' : Holds L f ys) : xs = ys := by
  apply List.ext_getElem?
  intro j
  by_cases hj : j < L
  · rw [h.2 j hj, h'.2 j hj]
  · rw [List.getElem?_eq_none (by rw [h.1]; omega), List.getElem?_eq_none (by rw [h'.1]; omega)]

end QM
