import Verif.Common.Loop

namespace QM

/-- A loop that writes `g i` into element `i`. -/
theorem fill_ok {β : Type} (n : Nat) (f : Nat → List β → Option (List β)) (g : Nat → β) (b : List β)
    (hb : n ≤ b.length)
    (hf : ∀ i b1, i < n → b1.length = b.length → (∀ j : Nat, i ≤ j → b1[j]? = b[j]?) →
      (∀ j : Nat, j < i → b1[j]? = some (g j)) → f i b1 = some (b1.set i (g i))) :
    ∃ b', loop n f b = some b' ∧ b'.length = b.length ∧ (∀ i : Nat, i < n → b'[i]? = some (g i)) ∧
      (∀ i : Nat, n ≤ i → b'[i]? = b[i]?) := by
  obtain ⟨b', h1, h2, h3, h4⟩ := loop_inv (n := n) (f := f) (s := b)
    (P := fun i b' => b'.length = b.length ∧ (∀ j : Nat, j < i → b'[j]? = some (g j)) ∧
      (∀ j : Nat, i ≤ j → b'[j]? = b[j]?))
    ⟨rfl, fun j hj => absurd hj (Nat.not_lt_zero j), fun j _ => rfl⟩
    (by
      rintro i b1 hi ⟨hl, hv, ho⟩
      refine ⟨b1.set i (g i), hf i b1 hi hl ho hv, by simp [hl], ?_, ?_⟩
      · intro j hj
        by_cases h : j = i
        · subst h; rw [List.getElem?_set_self (by omega)]
        · have hne : i ≠ j := fun he => h he.symm
          rw [List.getElem?_set_ne hne]; exact hv j (by omega)
      · intro j hj
        rw [List.getElem?_set_ne (by omega)]; exact ho j (by omega))
  exact ⟨b', h1, h2, h3, h4⟩

/-- The same for two arrays written together. -/
theorem fill2_ok {β : Type} (n : Nat) (f : Nat → List β × List β → Option (List β × List β)) (g h : Nat → β)
    (b c : List β) (hb : n ≤ b.length) (hc : n ≤ c.length)
    (hf : ∀ i b1 c1, i < n → b1.length = b.length → c1.length = c.length →
      f i (b1, c1) = some (b1.set i (g i), c1.set i (h i))) :
    ∃ b' c', loop n f (b, c) = some (b', c') ∧ b'.length = b.length ∧ c'.length = c.length ∧
      (∀ i : Nat, i < n → b'[i]? = some (g i) ∧ c'[i]? = some (h i)) ∧
      (∀ i : Nat, n ≤ i → b'[i]? = b[i]? ∧ c'[i]? = c[i]?) := by
  obtain ⟨⟨b', c'⟩, h1, h2, h3, h4, h5⟩ := loop_inv (n := n) (f := f) (s := (b, c))
    (P := fun i s => s.1.length = b.length ∧ s.2.length = c.length ∧
      (∀ j : Nat, j < i → s.1[j]? = some (g j) ∧ s.2[j]? = some (h j)) ∧
      (∀ j : Nat, i ≤ j → s.1[j]? = b[j]? ∧ s.2[j]? = c[j]?))
    ⟨rfl, rfl, fun j hj => absurd hj (Nat.not_lt_zero j), fun j _ => ⟨rfl, rfl⟩⟩
    (by
      rintro i ⟨b1, c1⟩ hi ⟨hl, hl', hv, ho⟩
      dsimp only at hl hl' hv ho
      refine ⟨(b1.set i (g i), c1.set i (h i)), hf i b1 c1 hi hl hl', by simp [hl], by simp [hl'], ?_, ?_⟩
      · intro j hj
        by_cases he : j = i
        · subst he
          simp only
          rw [List.getElem?_set_self (by omega), List.getElem?_set_self (by omega)]; exact ⟨rfl, rfl⟩
        · have hne : i ≠ j := fun h' => he h'.symm
          simp only
          rw [List.getElem?_set_ne hne, List.getElem?_set_ne hne]; exact hv j (by omega)
      · intro j hj
        simp only
        rw [List.getElem?_set_ne (by omega), List.getElem?_set_ne (by omega)]; exact ho j (by omega))
  exact ⟨b', c', h1, h2, h3, h4, h5⟩

end QM
