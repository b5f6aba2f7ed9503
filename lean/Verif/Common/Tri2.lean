import Verif.Common.Tri

/-! Triples for arrays of arrays of which only the shape matters. -/

namespace QM

variable {β : Type} {b : Prop} {n m : Nat}

/-- `M` has `n` rows of `m` elements. -/
def Shape2 (n m : Nat) (M : List (List β)) : Prop := ∃ f, Holds2 n m f M

theorem Holds2.shape {f : Nat → Nat → β} {M : List (List β)} (h : Holds2 n m f M) : Shape2 n m M := ⟨f, h⟩

theorem wr2_none_col {M : List (List β)} (h : Shape2 n m M) {i j : Nat} (hj : m ≤ j) (v : β) : wr2 M i j v = none := by
  obtain ⟨f, h⟩ := h
  unfold wr2
  by_cases hi : i < n
  · obtain ⟨r, h1, h2⟩ := h.2 i hi
    rw [bind_ok h1, wr_none v (by rw [h2.1]; omega)]
    rfl
  · rw [List.getElem?_eq_none (by rw [h.1]; omega)]
    rfl

theorem wr2_none_row {M : List (List β)} (h : Shape2 n m M) {i j : Nat} (hi : n ≤ i) (v : β) : wr2 M i j v = none := by
  obtain ⟨f, h⟩ := h
  unfold wr2
  rw [List.getElem?_eq_none (by rw [h.1]; omega)]
  rfl

theorem rd2_none_col {M : List (List β)} (h : Shape2 n m M) {i j : Nat} (hj : m ≤ j) : rd2 M i j = none := by
  obtain ⟨f, h⟩ := h
  unfold rd2
  by_cases hi : i < n
  · obtain ⟨r, h1, h2⟩ := h.2 i hi
    rw [bind_ok h1, List.getElem?_eq_none (by rw [h2.1]; omega)]
  · rw [List.getElem?_eq_none (by rw [h.1]; omega)]
    rfl

theorem rd2_none_row {M : List (List β)} (h : Shape2 n m M) {i j : Nat} (hi : n ≤ i) : rd2 M i j = none := by
  obtain ⟨f, h⟩ := h
  unfold rd2
  rw [List.getElem?_eq_none (by rw [h.1]; omega)]
  rfl

theorem Tri.wr2 {M : List (List β)} (h : Shape2 n m M) {i j : Nat} {v : β} (hb : b → i < n ∧ j < m) :
    Tri b (wr2 M i j v) (fun M' => (i < n ∧ j < m) ∧ Shape2 n m M') := by
  by_cases hi : i < n
  · by_cases hj : j < m
    · obtain ⟨f, h⟩ := h
      obtain ⟨M', h1, h2⟩ := h.wr hi hj v
      rw [h1]
      exact ⟨⟨hi, hj⟩, h2.shape⟩
    · rw [wr2_none_col h (by omega)]
      exact fun hb' => hj (hb hb').2
  · rw [wr2_none_row h (by omega)]
    exact fun hb' => hi (hb hb').1

theorem Tri.rd2 {M : List (List β)} (h : Shape2 n m M) {i j : Nat} (hb : b → i < n ∧ j < m) :
    Tri b (rd2 M i j) (fun _ => i < n ∧ j < m) := by
  by_cases hi : i < n
  · by_cases hj : j < m
    · obtain ⟨f, h⟩ := h
      rw [h.rd hi hj]
      exact ⟨hi, hj⟩
    · rw [rd2_none_col h (by omega)]
      exact fun hb' => hj (hb hb').2
  · rw [rd2_none_row h (by omega)]
    exact fun hb' => hi (hb hb').1

theorem Tri.none_of {α : Type} {x : Option α} (h : Tri False x (fun _ => False)) : x = none := by
  cases x with
  | none => rfl
  | some r => exact h.elim

end QM
