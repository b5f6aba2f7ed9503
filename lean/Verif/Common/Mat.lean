import Verif.Common.Sum

/-! Arrays of arrays (`double **`). -/

namespace QM

variable {β : Type}

/-- `m[i][j]`. -/
def rd2 (m : List (List β)) (i j : Nat) : Option β := do
  let r ← m[i]?
  r[j]?

/-- `m[i][j] = v`. -/
def wr2 (m : List (List β)) (i j : Nat) (v : β) : Option (List (List β)) := do
  let r ← m[i]?
  let r ← wr r j v
  wr m i r

/-- `M` has `n` rows of `m` elements, element `j` of row `i` being `f i j`. -/
def Holds2 (n m : Nat) (f : Nat → Nat → β) (M : List (List β)) : Prop :=
  M.length = n ∧ ∀ i : Nat, i < n → ∃ r, M[i]? = some r ∧ Holds m (f i) r

variable {n m : Nat} {f g : Nat → Nat → β} {M : List (List β)}

theorem Holds2.congr (h : Holds2 n m f M) (he : ∀ i j, i < n → j < m → f i j = g i j) : Holds2 n m g M :=
  ⟨h.1, fun i hi => by
    obtain ⟨r, h1, h2⟩ := h.2 i hi
    exact ⟨r, h1, h2.congr fun j hj => he i j hi hj⟩⟩

theorem Holds2.rd (h : Holds2 n m f M) {i j : Nat} (hi : i < n) (hj : j < m) : rd2 M i j = some (f i j) := by
  obtain ⟨r, h1, h2⟩ := h.2 i hi
  unfold rd2
  rw [bind_ok h1]
  exact h2.2 j hj

theorem Holds2.wr (h : Holds2 n m f M) {i j : Nat} (hi : i < n) (hj : j < m) (v : β) :
    ∃ M', wr2 M i j v = some M' ∧ Holds2 n m (fun i' j' => if i' = i ∧ j' = j then v else f i' j') M' := by
  obtain ⟨r, h1, h2⟩ := h.2 i hi
  refine ⟨M.set i (r.set j v), ?_, by simp [h.1], ?_⟩
  · unfold wr2
    rw [bind_ok h1, bind_ok (wr_some v (by rw [h2.1]; exact hj)), wr_some _ (by rw [h.1]; exact hi)]
  · intro i' hi'
    by_cases e : i' = i
    · subst e
      refine ⟨r.set j v, List.getElem?_set_self (by rw [h.1]; exact hi), by simp [h2.1], fun j' hj' => ?_⟩
      by_cases e : j' = j
      · subst e
        rw [List.getElem?_set_self (by rw [h2.1]; exact hj)]; simp
      · rw [List.getElem?_set_ne (Ne.symm e), h2.2 j' hj']; simp [e]
    · obtain ⟨r', h3, h4⟩ := h.2 i' hi'
      refine ⟨r', by rw [List.getElem?_set_ne (Ne.symm e)]; exact h3, h4.congr fun j' _ => ?_⟩
      simp [e]

theorem Holds2.row (h : Holds2 n m f M) {i : Nat} (hi : i < n) : ∃ r, M[i]? = some r ∧ Holds m (f i) r := h.2 i hi

theorem Holds2.ext (h : Holds2 n m f M) {M' : List (List β)} (h' : Holds2 n m f M') : M = M' := by
  apply List.ext_getElem?
  intro i
  by_cases hi : i < n
  · obtain ⟨r, h1, h2⟩ := h.2 i hi
    obtain ⟨r', h3, h4⟩ := h'.2 i hi
    rw [h1, h3, h2.ext h4]
  · rw [List.getElem?_eq_none (by rw [h.1]; omega), List.getElem?_eq_none (by rw [h'.1]; omega)]

theorem holds2_of (hl : M.length = n) (hr : ∀ r ∈ M, r.length = m) (d : β) : Holds2 n m (fun i j => (M.getD i []).getD j d) M := by
  refine ⟨hl, fun i hi => ?_⟩
  have hi' : i < M.length := by omega
  refine ⟨M[i], List.getElem?_eq_getElem hi', ?_⟩
  have : M.getD i [] = M[i] := by simp [List.getElem?_eq_getElem hi']
  show Holds m (fun j => (M.getD i []).getD j d) M[i]
  rw [this]
  exact holds_of_length (hr _ (List.getElem_mem hi')) d

/-- One row is rewritten, element by element. -/
theorem Holds2.fillRow (h : Holds2 n m f M) {i : Nat} (hi : i < n) (k : Nat) (hk : k ≤ m) (new : Nat → β) (F : Nat → List (List β) → Option (List (List β)))
    (hF : ∀ j M', j < k → Holds2 n m (fun i' j' => if i' = i ∧ j' < j then new j' else f i' j') M' → F j M' = wr2 M' i j (new j)) :
    ∃ M', loop k F M = some M' ∧ Holds2 n m (fun i' j' => if i' = i ∧ j' < k then new j' else f i' j') M' := by
  refine loop_inv (n := k) (f := F) (s := M) (P := fun j M' => Holds2 n m (fun i' j' => if i' = i ∧ j' < j then new j' else f i' j') M')
    (h.congr fun i' j' _ _ => by simp) ?_
  intro j M' hj hM
  obtain ⟨M2, h1, h2⟩ := hM.wr hi (show j < m by omega) (new j)
  refine ⟨M2, (hF j M' hj hM).trans h1, h2.congr fun i' j' _ _ => ?_⟩
  by_cases e : i' = i
  · by_cases e2 : j' = j
    · subst e2; simp [e]
    · simp only [e, e2, true_and, and_false, if_false]
      by_cases e3 : j' < j
      · rw [if_pos e3, if_pos (by omega)]
      · rw [if_neg e3, if_neg (by omega)]
  · simp [e]

/-- All rows are rewritten, element by element. -/
theorem Holds2.fill (h : Holds2 n m f M) (new : Nat → Nat → β) (F : Nat → List (List β) → Option (List (List β)))
    (hF : ∀ i M', i < n → Holds2 n m (fun i' j' => if i' < i then new i' j' else f i' j') M' →
      ∃ M2, F i M' = some M2 ∧ Holds2 n m (fun i' j' => if i' = i then new i' j' else if i' < i then new i' j' else f i' j') M2) :
    ∃ M', loop n F M = some M' ∧ Holds2 n m new M' := by
  obtain ⟨M', h1, h2⟩ := loop_inv (n := n) (f := F) (s := M) (P := fun i M' => Holds2 n m (fun i' j' => if i' < i then new i' j' else f i' j') M')
    (h.congr fun i' j' _ _ => by simp) (by
      intro i M' hi hM
      obtain ⟨M2, h1, h2⟩ := hF i M' hi hM
      refine ⟨M2, h1, h2.congr fun i' j' _ _ => ?_⟩
      by_cases e : i' = i
      · subst e; simp
      · by_cases e2 : i' < i
        · rw [if_neg e, if_pos e2, if_pos (by omega)]
        · rw [if_neg e, if_neg e2, if_neg (by omega)])
  exact ⟨M', h1, h2.congr fun i j hi _ => by rw [if_pos hi]⟩

/-- The usual double loop. -/
theorem Holds2.fillAll (h : Holds2 n m f M) (new : Nat → Nat → β) (F : Nat → Nat → List (List β) → Option (List (List β)))
    (hF : ∀ i j M', i < n → j < m → Holds2 n m (fun i' j' => if i' < i ∨ (i' = i ∧ j' < j) then new i' j' else f i' j') M' →
      F i j M' = wr2 M' i j (new i j)) :
    ∃ M', loop n (fun i M => loop m (F i) M) M = some M' ∧ Holds2 n m new M' := by
  refine h.fill new _ ?_
  intro i M' hi hM
  obtain ⟨M2, h1, h2⟩ := hM.fillRow hi m (Nat.le_refl _) (new i) (F i) (by
    intro j M2 hj hM2
    refine hF i j M2 hi hj (hM2.congr fun i' j' _ _ => ?_)
    by_cases e : i' = i
    · subst e; by_cases e2 : j' < j <;> simp [e2]
    · by_cases e2 : i' < i <;> simp [e, e2])
  refine ⟨M2, h1, h2.congr fun i' j' _ hj => ?_⟩
  by_cases e : i' = i
  · subst e; simp [hj]
  · simp [e]

end QM
