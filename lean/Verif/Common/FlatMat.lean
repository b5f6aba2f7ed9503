import Verif.Common.Flat
import Verif.Common.Sum

/-! # Matrices kept as a flat array in row order -/

namespace QM

variable {β : Type} {n m : Nat} {f : Nat → Nat → β} {xs : List β}

/-- Array `xs` holds the `n` by `m` matrix `f`, row after row. -/
def HoldsF (n m : Nat) (f : Nat → Nat → β) (xs : List β) : Prop :=
  xs.length = n * m ∧ ∀ i j : Nat, i < n → j < m → xs[i * m + j]? = some (f i j)

theorem HoldsF.rd (h : HoldsF n m f xs) {i j : Nat} (hi : i < n) (hj : j < m) : xs[i * m + j]? = some (f i j) := h.2 i j hi hj

theorem HoldsF.congr {g : Nat → Nat → β} (h : HoldsF n m f xs) (he : ∀ i j, i < n → j < m → f i j = g i j) : HoldsF n m g xs :=
  ⟨h.1, fun i j hi hj => by rw [h.2 i j hi hj, he i j hi hj]⟩

theorem flat_inj {m i j i' j' : Nat} (hj : j < m) (hj' : j' < m) (h : i * m + j = i' * m + j') : i = i' ∧ j = j' := by
  have h1 : (i * m + j) / m = (i' * m + j') / m := by rw [h]
  have h2 : (i * m + j) % m = (i' * m + j') % m := by rw [h]
  rw [flat_div hj, flat_div hj'] at h1
  rw [flat_mod hj, flat_mod hj'] at h2
  exact ⟨h1, h2⟩

theorem HoldsF.wr (h : HoldsF n m f xs) {i j : Nat} (hi : i < n) (hj : j < m) (v : β) :
    wr xs (i * m + j) v = some (xs.set (i * m + j) v) ∧
    HoldsF n m (fun a b => if a = i ∧ b = j then v else f a b) (xs.set (i * m + j) v) := by
  have hlt := flat_lt hi hj
  refine ⟨wr_some v (by rw [h.1]; exact hlt), by rw [List.length_set]; exact h.1, fun a b ha hb => ?_⟩
  dsimp only
  by_cases e : a = i ∧ b = j
  · obtain ⟨rfl, rfl⟩ := e
    rw [List.getElem?_set_self (by rw [h.1]; exact hlt), if_pos ⟨rfl, rfl⟩]
  · rw [List.getElem?_set_ne (fun he => e ((fun q => ⟨q.1.symm, q.2.symm⟩) (flat_inj hj hb he))), h.2 a b ha hb, if_neg e]

/-- Writing one row from left to right. -/
theorem HoldsF.fillRow (h : HoldsF n m f xs) {i : Nat} (hi : i < n) (new : Nat → β) (F : Nat → List β → Option (List β))
    (hF : ∀ j ys, j < m → HoldsF n m (fun a b => if a = i ∧ b < j then new b else f a b) ys → F j ys = QM.wr ys (i * m + j) (new j)) :
    ∃ ys, loop m F xs = some ys ∧ HoldsF n m (fun a b => if a = i then new b else f a b) ys := by
  obtain ⟨ys, h1, h2⟩ := loop_inv m F xs (fun j ys => HoldsF n m (fun a b => if a = i ∧ b < j then new b else f a b) ys)
    (h.congr fun a b _ _ => by simp) (by
      intro j ys hj hy
      obtain ⟨w1, w2⟩ := hy.wr hi hj (new j)
      refine ⟨_, (hF j ys hj hy).trans w1, w2.congr fun a b ha hb => ?_⟩
      by_cases e : a = i
      · subst e
        by_cases e2 : b = j
        · subst e2; simp
        · have : b < j ↔ b < j + 1 := by omega
          simp [e2, this]
      · simp [e])
  refine ⟨ys, h1, h2.congr fun a b ha hb => ?_⟩
  simp [hb]

theorem holdsF_const {v : β} (h : Holds (n * m) (fun _ => v) xs) : HoldsF n m (fun _ _ => v) xs :=
  ⟨h.1, fun _ _ hi hj => h.2 _ (flat_lt hi hj)⟩

end QM
