import Verif.BeatSpectrum.Model
import Verif.Distance.Props
import Verif.Common.Sum
import Mathlib.Algebra.Order.BigOperators.Group.Finset

/-!
# C61: the beat spectrum
-/

namespace QM.BeatSpectrum

open QM.Distance

/-- Cosine distance of two feature vectors, 1 if their lengths differ. -/
noncomputable def cosDist (v w : List ℝ) : ℝ :=
  if v.length = w.length then 1 - dot v w / (norm v * norm w + small) else 1

/-- Total distance between the frames of the first half of the feature matrix and the frames `lag`
later. -/
noncomputable def lagSum (m : List (List ℝ)) (lag : Nat) : ℝ :=
  ∑ i ∈ Finset.range (m.length / 2), cosDist (m.getD i []) (m.getD (i + lag) [])

theorem cosine_eq (v w : List ℝ) : cosine v w = some (cosDist v w) := by
  unfold cosDist
  by_cases h : v.length = w.length
  · rw [C47_value v w h, if_pos h]
  · rw [C47_lengths v w h, if_neg h]

theorem cosDist_pos (v w : List ℝ) : 0 < cosDist v w := by
  obtain ⟨d, h1, h2, _⟩ := C47_range v w
  rw [cosine_eq] at h1
  cases h1
  exact h2

theorem accumulate_ok (m : List (List ℝ)) :
    ∃ v, accumulate m (m.length / 2) (List.replicate (m.length / 2) 0) = some v ∧
      Holds (m.length / 2) (fun k => lagSum m (k + 1)) v := by
  obtain ⟨v, h1, h2⟩ := loop_inv (m.length / 2) (fun i v => loop (m.length / 2) (fun k v => do
    let a ← m[i]?
    let b ← m[i + 1 + k]?
    let d ← Distance.cosine a b
    let x ← v[k]?
    wr v k (x + d)) v) (List.replicate (m.length / 2) 0)
    (fun i v => Holds (m.length / 2) (fun k => ∑ j ∈ Finset.range i,
      cosDist (m.getD j []) (m.getD (j + (k + 1)) [])) v)
    (by simpa using holds_replicate (m.length / 2) (0 : ℝ))
    (by
      intro i v hi hv
      obtain ⟨ys, e1, e2⟩ := fill_part
        (new := fun k => ∑ j ∈ Finset.range (i + 1), cosDist (m.getD j []) (m.getD (j + (k + 1)) []))
        (f := fun k v => do
          let a ← m[i]?
          let b ← m[i + 1 + k]?
          let d ← Distance.cosine a b
          let x ← v[k]?
          wr v k (x + d)) hv (by
          intro k ys hk hp
          rw [bind_ok (get_getD m i [] (by omega)), bind_ok (get_getD m (i + 1 + k) [] (by omega)),
            bind_ok (cosine_eq _ _), bind_ok (hp.get hk), Finset.sum_range_succ,
            show i + (k + 1) = i + 1 + k by omega])
      exact ⟨ys, e1, e2⟩)
  exact ⟨v, h1, h2⟩

theorem maximum_ok (L : Nat) (f : Nat → ℝ) (v : List ℝ) (h : Holds L f v) (hf : ∀ i, i < L → 0 < f i) :
    ∃ mx, maximum L v = some mx ∧ (∀ i, i < L → f i ≤ mx) ∧
      ((L = 0 ∧ mx = 0) ∨ ∃ i, i < L ∧ f i = mx) := by
  obtain ⟨mx, h1, h2, h3⟩ := loop_inv L (fun i mx => do
    let x ← v[i]?
    some (if x > mx then x else mx)) (0 : ℝ)
    (fun i mx => (∀ j, j < i → f j ≤ mx) ∧ ((i = 0 ∧ mx = 0) ∨ ∃ j, j < i ∧ f j = mx))
    ⟨by intro j hj; omega, Or.inl ⟨rfl, rfl⟩⟩ (by
      rintro i mx hi ⟨p1, p2⟩
      refine ⟨if f i > mx then f i else mx, bind_ok (h.2 i hi) _, ?_⟩
      by_cases hc : f i > mx
      · rw [if_pos hc]
        refine ⟨fun j hj => ?_, Or.inr ⟨i, by omega, rfl⟩⟩
        by_cases e : j = i
        · rw [e]
        · exact (p1 j (by omega)).trans hc.le
      · rw [if_neg hc]
        refine ⟨fun j hj => ?_, ?_⟩
        · by_cases e : j = i
          · rw [e]; exact not_lt.mp hc
          · exact p1 j (by omega)
        · rcases p2 with ⟨e1, e2⟩ | ⟨j, hj, e⟩
          · exact absurd (hf i hi) (by rw [e2] at hc; exact hc)
          · exact Or.inr ⟨j, by omega, e⟩)
  exact ⟨mx, h1, h2, h3⟩

/-- C61. For every feature matrix, ragged or empty ones included, the beat spectrum is computed without
leaving the matrix and has one value for each lag from 1 to half the number of frames: the total cosine
distance at that lag, divided by the largest of these totals. -/
theorem C61_value (m : List (List ℝ)) :
    ∃ v mx, process m = some v ∧ v.length = m.length / 2 ∧
      (∀ k, k < m.length / 2 → v[k]? = some (lagSum m (k + 1) / mx)) ∧
      (∀ k, k < m.length / 2 → lagSum m (k + 1) ≤ mx) ∧
      (0 < m.length / 2 → ∃ k, k < m.length / 2 ∧ lagSum m (k + 1) = mx) := by
  obtain ⟨v, h1, h2⟩ := accumulate_ok m
  have hpos : ∀ k, k < m.length / 2 → 0 < lagSum m (k + 1) := by
    intro k hk
    unfold lagSum
    exact Finset.sum_pos (fun i _ => cosDist_pos _ _) ⟨0, Finset.mem_range.mpr (by omega)⟩
  obtain ⟨mx, g1, g2, g3⟩ := maximum_ok _ _ v h2 hpos
  by_cases hz : m.length / 2 = 0
  · refine ⟨v, mx, ?_, h2.1, by intro k hk; omega, by intro k hk; omega, by omega⟩
    have hmx : mx = 0 := by
      rcases g3 with ⟨_, e⟩ | ⟨i, hi, _⟩
      · exact e
      · omega
    unfold process
    dsimp only
    rw [bind_ok h1, bind_ok g1, hmx, if_neg (by simp)]
  · obtain ⟨i, hi, e⟩ : ∃ i, i < m.length / 2 ∧ lagSum m (i + 1) = mx := by
      rcases g3 with ⟨e, _⟩ | h
      · omega
      · exact h
    have hmx : 0 < mx := by rw [← e]; exact hpos i hi
    obtain ⟨ys, e1, e2⟩ := fill_part (new := fun k => lagSum m (k + 1) / mx)
      (f := fun i v => do
        let x ← v[i]?
        wr v i (x / mx)) h2 (by
        intro k ys hk hp
        rw [bind_ok (hp.get hk)])
    refine ⟨ys, mx, ?_, e2.1, e2.2, g2, fun _ => ⟨i, hi, e⟩⟩
    unfold process
    dsimp only
    rw [bind_ok h1, bind_ok g1, if_pos hmx, e1]

/-- C61. All values lie in (0, 1] and, unless there are fewer than two frames, the value 1 occurs. -/
theorem C61_range (m : List (List ℝ)) :
    ∃ v, process m = some v ∧ (∀ x ∈ v, 0 < x ∧ x ≤ 1) ∧ (2 ≤ m.length → 1 ∈ v) := by
  obtain ⟨v, mx, h1, h2, h3, h4, h5⟩ := C61_value m
  have hpos : ∀ k, k < m.length / 2 → 0 < lagSum m (k + 1) := by
    intro k hk
    unfold lagSum
    exact Finset.sum_pos (fun i _ => cosDist_pos _ _) ⟨0, Finset.mem_range.mpr (by omega)⟩
  refine ⟨v, h1, ?_, ?_⟩
  · intro x hx
    obtain ⟨k, hk, rfl⟩ := List.mem_iff_getElem.mp hx
    have hv := h3 k (by omega)
    rw [List.getElem?_eq_getElem hk] at hv
    have hv' := Option.some.inj hv
    have hmx : 0 < mx := (hpos k (by omega)).trans_le (h4 k (by omega))
    rw [hv']
    exact ⟨div_pos (hpos k (by omega)) hmx, (div_le_one hmx).mpr (h4 k (by omega))⟩
  · intro h
    obtain ⟨k, hk, e⟩ := h5 (by omega)
    have hv := h3 k hk
    rw [e, div_self (by rw [← e]; exact (hpos k hk).ne')] at hv
    exact List.mem_of_getElem? hv

/-- C61. Only the frames up to twice half their number are looked at: an odd last frame has no
influence. -/
theorem C61_last_frame (m : List (List ℝ)) (f : List ℝ) (h : m.length % 2 = 0) :
    process (m ++ [f]) = process m := by
  have hl : (m ++ [f]).length / 2 = m.length / 2 := by simp; omega
  have hs : ∀ k, k < m.length / 2 → lagSum (m ++ [f]) (k + 1) = lagSum m (k + 1) := by
    intro k hk
    unfold lagSum
    rw [hl]
    refine Finset.sum_congr rfl fun i hi => ?_
    have hi := Finset.mem_range.mp hi
    simp only [List.getD_eq_getElem?_getD, List.getElem?_append_left (show i < m.length by omega),
      List.getElem?_append_left (show i + (k + 1) < m.length by omega)]
  obtain ⟨v, mx, h1, h2, h3, h4, h5⟩ := C61_value m
  obtain ⟨v', mx', g1, g2, g3, g4, g5⟩ := C61_value (m ++ [f])
  rw [h1, g1]
  rw [hl] at g2 g3 g4 g5
  congr 1
  have hmx : 0 < m.length / 2 → mx' = mx := by
    intro hz
    obtain ⟨i, hi, e⟩ := h5 hz
    obtain ⟨j, hj, e'⟩ := g5 hz
    have a := g4 i hi
    have b := h4 j hj
    rw [hs i hi, e] at a
    rw [← hs j hj, e'] at b
    exact le_antisymm b a
  apply List.ext_getElem?
  intro k
  by_cases hk : k < m.length / 2
  · rw [h3 k hk, g3 k hk, hs k hk, hmx (by omega)]
  · rw [List.getElem?_eq_none (by omega), List.getElem?_eq_none (by omega)]

example : ∃ v, process [[1, 0], [0, 1], [1, 0], [0, 1]] = some v ∧ 1 ∈ v := by
  obtain ⟨v, h1, _, h3⟩ := C61_range [[1, 0], [0, 1], [1, 0], [0, 1]]
  exact ⟨v, h1, h3 (by simp)⟩

example : ([[1, 0], [0, 1]] : List (List ℝ)).length % 2 = 0 := rfl

end QM.BeatSpectrum
