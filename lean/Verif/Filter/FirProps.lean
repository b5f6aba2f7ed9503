import Verif.Filter.Props

/-!
# C12 for FIR filters: FiltFilt is history independent

The missing reset only matters to recursive filters: a non-recursive filter forgets its history
within the reflected margin.
-/

namespace QM.Filter

variable {R : Type} [CommRing R]
open Finset

/-- Earlier `FiltFilt::process` calls on the same object. -/
def runFF (s : State R) : List (List R) → Option (State R)
  | [] => some s
  | src :: rest => do
    let (s, _) ← filtfilt s src
    runFF s rest

/-- One `FiltFilt::process` call from any state in the invariant. -/
theorem filtfilt_spec (b a : List R) (s : State R) (xs ys : List R) (hi : Inv b a s xs ys)
    (hd : DiffEq b a xs ys) (src : List R) (hne : src ≠ []) :
    ∃ s' y1 y2, filtfilt s src = some (s', (y2.reverse.drop (3 * (b.length - 1))).take src.length) ∧
      Inv b a s' y1.reverse y2 ∧
      y1.length = src.length + 2 * (3 * (b.length - 1)) ∧
      DiffEq b a (xs ++ (List.range (src.length + 2 * (3 * (b.length - 1)))).map
        (oddExt (3 * (b.length - 1)) src)) (ys ++ y1) ∧
      DiffEq b a y1.reverse y2 := by
  have hN : 0 < src.length := List.length_pos_iff.mpr hne
  set n := 3 * (b.length - 1) with hn
  obtain ⟨s1, y1, h1, h2, h3, h4⟩ := process_spec b a
    ((List.range (src.length + 2 * n)).map (oddExt n src)) s xs ys hi hd
  obtain ⟨s2, y2, h5, h6, h7, h8⟩ := process_spec b a y1.reverse (reset s1) [] []
    (reset_inv b a s1 _ _ h2) ⟨rfl, by simp⟩
  refine ⟨s2, y1, y2, ?_, by simpa using h6, by simpa using h3, h4, by simpa using h8⟩
  unfold filtfilt
  rw [if_neg (by omega), hi.hsz, ← hn]
  simp only [extend_spec n src hne]
  simp only [Option.bind_eq_bind, Option.bind_some, h1, h5]

theorem runFF_inv (b a : List R) (calls : List (List R)) (s : State R) (xs ys : List R)
    (hi : Inv b a s xs ys) (hd : DiffEq b a xs ys) :
    ∃ s' xs' ys', runFF s calls = some s' ∧ Inv b a s' xs' ys' ∧ DiffEq b a xs' ys' := by
  induction calls generalizing s xs ys with
  | nil => exact ⟨s, xs, ys, rfl, hi, hd⟩
  | cons src rest ih =>
    by_cases hne : src = []
    · obtain ⟨s', xs', ys', h⟩ := ih s xs ys hi hd
      refine ⟨s', xs', ys', ?_, h.2⟩
      rw [runFF, filtfilt, if_pos (by simp [hne])]
      exact h.1
    · obtain ⟨s1, y1, y2, h1, h2, h3, h4, h5⟩ := filtfilt_spec b a s xs ys hi hd src hne
      obtain ⟨s', xs', ys', h⟩ := ih s1 _ _ h2 h5
      refine ⟨s', xs', ys', ?_, h.2⟩
      rw [runFF, h1]
      exact h.1

/-- FiltFilt never leaves its arrays, whatever the earlier calls. -/
theorem C12_memory_safe (b a : List R) (s : State R) (h : new b a = .ok s) (hord : a.length ≠ 1)
    (calls : List (List R)) : runFF s calls ≠ none := by
  obtain ⟨s', _, _, h1, _⟩ := runFF_inv b a calls s [] [] (new_inv b a s h hord) ⟨rfl, by simp⟩
  rw [h1]; simp

theorem fir_value (b x y : List R) (h : DiffEq b [] x y) (n : Nat) (hn : n < x.length) :
    y.getD n 0 = ∑ i ∈ range b.length, b.getD i 0 * delayed x n i := by
  have := h.2 n hn
  simpa using this

theorem delayed_append_right (l r : List R) (k i : Nat) (h : i ≤ k) :
    delayed (l ++ r) (l.length + k) i = delayed r k i := by
  unfold delayed
  rw [if_pos (by omega), if_pos h]
  simp only [List.getD_eq_getElem?_getD]
  rw [List.getElem?_append_right (by omega)]
  congr 2; omega

/-- C12 for non-recursive filters at full strength: whatever was processed before, a call returns the
same block as the first call on a new object would. -/
theorem C12_fir_history_independent (b : List R) (s : State R) (h : new b [] = .ok s)
    (calls : List (List R)) (t : State R) (ht : runFF s calls = some t) (src : List R) :
    (filtfilt t src).map Prod.snd = (filtfilt s src).map Prod.snd := by
  by_cases hne : src = []
  · subst hne; rfl
  have hi := new_inv b [] s h (by simp)
  obtain ⟨t', xs, ys, h1, h2, h3⟩ := runFF_inv b [] calls s [] [] hi ⟨rfl, by simp⟩
  rw [ht] at h1; cases h1
  obtain ⟨s1, y1, y2, e1, _, e3, e4, e5⟩ := filtfilt_spec b [] s [] [] hi ⟨rfl, by simp⟩ src hne
  obtain ⟨s2, z1, z2, f1, _, f3, f4, f5⟩ := filtfilt_spec b [] t xs ys h2 h3 src hne
  rw [e1, f1]
  simp only [Option.map_some, Option.some.injEq]
  have hN : 0 < src.length := List.length_pos_iff.mpr hne
  have hpos := hi.hpos
  set n := 3 * (b.length - 1) with hn
  set ext := (List.range (src.length + 2 * n)).map (oddExt n src) with hext
  have hel : ext.length = src.length + 2 * n := by simp [hext]
  have hyl : ys.length = xs.length := h3.1
  -- first pass: equal beyond the filter's memory
  have k1 : ∀ k, b.length - 1 ≤ k → k < ext.length → z1.getD k 0 = y1.getD k 0 := by
    intro k hk hke
    have g1 := fir_value b _ _ f4 (xs.length + k) (by simp; omega)
    have g2 := fir_value b _ _ e4 k (by simp; omega)
    rw [List.nil_append, List.nil_append] at g2
    have : (ys ++ z1).getD (xs.length + k) 0 = z1.getD k 0 := by
      simp only [List.getD_eq_getElem?_getD]
      rw [List.getElem?_append_right (by omega)]
      congr 2; omega
    rw [← this, g1, g2]
    refine sum_congr rfl (fun i hi => ?_)
    rw [mem_range] at hi
    rw [delayed_append_right _ _ _ _ (by omega)]
  have revget : ∀ (l : List R) (j : Nat), j < l.length →
      l.reverse.getD j 0 = l.getD (l.length - 1 - j) 0 := by
    intro l j hj
    simp only [List.getD_eq_getElem?_getD]
    rw [List.getElem?_reverse hj]
  have k2 : ∀ m, m < ext.length - n → z2.getD m 0 = y2.getD m 0 := by
    intro m hm
    rw [fir_value b _ _ f5 m (by simp; omega), fir_value b _ _ e5 m (by simp; omega)]
    refine sum_congr rfl (fun i hi => ?_)
    congr 1
    unfold delayed
    by_cases him : i ≤ m
    · rw [if_pos him, if_pos him, revget _ _ (by omega), revget _ _ (by omega), e3, f3]
      exact k1 _ (by omega) (by omega)
    · rw [if_neg him, if_neg him]
  have hy2 : y2.length = ext.length := by rw [e5.1]; simp; omega
  have hz2 : z2.length = ext.length := by rw [f5.1]; simp; omega
  apply List.ext_getElem?
  intro i
  rw [List.getElem?_take, List.getElem?_take, List.getElem?_drop, List.getElem?_drop]
  by_cases hil : i < src.length
  · rw [if_pos hil, if_pos hil, List.getElem?_reverse (by omega), List.getElem?_reverse (by omega)]
    have := k2 (ext.length - 1 - (n + i)) (by omega)
    simp only [List.getD_eq_getElem?_getD] at this
    rw [hy2, hz2]
    rw [List.getElem?_eq_getElem (by omega), List.getElem?_eq_getElem (by omega)] at this ⊢
    simpa using this
  · rw [if_neg hil, if_neg hil]

example : ∃ s t : State ℤ, new [1, 1] [] = .ok s ∧ runFF s [[3, 1, 4], [1, 5]] = some t :=
  ⟨_, _, rfl, rfl⟩

end QM.Filter
