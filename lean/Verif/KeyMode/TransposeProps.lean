import Mathlib.Data.List.GetD
import Verif.KeyMode.Transpose

/-! C100: key detection follows transpositions. -/

namespace QM.KeyMode

/-- **C100** Transposing every chroma frame of a history by `t` semitones transposes all 24 key strengths by `t` semitones, exactly: the strength
of each major key is found at the major key `t` semitones higher, and likewise for minor keys. -/
theorem C100_strengths (cs ms t : Nat) (hcs : 0 < cs) (hms : 0 < ms) (ht : t ≤ 12) (u : ℝ) (hist : List (List ℝ)) (frame : List ℝ)
    (hh : ∀ f ∈ hist, f.length = 36) (hf : frame.length = 36) :
    ∃ s0 s s' r r' key key' a b, make cs ms u = some s0 ∧
      run s0 hist = some s ∧ process s frame = some (s', key) ∧ getKeyStrengths s' = some a ∧
      run s0 (hist.map (transpose t)) = some r ∧ process r (transpose t frame) = some (r', key') ∧ getKeyStrengths r' = some b ∧
      a.length = 24 ∧ b.length = 24 ∧ ∀ k, 1 ≤ k → k ≤ 24 → b[shiftKey t k - 1]? = a[k - 1]? := by
  obtain ⟨s0, s, s', key, a, e1, e2, e3, e4, e5, e6⟩ := C31_strengths cs ms hcs hms u hist frame hh hf
  obtain ⟨r0, r, r', key', b, f1, f2, f3, f4, f5, f6⟩ := C31_strengths cs ms hcs hms u (hist.map (transpose t)) (transpose t frame)
    (fun f hf => by obtain ⟨g, _, rfl⟩ := List.mem_map.mp hf; exact transpose_length t g) (transpose_length t frame)
  rw [e1] at f1
  obtain rfl := Option.some.inj f1
  refine ⟨s0, s, s', r, r', key, key', a, b, e1, e2, e3, e4, f2, f3, f4, e5, f5, fun k hk1 hk2 => ?_⟩
  rw [show hist.map (transpose t) ++ [transpose t frame] = (hist ++ [frame]).map (transpose t) by simp] at f6
  have hp : ∀ tab j i, j < 12 → i < 3 → pearson 36 (meanChroma cs ((hist ++ [frame]).map (transpose t))) (keyProfile tab (3 * ((j + t) % 12) + i)) =
      pearson 36 (meanChroma cs (hist ++ [frame])) (keyProfile tab (3 * j + i)) := fun tab j i hj hi => by
    rw [← pearson_transpose cs t ht (hist ++ [frame]) tab (3 * j + i) (by omega), show (3 * j + i + 3 * t) % 36 = 3 * ((j + t) % 12) + i by omega]
  have hp0 := fun tab j hj => hp tab j 0 hj (by omega)
  simp only [Nat.add_zero] at hp0
  by_cases hk : k ≤ 12
  · have h1 := (f6 ((k - 1 + t) % 12) (Nat.mod_lt _ (by omega))).1
    rw [hp0 _ _ (by omega), hp _ _ 1 (by omega) (by omega), hp _ _ 2 (by omega) (by omega), ← (e6 (k - 1) (by omega)).1] at h1
    rw [← h1]
    unfold shiftKey
    rw [if_pos hk]
    rw [Nat.add_sub_cancel]
  · have h1 := (f6 ((k - 13 + t) % 12) (Nat.mod_lt _ (by omega))).2
    rw [hp0 _ _ (by omega), hp _ _ 1 (by omega) (by omega), hp _ _ 2 (by omega) (by omega), ← (e6 (k - 13) (by omega)).2] at h1
    rw [show k - 1 = 12 + (k - 13) by omega, ← h1]
    unfold shiftKey
    rw [if_neg hk, show (k - 13 + t) % 12 + 13 - 1 = 12 + (k - 13 + t) % 12 by omega]

/-- The keys of a history and of the same history transposed, in terms of raw keys. -/
theorem both (cs ms t : Nat) (hcs : 0 < cs) (hms : 0 < ms) (ht : t ≤ 12) (u : ℝ) (hist : List (List ℝ)) (frame : List ℝ)
    (hh : ∀ f ∈ hist, f.length = 36) (hf : frame.length = 36)
    (hc : ∀ j, hist.length + 1 - ms ≤ j → j ≤ hist.length → Clear (meanChroma cs ((hist ++ [frame]).take (j + 1)))) :
    ∃ s0 s s' r r' key key', ∃ raws : List Nat, make cs ms u = some s0 ∧ run s0 hist = some s ∧ process s frame = some (s', key) ∧
      run s0 (hist.map (transpose t)) = some r ∧ process r (transpose t frame) = some (r', key') ∧ raws.length = hist.length + 1 ∧
      (∀ j, j ≤ hist.length → RawKey (meanChroma cs ((hist ++ [frame]).take (j + 1))) (raws.getD j 0)) ∧
      IsLowerMedian (raws.drop (hist.length + 1 - ms)) key ∧ IsLowerMedian ((raws.drop (hist.length + 1 - ms)).map (shiftKey t)) key' := by
  obtain ⟨s0, s, s', key, raws, e1, e2, e3, _, _, e4, e5, e6⟩ := C30_history cs ms hcs hms u hist frame hh hf
  obtain ⟨r0, r, r', key', raws', f1, f2, f3, _, _, f4, f5, f6⟩ := C30_history cs ms hcs hms u (hist.map (transpose t)) (transpose t frame)
    (fun f hf => by obtain ⟨g, _, rfl⟩ := List.mem_map.mp hf; exact transpose_length t g) (transpose_length t frame)
  rw [e1] at f1
  obtain rfl := Option.some.inj f1
  refine ⟨s0, s, s', r, r', key, key', raws, e1, e2, e3, f2, f3, e4, e5, e6, ?_⟩
  rw [List.length_map] at *
  have : raws'.drop (hist.length + 1 - ms) = (raws.drop (hist.length + 1 - ms)).map (shiftKey t) := by
    refine List.ext_getElem (by simp [e4, f4]) fun i h1 h2 => ?_
    rw [List.length_drop, f4] at h1
    rw [List.getElem_drop, List.getElem_map, List.getElem_drop]
    have hj := f5 (hist.length + 1 - ms + i) (by omega)
    rw [show hist.map (transpose t) ++ [transpose t frame] = (hist ++ [frame]).map (transpose t) by simp, ← List.map_take] at hj
    have := C30_raw_unique _ _ _ hj (raw_transpose cs t ht _ (hc _ (by omega) (by omega)) _ (e5 (hist.length + 1 - ms + i) (by omega)))
    rwa [List.getD_eq_getElem _ _ (by omega), List.getD_eq_getElem _ _ (by omega)] at this
  rwa [this] at f6

/-- **C100** The key returned follows the transposition if no two keys of one mode share the first place and the transposition keeps the order of the
raw keys in the median window, so that no key wraps round from B to C while another does not, or if one raw key has the majority in that window. The
full statement, without these conditions on the window, is false: see `C100_median_violation`. -/
theorem C100_key_partial (cs ms t : Nat) (hcs : 0 < cs) (hms : 0 < ms) (ht : t ≤ 12) (u : ℝ) (hist : List (List ℝ)) (frame : List ℝ)
    (hh : ∀ f ∈ hist, f.length = 36) (hf : frame.length = 36)
    (hc : ∀ j, hist.length + 1 - ms ≤ j → j ≤ hist.length → Clear (meanChroma cs ((hist ++ [frame]).take (j + 1)))) :
    ∃ s0 s s' r r' key key', ∃ raws : List Nat, make cs ms u = some s0 ∧ run s0 hist = some s ∧ process s frame = some (s', key) ∧
      run s0 (hist.map (transpose t)) = some r ∧ process r (transpose t frame) = some (r', key') ∧ raws.length = hist.length + 1 ∧
      (∀ j, j ≤ hist.length → RawKey (meanChroma cs ((hist ++ [frame]).take (j + 1))) (raws.getD j 0)) ∧
      ((∀ a ∈ raws.drop (hist.length + 1 - ms), ∀ b ∈ raws.drop (hist.length + 1 - ms), a ≤ b → shiftKey t a ≤ shiftKey t b) ∨
        (∃ a, min (hist.length + 1) ms < 2 * (raws.drop (hist.length + 1 - ms)).count a) → key' = shiftKey t key) := by
  obtain ⟨s0, s, s', r, r', key, key', raws, e1, e2, e3, e4, e5, e6, e7, e8, e9⟩ := both cs ms t hcs hms ht u hist frame hh hf hc
  refine ⟨s0, s, s', r, r', key, key', raws, e1, e2, e3, e4, e5, e6, e7, ?_⟩
  rintro (h | ⟨a, h⟩)
  · exact median_map _ _ _ _ h e8 e9
  · have hl : (raws.drop (hist.length + 1 - ms)).length = min (hist.length + 1) ms := by rw [List.length_drop, e6]; omega
    rw [← hl] at h
    rw [median_majority _ a _ e8 h]
    refine median_majority _ _ _ e9 ?_
    rw [List.length_map]
    exact lt_of_lt_of_le h (Nat.mul_le_mul_left 2 (List.count_le_count_map))

/-- **C100** The detector that is asked for one raw key at a time, with a median window of one call, follows every transposition of every history
in which no two keys of one mode share the first place. -/
theorem C100_single (cs t : Nat) (hcs : 0 < cs) (ht : t ≤ 12) (u : ℝ) (hist : List (List ℝ)) (frame : List ℝ)
    (hh : ∀ f ∈ hist, f.length = 36) (hf : frame.length = 36) (hc : Clear (meanChroma cs (hist ++ [frame]))) :
    ∃ s0 s s' r r' key, make cs 1 u = some s0 ∧ run s0 hist = some s ∧ process s frame = some (s', key) ∧
      run s0 (hist.map (transpose t)) = some r ∧ process r (transpose t frame) = some (r', shiftKey t key) := by
  obtain ⟨s0, s, s', r, r', key, key', raws, e1, e2, e3, e4, e5, e6, e7, e8⟩ := C100_key_partial cs 1 t hcs (by omega) ht u hist frame hh hf
    (fun j h1 h2 => by
      obtain rfl : j = hist.length := by omega
      rwa [List.take_of_length_le (by simp)])
  refine ⟨s0, s, s', r, r', key, e1, e2, e3, e4, ?_⟩
  rw [e5, e8 (Or.inl ?_)]
  rw [show hist.length + 1 - 1 = hist.length by omega]
  have hl : (raws.drop hist.length).length = 1 := by rw [List.length_drop, e6]; omega
  obtain ⟨x, hx⟩ := List.length_eq_one_iff.mp hl
  rw [hx]
  intro a ha b hb _
  rw [List.mem_singleton.mp ha, List.mem_singleton.mp hb]

/-- The chroma frame that is the profile of the major key `key`. -/
noncomputable def ofKey (key : Nat) : List ℝ := (List.range 36).map (keyProfile majTab (3 * (key - 1) + 1))

theorem ofKey_length (key : Nat) : (ofKey key).length = 36 := by simp [ofKey]

theorem mean_single (hist : List (List ℝ)) (f : List ℝ) (k : Nat) : meanChroma 1 (hist ++ [f]) k = f.getD k 0 := by
  unfold meanChroma
  rw [List.length_append, List.length_singleton, show hist.length + 1 - 1 = hist.length by omega, List.drop_left,
    show min (hist.length + 1) 1 = 1 by omega]
  simp

theorem raw_ofKey (hist : List (List ℝ)) (key : Nat) (h1 : 1 ≤ key) (h2 : key ≤ 12) : RawKey (meanChroma 1 (hist ++ [ofKey key])) key := by
  have h := C97_robust majTab (Or.inl rfl) (3 * (key - 1) + 1) (by omega) (meanChroma 1 (hist ++ [ofKey key])) (by
    rw [pearson_congr _ (keyProfile majTab (3 * (key - 1) + 1)) _ fun i hi => by rw [mean_single, ofKey]; simp [hi],
      (table_best majTab (Or.inl rfl) _ (by omega)).1]
    norm_num)
  have : keyNumber majTab (3 * (key - 1) + 1) = key := by
    unfold keyNumber
    rw [if_pos rfl]
    omega
  rwa [this] at h

/-- The key after three frames that are profiles of major keys, in a detector that averages one frame and takes the median of three keys. -/
theorem three (u : ℝ) (a b c : Nat) (ha : 1 ≤ a ∧ a ≤ 12) (hb : 1 ≤ b ∧ b ≤ 12) (hc : 1 ≤ c ∧ c ≤ 12) :
    ∃ s0 s s' key, make 1 3 u = some s0 ∧ run s0 [ofKey a, ofKey b] = some s ∧ process s (ofKey c) = some (s', key) ∧
      IsLowerMedian [a, b, c] key := by
  obtain ⟨s0, s, s', key, raws, e1, e2, e3, _, _, e4, e5, e6⟩ := C30_history 1 3 (by omega) (by omega) u [ofKey a, ofKey b] (ofKey c)
    (fun f hf => by
      simp only [List.mem_cons, List.not_mem_nil, or_false] at hf
      rcases hf with rfl | rfl <;> exact ofKey_length _) (ofKey_length c)
  refine ⟨s0, s, s', key, e1, e2, e3, ?_⟩
  have h0 := C30_raw_unique _ _ _ (e5 0 (by simp)) (raw_ofKey [] a ha.1 ha.2)
  have h1 := C30_raw_unique _ _ _ (e5 1 (by simp)) (raw_ofKey [ofKey a] b hb.1 hb.2)
  have h2 := C30_raw_unique _ _ _ (e5 2 (by simp)) (raw_ofKey [ofKey a, ofKey b] c hc.1 hc.2)
  have : raws = [a, b, c] := by
    match raws, e4 with
    | [x, y, z], _ =>
      simp only [List.getD_cons_zero, List.getD_cons_succ] at h0 h1 h2
      rw [h0, h1, h2]
  rw [this] at e6
  exact e6

theorem transpose_ofKey (t key : Nat) (ht : t ≤ 12) (h1 : 1 ≤ key) (h2 : key ≤ 12) : transpose t (ofKey key) = ofKey (shiftKey t key) := by
  unfold transpose ofKey
  refine List.map_congr_left fun i hi => ?_
  have hi := List.mem_range.mp hi
  unfold shiftKey keyProfile
  rw [if_pos h2]
  have hlt : (i + (36 - 3 * t)) % 36 < 36 := Nat.mod_lt _ (by omega)
  rw [List.getD_eq_getElem?_getD, List.getElem?_map, List.getElem?_range hlt]
  simp only [Option.map_some, Option.getD_some]
  congr 3
  omega

theorem median_of_sorted (l s : List Nat) (m m' : Nat) (hp : s.Perm l) (ho : s.Pairwise (· ≤ ·)) (hm : s[(l.length + 1) / 2 - 1]? = some m')
    (h : IsLowerMedian l m) : m = m' := by
  obtain ⟨s', p, o, g⟩ := h
  have : s' = s := (p.trans hp.symm).eq_of_pairwise (fun a b _ _ h1 h2 => le_antisymm h1 h2) o ho
  subst this
  exact Option.some.inj (g.symm.trans hm)

/-- **C100** Violation: the median of key numbers does not follow transpositions, because the numbers wrap round from B to C. Music in A, then B flat,
then B major, with no ties at all, is reported in B flat major; the same music two tones higher, in C sharp, D and D sharp major, is reported in
D major as it should be; but only one tone higher, in B, C and C sharp major, it is reported in C sharp major instead of C major. -/
theorem C100_median_violation (u : ℝ) : ∃ s0, make 1 3 u = some s0 ∧
    (∃ s s', run s0 [ofKey 10, ofKey 11] = some s ∧ process s (ofKey 12) = some (s', 11)) ∧
    (∃ s s', run s0 ([ofKey 10, ofKey 11].map (transpose 4)) = some s ∧ process s (transpose 4 (ofKey 12)) = some (s', shiftKey 4 11)) ∧
    shiftKey 2 11 = 1 ∧ ∃ s s', run s0 ([ofKey 10, ofKey 11].map (transpose 2)) = some s ∧ process s (transpose 2 (ofKey 12)) = some (s', 2) := by
  obtain ⟨s0, s, s', key, e0, e1, e2, e3⟩ := three u 10 11 12 (by omega) (by omega) (by omega)
  obtain ⟨r0, r, r', k2, f0, f1, f2, f3⟩ := three u 2 3 4 (by omega) (by omega) (by omega)
  obtain ⟨q0, q, q', k3, g0, g1, g2, g3⟩ := three u 12 1 2 (by omega) (by omega) (by omega)
  rw [e0] at f0 g0
  obtain rfl := Option.some.inj f0
  obtain rfl := Option.some.inj g0
  obtain rfl := median_of_sorted _ [10, 11, 12] _ 11 (by decide) (by decide) rfl e3
  obtain rfl := median_of_sorted _ [2, 3, 4] _ 3 (by decide) (by decide) rfl f3
  obtain rfl := median_of_sorted _ [1, 2, 12] _ 2 (by decide) (by decide) rfl g3
  refine ⟨s0, e0, ⟨s, s', e1, e2⟩, ⟨r, r', ?_, ?_⟩, rfl, q, q', ?_, ?_⟩
  · simpa [transpose_ofKey, shiftKey] using f1
  · simpa [transpose_ofKey, shiftKey] using f2
  · simpa [transpose_ofKey, shiftKey] using g1
  · simpa [transpose_ofKey, shiftKey] using g2

/-- The hypotheses of `C100_key_partial` are met by the history of the violation. -/
example : ∀ j, j ≤ 2 → Clear (meanChroma 1 ([ofKey 10, ofKey 11, ofKey 12].take (j + 1))) := by
  have h : ∀ hist key, 1 ≤ key → key ≤ 12 → Clear (meanChroma 1 (hist ++ [ofKey key])) := fun hist key h1 h2 => by
    refine clear_of_close majTab (Or.inl rfl) (3 * (key - 1) + 1) (by omega) _ ?_
    rw [pearson_congr _ (keyProfile majTab (3 * (key - 1) + 1)) _ fun i hi => by rw [mean_single, ofKey]; simp [hi],
      (table_best majTab (Or.inl rfl) _ (by omega)).1]
    norm_num
  intro j hj
  match j, hj with
  | 0, _ => exact h [] 10 (by omega) (by omega)
  | 1, _ => exact h [ofKey 10] 11 (by omega) (by omega)
  | 2, _ => exact h [ofKey 10, ofKey 11] 12 (by omega) (by omega)

end QM.KeyMode
