import Verif.KeyMode.Robust

/-! C97: key detection tolerates deviations from the key profiles. -/

namespace QM.KeyMode

/-- The number, as reported by the key detector, of the major or minor key whose tonic is in semitone bin `k / 3`. -/
def keyNumber (tab : List Int) (k : Nat) : Nat := if tab = majTab then k / 3 + 1 else k / 3 + 13

theorem tabs_ne : minTab ≠ majTab := by decide +kernel

/-- **C97** An averaged chroma whose correlation with the profile of a major or minor key, at any of the 36 tunings, exceeds 0.975 is
reported as that key, whatever else it contains. -/
theorem C97_robust (tab : List Int) (htab : tab = majTab ∨ tab = minTab) (k : Nat) (hk : k < 36) (x : Nat → ℝ)
    (hx : 39 / 40 < pearson 36 x (keyProfile tab k)) : RawKey x (keyNumber tab k) := by
  have hbest : IsBest (fun k' => pearson 36 x (keyProfile tab k')) k := by
    have hlt : ∀ k', k' < 36 → k' ≠ k → pearson 36 x (keyProfile tab k') < pearson 36 x (keyProfile tab k) := fun k' hk' hne =>
      closer x _ _ (dev_pos tab htab k hk) (dev_pos tab htab k' hk') (apart_same tab htab k k' hk hk' hne) hx
    refine ⟨hk, fun k' hk' => ?_, fun k' hk' => hlt k' (by omega) (by omega)⟩
    by_cases he : k' = k
    · rw [he]
    · exact (hlt k' hk' he).le
  rcases htab with rfl | rfl
  · obtain ⟨m, hm⟩ := best_exists (fun k' => pearson 36 x (keyProfile minTab k'))
    refine ⟨k, m, hbest, hm, ?_⟩
    rw [if_pos, keyNumber, if_pos rfl]
    exact closer x _ _ (dev_pos _ (Or.inl rfl) k hk) (dev_pos _ (Or.inr rfl) m hm.1) (apart_cross k m hk hm.1) hx
  · obtain ⟨m, hm⟩ := best_exists (fun k' => pearson 36 x (keyProfile majTab k'))
    refine ⟨m, k, hm, hbest, ?_⟩
    rw [if_neg, keyNumber, if_neg tabs_ne]
    rw [gt_iff_lt, not_lt]
    refine (closer x _ _ (dev_pos _ (Or.inr rfl) k hk) (dev_pos _ (Or.inl rfl) m hm.1) ?_ hx).le
    rw [pearson_comm]
    exact apart_cross m k hm.1 hk

/-- **C97** Over any history of calls: if after more than half of the last `ms` calls the mean chroma correlated by more than 0.975 with
one tuning or another of one key, the key returned is that key, whatever the other calls gave. -/
theorem C97_majority (cs ms : Nat) (hcs : 0 < cs) (hms : 0 < ms) (u : ℝ) (hist : List (List ℝ)) (frame : List ℝ)
    (hh : ∀ f ∈ hist, f.length = 36) (hf : frame.length = 36) (tab : List Int) (htab : tab = majTab ∨ tab = minTab) (tonic : Nat)
    (close : Finset Nat) (hin : ∀ j ∈ close, hist.length + 1 - ms ≤ j ∧ j ≤ hist.length)
    (hclose : ∀ j ∈ close, ∃ k, k < 36 ∧ k / 3 = tonic ∧
      39 / 40 < pearson 36 (meanChroma cs ((hist ++ [frame]).take (j + 1))) (keyProfile tab k))
    (hmost : min (hist.length + 1) ms < 2 * close.card) :
    ∃ s0 s s', make cs ms u = some s0 ∧ run s0 hist = some s ∧ process s frame = some (s', keyNumber tab (3 * tonic)) := by
  obtain ⟨s0, s, s', key, raws, e1, e2, e3, _, _, e4, e5, e6⟩ := C30_history cs ms hcs hms u hist frame hh hf
  have hraw : ∀ j ∈ close, raws.getD j 0 = keyNumber tab (3 * tonic) := by
    intro j hj
    obtain ⟨k, hk, ht, hp⟩ := hclose j hj
    have := C30_raw_unique _ _ _ (e5 j (hin j hj).2) (C97_robust tab htab k hk _ hp)
    rw [this]
    unfold keyNumber
    rw [ht, Nat.mul_div_cancel_left tonic (by omega)]
  have hcount : close.card ≤ (raws.drop (hist.length + 1 - ms)).count (keyNumber tab (3 * tonic)) := by
    generalize keyNumber tab (3 * tonic) = K at *
    generalize hd : hist.length + 1 - ms = d at *
    have key2 : ∀ (l : List Nat) (S : Finset Nat), (∀ i ∈ S, i < l.length ∧ l.getD i 0 = K) → S.card ≤ l.count K := by
      intro l
      induction l using List.reverseRecOn with
      | nil =>
        intro S hS
        have : S = ∅ := Finset.eq_empty_of_forall_notMem fun i hi => absurd (hS i hi).1 (by simp)
        rw [this]; simp
      | append_singleton l a ih =>
        intro S hS
        have h1 := ih (S.erase l.length) fun i hi => by
          obtain ⟨hne, hi'⟩ := Finset.mem_erase.mp hi
          obtain ⟨b1, b2⟩ := hS i hi'
          rw [List.length_append, List.length_singleton] at b1
          have hlt : i < l.length := by omega
          exact ⟨hlt, by rwa [getD_append_left _ _ _ _ hlt] at b2⟩
        rw [List.count_append]
        by_cases hm : l.length ∈ S
        · have h2 := (hS _ hm).2
          rw [getD_append_self] at h2
          have h3 := Finset.card_erase_add_one hm
          rw [h2, List.count_singleton_self]
          omega
        · rw [Finset.erase_eq_of_notMem hm] at h1
          omega
    have := key2 (raws.drop d) (close.image (· - d)) (by
      intro i hi
      obtain ⟨j, hj, rfl⟩ := Finset.mem_image.mp hi
      have hb := hin j hj
      refine ⟨by rw [List.length_drop, e4]; omega, ?_⟩
      have := hraw j hj
      rw [List.getD_eq_getElem?_getD, List.getElem?_drop, show d + (j - d) = j by omega, ← List.getD_eq_getElem?_getD]
      exact this)
    rwa [Finset.card_image_of_injOn] at this
    intro a ha b hb hab
    have h1 := (hin a ha).1
    have h2 := (hin b hb).1
    simp only at hab
    omega
  have := median_majority _ (keyNumber tab (3 * tonic)) _ e6 (by
    rw [List.length_drop, e4]
    have : hist.length + 1 - (hist.length + 1 - ms) = min (hist.length + 1) ms := by omega
    rw [this]
    exact lt_of_lt_of_le hmost (by omega))
  subst this
  exact ⟨s0, s, s', e1, e2, e3⟩

/-- **C97** If every one of the chroma frames that the two windows of the detector can reach, the last `cs + ms - 1` of them, correlates
by more than 0.975 with the same profile, the key returned is the key of that profile, whatever came before. -/
theorem C97_frames (cs ms : Nat) (hcs : 0 < cs) (hms : 0 < ms) (u : ℝ) (hist : List (List ℝ)) (frame : List ℝ)
    (hh : ∀ f ∈ hist, f.length = 36) (hf : frame.length = 36) (tab : List Int) (htab : tab = majTab ∨ tab = minTab) (k : Nat)
    (hk : k < 36) (hclose : ∀ f ∈ (hist ++ [frame]).drop (hist.length + 1 - (cs + ms - 1)),
      39 / 40 < pearson 36 (fun i => f.getD i 0) (keyProfile tab k)) :
    ∃ s0 s s', make cs ms u = some s0 ∧ run s0 hist = some s ∧ process s frame = some (s', keyNumber tab k) := by
  have hk3 : keyNumber tab k = keyNumber tab (3 * (k / 3)) := by
    unfold keyNumber
    rw [Nat.mul_div_cancel_left _ (by omega)]
  rw [hk3]
  refine C97_majority cs ms hcs hms u hist frame hh hf tab htab (k / 3) (Finset.Ico (hist.length + 1 - ms) (hist.length + 1))
    (fun j hj => ?_) (fun j hj => ⟨k, hk, rfl, ?_⟩) ?_
  · rw [Finset.mem_Ico] at hj
    omega
  · rw [Finset.mem_Ico] at hj
    have hlen : ((hist ++ [frame]).take (j + 1)).length = j + 1 := by
      rw [List.length_take, List.length_append, List.length_singleton]; omega
    refine close_mean cs hcs _ ?_ _ _ (dev_pos tab htab k hk) (by norm_num) fun f hm => hclose f ?_
    · rw [← List.length_pos_iff, hlen]; omega
    · rw [hlen] at hm
      obtain ⟨i, hi, rfl⟩ := List.getElem_of_mem hm
      rw [List.length_drop, hlen] at hi
      rw [List.getElem_drop, List.getElem_take]
      have hb : j + 1 - cs + i < (hist ++ [frame]).length := by
        rw [List.length_append, List.length_singleton]; omega
      have := List.getElem_mem (l := (hist ++ [frame]).drop (hist.length + 1 - (cs + ms - 1)))
        (n := j + 1 - cs + i - (hist.length + 1 - (cs + ms - 1))) (by
          rw [List.length_drop, List.length_append, List.length_singleton]; omega)
      rw [List.getElem_drop] at this
      have he : hist.length + 1 - (cs + ms - 1) + (j + 1 - cs + i - (hist.length + 1 - (cs + ms - 1))) = j + 1 - cs + i := by omega
      simp only [he] at this
      exact this
  · rw [Nat.card_Ico]
    omega

/-- Nine parts of the profile of C major and ten parts of that of A minor. -/
def mixed : List Int := (List.range 36).map fun j => 9 * majTab.getD j 0 + 10 * minTab.getD ((j + 9) % 36) 0

theorem mixed_cov : 0 < cov36 mixed 0 mixed 0 ∧ 0 < cov36 mixed 0 majTab 0 ∧ 0 < cov36 mixed 0 minTab 27 ∧
    973 ^ 2 * (cov36 mixed 0 mixed 0 * cov36 majTab 0 majTab 0) < 1000 ^ 2 * cov36 mixed 0 majTab 0 ^ 2 ∧
    ∀ k, k < 3 → cov36 mixed 0 majTab k ^ 2 * cov36 minTab 27 minTab 27 ≤ cov36 mixed 0 minTab 27 ^ 2 * cov36 majTab k majTab k := by
  decide +kernel

/-- **C97** The bound cannot be lowered to 0.973: some chroma correlates by more than that with the profile of C major and is reported as
another key. -/
theorem C97_sharp : ∃ x : Nat → ℝ, 973 / 1000 < pearson 36 x (keyProfile majTab 0) ∧ ¬ RawKey x (keyNumber majTab 0) := by
  obtain ⟨h0, h1, h2, h3, h4⟩ := mixed_cov
  have h0' : (0 : ℝ) < cov36 mixed 0 mixed 0 := by exact_mod_cast h0
  have hM : ∀ k, k < 36 → (0 : ℝ) < cov36 majTab k majTab k := fun k hk => by exact_mod_cast (table_var k hk).1.1
  have hm : (0 : ℝ) < cov36 minTab 27 minTab 27 := by exact_mod_cast (table_var 27 (by omega)).2.1
  refine ⟨keyProfile mixed 0, ?_, ?_⟩
  · rw [pearson_profile, lt_div_iff₀ (Real.sqrt_pos.mpr (mul_pos h0' (hM 0 (by omega))))]
    have h3' : (973 : ℝ) ^ 2 * (cov36 mixed 0 mixed 0 * cov36 majTab 0 majTab 0) < 1000 ^ 2 * cov36 mixed 0 majTab 0 ^ 2 := by
      exact_mod_cast h3
    have h1' : (0 : ℝ) < cov36 mixed 0 majTab 0 := by exact_mod_cast h1
    have e := Real.sq_sqrt (mul_pos h0' (hM 0 (by omega))).le
    rw [← e] at h3'
    by_contra hn
    nlinarith [Real.sqrt_nonneg ((cov36 mixed 0 mixed 0 : ℝ) * cov36 majTab 0 majTab 0)]
  · rintro ⟨bM, bm, hb1, hb2, he⟩
    unfold keyNumber at he
    rw [if_pos rfl] at he
    by_cases hc : pearson 36 (keyProfile mixed 0) (keyProfile majTab bM) > pearson 36 (keyProfile mixed 0) (keyProfile minTab bm)
    · rw [if_pos hc] at he
      have hlt := (hb2.2.1 27 (by omega)).trans_lt hc
      simp only at hlt
      rw [pearson_profile, pearson_profile, Real.sqrt_mul h0'.le, Real.sqrt_mul h0'.le,
        div_lt_div_iff₀ (mul_pos (Real.sqrt_pos.mpr h0') (Real.sqrt_pos.mpr hm))
          (mul_pos (Real.sqrt_pos.mpr h0') (Real.sqrt_pos.mpr (hM bM hb1.1)))] at hlt
      have h4' : (cov36 mixed 0 majTab bM : ℝ) ^ 2 * cov36 minTab 27 minTab 27 ≤
          (cov36 mixed 0 minTab 27 : ℝ) ^ 2 * cov36 majTab bM majTab bM := by exact_mod_cast h4 bM (by omega)
      have h2' : (0 : ℝ) < cov36 mixed 0 minTab 27 := by exact_mod_cast h2
      have hs := Real.sqrt_pos.mpr h0'
      have ha := Real.sq_sqrt hm.le
      have hb := Real.sq_sqrt (hM bM hb1.1).le
      have hap := Real.sqrt_pos.mpr hm
      have hbp := Real.sqrt_pos.mpr (hM bM hb1.1)
      rw [← ha, ← hb, ← mul_pow, ← mul_pow] at h4'
      have h5 := abs_le_of_sq_le_sq h4' (by positivity)
      have h6 := mul_le_mul_of_nonneg_left ((le_abs_self _).trans h5) hs.le
      refine absurd hlt (not_lt.mpr ?_)
      calc _ = Real.sqrt (cov36 mixed 0 mixed 0 : ℝ) * ((cov36 mixed 0 majTab bM : ℝ) * Real.sqrt (cov36 minTab 27 minTab 27 : ℝ)) := by
            ring
        _ ≤ _ := h6
        _ = _ := by ring
    · rw [if_neg hc] at he
      omega

/-- The frames of `C97_frames` exist: the profile of E flat minor itself, repeated, for windows of three frames and two keys. -/
example : ∃ hist : List (List ℝ), hist.length = 5 ∧ (∀ f ∈ hist, f.length = 36) ∧
    ∀ f ∈ hist, 39 / 40 < pearson 36 (fun i => f.getD i 0) (keyProfile minTab 9) := by
  refine ⟨List.replicate 5 ((List.range 36).map (keyProfile minTab 9)), by simp, fun f hf => ?_, fun f hf => ?_⟩
  · rw [List.eq_of_mem_replicate hf]; simp
  · rw [List.eq_of_mem_replicate hf]
    have : pearson 36 (fun i => ((List.range 36).map (keyProfile minTab 9)).getD i 0) (keyProfile minTab 9) =
        pearson 36 (keyProfile minTab 9) (keyProfile minTab 9) := by
      have e : ∀ i, i < 36 → ((List.range 36).map (keyProfile minTab 9)).getD i 0 = keyProfile minTab 9 i := fun i hi => by
        simp [hi]
      have ea : avg 36 (fun i => ((List.range 36).map (keyProfile minTab 9)).getD i 0) = avg 36 (keyProfile minTab 9) := by
        unfold avg
        rw [Finset.sum_congr rfl fun i hi => e i (Finset.mem_range.mp hi)]
      unfold pearson
      rw [ea]
      congr 1
    rw [this, (table_best minTab (Or.inr rfl) 9 (by omega)).1]
    norm_num

end QM.KeyMode
