import Verif.Tonal.Stability

/-!
# C136: small changes of the chroma change the tonal centroids and the harmonic change function little
-/

namespace QM.Tonal

open Finset

/-- C136. Two chroma vectors give tonal centroids whose distance is at most the common radius of the three
circles, about 1.6, times the sum of the differences of the chroma vectors. -/
theorem C136_centroid (c d : List ℝ) (hc : c.length = 12) (hd : d.length = 12) :
    ∃ u v, transform2TCS c = some u ∧ transform2TCS d = some v ∧ u.length = 6 ∧ v.length = 6 ∧
      dist6 u v ≤ radius * chromaDist c d :=
  ⟨_, _, C62_transform c hc, C62_transform d hd, rfl, rfl, tcs_near c d⟩

/-- The factor of `C136_centroid` cannot be smaller: it is reached by every pair of chroma vectors that
differ in one pitch class only. -/
theorem C136_centroid_tight (q : Nat) (hq : q < 12) (c d : List ℝ) (hc : c.length = 12) (hd : d.length = 12)
    (h : ∀ p, p < 12 → p ≠ q → c.getD p 0 = d.getD p 0) :
    ∃ u v, transform2TCS c = some u ∧ transform2TCS d = some v ∧ dist6 u v = radius * chromaDist c d := by
  refine ⟨_, _, C62_transform c hc, C62_transform d hd, ?_⟩
  have hD : chromaDist c d = |c.getD q 0 - d.getD q 0| := by
    unfold chromaDist
    refine sum_eq_single_of_mem q (mem_range.mpr hq) fun p hp hne => ?_
    rw [h p (mem_range.mp hp) hne, sub_self, abs_zero]
  have b : ∀ θ, ‖centroid θ c - centroid θ d‖ = chromaDist c d := by
    intro θ
    unfold centroid
    rw [← sum_sub_distrib, sum_eq_single_of_mem q (mem_range.mpr hq), ← sub_mul, norm_mul, norm_pow,
      Complex.norm_exp_ofReal_mul_I, one_pow, mul_one, ← Complex.ofReal_sub, Complex.norm_real, Real.norm_eq_abs, hD]
    intro p hp hne
    rw [h p (mem_range.mp hp) hne, sub_self]
  have e : dist6 (tcs c) (tcs d) = Real.sqrt (‖centroid fifths c - centroid fifths d‖ ^ 2 +
      (6 / 10) ^ 2 * ‖centroid majorThirds c - centroid majorThirds d‖ ^ 2 +
      (11 / 10) ^ 2 * ‖centroid minorThirds c - centroid minorThirds d‖ ^ 2) := by
    rw [← norm_sq_im_re, ← norm_sq_im_re, ← norm_sq_im_re]
    unfold dist6
    congr 1
    simp only [sum_range_succ, sum_range_zero, Complex.sub_re, Complex.sub_im, tcs]
    simp
    ring
  rw [e, b, b, b, radius]
  conv_rhs => rw [← Real.sqrt_sq (chromaDist_nonneg c d), ← Real.sqrt_mul (by norm_num)]
  congr 1
  ring

/-- C136, once the frame duration of the temporary sequence is set, to any value `e`: if two sequences of
tonal centroids of the same length differ by at most `ε` in every frame, the values of their harmonic
change functions differ by at most `2ε` times the sum of the kernel. The suffix: as the code stands, the read
of the unset member is undefined behaviour, see `C136_violation`. -/
theorem C136_change_partial (k : List ℝ) (w : Nat) (hk : k.length = 2 * w + 1) (hk0 : ∀ x ∈ k, 0 ≤ x) (d e : ℝ)
    (vs ws : List (List ℝ)) (hv : ∀ v ∈ vs, v.length = 6) (hw : ∀ v ∈ ws, v.length = 6)
    (hl : vs.length = ws.length) (ε : ℝ) (h0 : 0 ≤ ε)
    (h : ∀ i, i < vs.length → dist6 (vs.getD i []) (ws.getD i []) ≤ ε) :
    ∃ r s, processWith (some e) k (gramOf d vs) = some r ∧ processWith (some e) k (gramOf d ws) = some s ∧
      r.length = vs.length ∧ s.length = vs.length ∧
      ∀ t, t < vs.length → |r.getD t 0 - s.getD t 0| ≤ 2 * k.sum * ε := by
  refine ⟨_, _, C63_change_partial k w hk d e vs hv, C63_change_partial k w hk d e ws hw, by simp, by simp [hl], ?_⟩
  intro t ht
  have hs : ∑ j ∈ range k.length, |k.getD j 0| = k.sum := by
    rw [← Fin.sum_univ_eq_sum_range (fun j => |k.getD j 0|), ← Fin.sum_univ_getElem]
    refine sum_congr rfl fun j _ => ?_
    have : k.getD j 0 = k[(j : Nat)] := by simp
    rw [this]
    exact abs_of_nonneg (hk0 _ (List.getElem_mem _))
  have hn := change_near k vs ws hl ε h0 h t
  rw [hs] at hn
  have e1 : ∀ us : List (List ℝ), t < us.length → ((List.range us.length).map (change k us)).getD t 0 = change k us t := by
    intro us hu
    simp [hu]
  rw [e1 vs ht, e1 ws (hl ▸ ht)]
  exact hn

/-- C136, from the chromagram to the harmonic change function, under the same proviso: if two chromagrams
of the same length differ by at most `δ` in every frame, the harmonic change functions of their tonal
centroids, smoothed with the kernel that the code builds for width `w`, differ by at most `2δ` times the radius
and the sum of the kernel. -/
theorem C136_chromagram_partial (w : Nat) (d e : ℝ) (cs ds : List (List ℝ)) (hc : ∀ c ∈ cs, c.length = 12)
    (hd : ∀ c ∈ ds, c.length = 12) (hl : cs.length = ds.length) (δ : ℝ) (h0 : 0 ≤ δ)
    (h : ∀ i, i < cs.length → chromaDist (cs.getD i []) (ds.getD i []) ≤ δ) :
    ∃ k us vs r s, gaussian w = some k ∧ cs.mapM transform2TCS = some us ∧ ds.mapM transform2TCS = some vs ∧
      processWith (some e) k (gramOf d us) = some r ∧ processWith (some e) k (gramOf d vs) = some s ∧
      r.length = cs.length ∧ s.length = cs.length ∧
      ∀ t, t < cs.length → |r.getD t 0 - s.getD t 0| ≤ 2 * k.sum * (radius * δ) := by
  obtain ⟨k, hk, hlen, hpos, _⟩ := C63_kernel w
  have h6 : ∀ us : List (List ℝ), ∀ v ∈ us.map tcs, v.length = 6 := by
    intro us v hv
    obtain ⟨_, _, rfl⟩ := List.mem_map.mp hv
    rfl
  have hr : 0 ≤ radius := Real.sqrt_nonneg _
  obtain ⟨r, s, a1, a2, a3, a4, a5⟩ := C136_change_partial k w hlen (fun x hx => (hpos x hx).le) d e (cs.map tcs)
    (ds.map tcs) (h6 cs) (h6 ds) (by simpa using hl) (radius * δ) (mul_nonneg hr h0) (by
      intro i hi
      have hi : i < cs.length := by simpa using hi
      have hi2 : i < ds.length := hl ▸ hi
      have e1 : (cs.map tcs).getD i [] = tcs (cs.getD i []) := by simp [hi]
      have e2 : (ds.map tcs).getD i [] = tcs (ds.getD i []) := by simp [hi2]
      rw [e1, e2]
      exact (tcs_near _ _).trans (mul_le_mul_of_nonneg_left (h i hi) hr))
  rw [List.length_map] at a3 a4 a5
  exact ⟨k, _, _, r, s, hk, mapM_tcs cs hc, mapM_tcs ds hd, a1, a2, a3, a4, a5⟩

/-- As the code stands there is no change function to speak of: any non-empty sequence makes `process` read
an uninitialised member. -/
theorem C136_violation (k : List ℝ) (d : ℝ) (vs : List (List ℝ)) (h : vs ≠ []) : process k (gramOf d vs) = none := by
  refine C63_violation k _ ?_
  have : vs.length ≠ 0 := by simpa using h
  intro hn
  have := congrArg List.length hn
  simp [gramOf] at this
  exact h this

/-- Two chromagrams of one frame that differ in one pitch class meet the hypotheses. -/
example (d e : ℝ) := C136_chromagram_partial 2 d e [[1, 0, 0, 0, 1, 0, 0, 1, 0, 0, 0, 0]]
  [[1, 0, 0, 0, 1, 0, 0, 1, 0, 0, 1 / 10, 0]] (by simp) (by simp) rfl (1 / 10) (by norm_num) (by
    intro i hi
    have : i = 0 := by simpa using hi
    subst this
    simp [chromaDist, sum_range_succ])

end QM.Tonal
