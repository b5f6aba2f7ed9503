import Verif.Hmm.Init
import Verif.Hmm.TrainProps
import Verif.Hmm.ViterbiProps

namespace QM.Hmm

variable {N T L : Nat} {p0 gm : List ℝ} {a mu cov x : List (List ℝ)} {Xx : Nat → Nat → ℝ}

/-- Mean of component `d` of the observations. -/
noncomputable def meanOf (T : Nat) (Xx : Nat → Nat → ℝ) (d : Nat) : ℝ := (∑ t ∈ Finset.range T, Xx t d) / (T : ℝ)

/-- Unbiased variance of component `d` of the observations. -/
noncomputable def varOf (T : Nat) (Xx : Nat → Nat → ℝ) (d : Nat) : ℝ :=
  (∑ t ∈ Finset.range T, (Xx t d - meanOf T Xx d) ^ 2) / ((T : ℝ) - 1)

theorem globalMean_ok (hT : 0 < T) (hx : Holds2 T L Xx x) (hg : gm.length = L) :
    ∃ gm', globalMean T L x gm = some gm' ∧ Holds L (meanOf T Xx) gm' := by
  unfold globalMean
  refine fill_part (new := meanOf T Xx) (holds_of_length hg 0) ?_
  intro d ys hd _
  have : colTotal T x d = some (∑ t ∈ Finset.range T, Xx t d) := by
    unfold colTotal
    rw [loop_sum T _ (fun t => Xx t d) 0 (by
      intro t acc ht
      rw [bind_ok (hx.rd ht hd)]
      rfl), zero_add]
  rw [bind_ok this, if_neg (by omega)]
  rfl

theorem globalCov_ok (hT : 2 ≤ T) (hx : Holds2 T L Xx x) (hg : Holds L (meanOf T Xx) gm) (hc : ∃ f, Holds2 L L f cov) :
    ∃ cov', globalCov T L x gm cov = some cov' ∧ Holds2 L L (fun d e => if d = e then varOf T Xx d else 0) cov' := by
  obtain ⟨f, hc⟩ := hc
  unfold globalCov
  obtain ⟨c, h1, h2⟩ := loop_inv (n := L) (s := cov) (f := fun d (cov : List (List ℝ)) => do
      let cov ← loop L (fun e (cov : List (List ℝ)) => wr2 cov d e 0) cov
      let m ← gm[d]?
      let s ← scatter T x m d
      if T = 1 then none else wr2 cov d d (s / ((T : ℝ) - 1)))
    (P := fun n c => Holds2 L L (fun d e => if d < n then (if d = e then varOf T Xx d else 0) else f d e) c)
    (hc.congr fun d e _ _ => by simp)
    (by
      intro d c hd hcd
      obtain ⟨c1, g1, g2⟩ := hcd.fillRow hd L le_rfl (fun _ => 0) (fun e (cov : List (List ℝ)) => wr2 cov d e 0) (fun _ _ _ _ => rfl)
      have hs : scatter T x (meanOf T Xx d) d = some (∑ t ∈ Finset.range T, (Xx t d - meanOf T Xx d) * (Xx t d - meanOf T Xx d)) := by
        unfold scatter
        rw [loop_sum T _ (fun t => (Xx t d - meanOf T Xx d) * (Xx t d - meanOf T Xx d)) 0 (by
          intro t acc ht
          rw [bind_ok (hx.rd ht hd)]
          rfl), zero_add]
      obtain ⟨c2, k1, k2⟩ := g2.wr hd hd (varOf T Xx d)
      refine ⟨c2, ?_, k2.congr ?_⟩
      · rw [bind_ok g1, bind_ok (hg.2 d hd), bind_ok hs, if_neg (by omega), ← k1]
        unfold varOf
        simp only [sq]
      · intro i j hi hj
        by_cases h1 : i = d
        · subst h1
          by_cases h2 : j = i
          · subst h2; simp
          · simp [h2, Ne.symm h2, hj]
        · have : (i < d + 1) ↔ i < d := by omega
          simp [h1, this])
  exact ⟨c, h1, h2.congr fun d e hd _ => by simp [hd]⟩

theorem startMeans_ok (rm : Nat → Nat → ℝ) {M V : Nat → ℝ} (hg : Holds L M gm) (hc : Holds2 L L (fun d e => if d = e then V d else 0) cov)
    (hm : ∃ f, Holds2 N L f mu) :
    ∃ mu', startMeans N L rm gm cov mu = some mu' ∧ Holds2 N L (fun i d => M d + rm i d * Real.sqrt (V d)) mu' := by
  obtain ⟨f, hm⟩ := hm
  unfold startMeans
  refine hm.fillAll _ _ ?_
  intro i d M' hi hd _
  have := hc.rd hd hd
  simp only [if_pos] at this
  rw [bind_ok (hg.2 d hd), bind_ok this]

/-- **C33** `hmm_init` on at least two observations, whatever the random numbers in [0, 1] and whatever the fresh memory holds: the start model has
positive probabilities that sum to one, the covariance is diagonal with the sample variances, and the means lie within a
quarter of a standard deviation of the sample mean. -/
theorem C33_hmm_init (rm : Nat → Nat → ℝ) (r0 : Nat → ℝ) (r : Nat → Nat → ℝ) (hrm : ∀ i d, |rm i d| ≤ 1 / 4) (hr0 : ∀ i, 0 ≤ r0 i) (hr : ∀ i j, 0 ≤ r i j)
    (hT : 2 ≤ T) (hN : 0 < N) (hx : Holds2 T L Xx x) (hp : p0.length = N) (ha : ∃ f, Holds2 N N f a) (hm : ∃ f, Holds2 N L f mu)
    (hc : ∃ f, Holds2 L L f cov) (hg : gm.length = L) :
    ∃ m Mu, hmmInit N T L x rm r0 r p0 a mu cov gm = some m ∧ Proper N L m ∧
      Holds2 L L (fun d e => if d = e then varOf T Xx d else 0) m.cov ∧ Holds2 N L Mu m.mu ∧
      ∀ i d, |Mu i d - meanOf T Xx d| ≤ Real.sqrt (varOf T Xx d) / 4 := by
  obtain ⟨gm', g1, g2⟩ := globalMean_ok (by omega) hx hg
  obtain ⟨cov', c1, c2⟩ := globalCov_ok hT hx g2 hc
  obtain ⟨mu', m1, m2⟩ := startMeans_ok rm g2 c2 hm
  obtain ⟨p', a', P, A, e1, e2, e3, e4, e5, e6, e7⟩ := C33_init r0 r hr0 hr hN hp ha
  refine ⟨⟨p', a', mu', cov'⟩, _, ?_, ⟨P, A, _, _, e2, e3, m2, c2, e4, e5, e6, e7⟩, c2, m2, ?_⟩
  · unfold hmmInit
    rw [bind_ok g1, bind_ok c1, bind_ok m1, bind_ok e1]
    rfl
  · intro i d
    rw [add_sub_cancel_left, abs_mul, abs_of_nonneg (Real.sqrt_nonneg _)]
    have := mul_le_mul_of_nonneg_right (hrm i d) (Real.sqrt_nonneg (varOf T Xx d))
    linarith

theorem logObservations_ok {icov : List (List ℝ)} {ic Mu : Nat → Nat → ℝ} {det : ℝ} {bb : List (List ℝ)} {gy gz : List ℝ} (hx : Holds2 T L Xx x)
    (hm : Holds2 N L Mu mu) (hi : Holds2 L L ic icov) (hy : gy.length = L) (hz : gz.length = L) (hd : 0 < det) (hb : ∃ f, Holds2 T N f bb) :
    ∃ b', logObservations N T L x mu icov det bb gy gz = some b' ∧ Holds2 T N (fun t i => logDensity L (Xx t) (Mu i) ic det) b' := by
  obtain ⟨f, hb⟩ := hb
  unfold logObservations
  refine hb.fillAll (fun t i => logDensity L (Xx t) (Mu i) ic det) _ ?_
  intro t i M ht hii _
  obtain ⟨xt, h1, h2⟩ := hx.2 t ht
  obtain ⟨m, h3, h4⟩ := hm.2 i hii
  rw [bind_ok h1, bind_ok h3, bind_ok (C34_gauss h2 h4 hi hy hz hd).1]

/-- Sizes of the arrays of `viterbi_decode`. -/
structure VSizes (N T L : Nat) (w : VWork) : Prop where
  logb : ∃ f, Holds2 T N f w.logb
  phi : ∃ f, Holds2 T N f w.phi
  psi : ∃ f, Holds2 T N f w.psi
  gy : w.gy.length = L
  gz : w.gz.length = L

/-- **C34** `viterbi_decode` of a proper model: the decoded states maximise, over all sequences of states, the probability of the sequence and the observations, where
the observation densities are the Gaussians of the states; every decoded value is a state. -/
theorem C34_viterbi_decode (inv : List (List ℝ) → List (List ℝ) × ℝ) (hT : 0 < T) (hN : 0 < N) (hx : Holds2 T L Xx x)
    (hinv : ∀ m, (∃ C, Holds2 L L C m) → (∃ D, Holds2 L L D (inv m).1) ∧ 0 < (inv m).2) (m : Params) (hm : Proper N L m) (w : VWork) (hw : VSizes N T L w)
    (q : List Nat) (hq : q.length = T) :
    ∃ (q' : List Nat) (best : Fin T → Fin N) (P : Nat → ℝ) (A Mu ic : Nat → Nat → ℝ), viterbiDecode inv N T L x m w q = some q' ∧ q'.length = T ∧
      (∀ t : Fin T, q'[t.1]? = some (best t).1) ∧
      Holds N P m.p0 ∧ Holds2 N N A m.a ∧ Holds2 N L Mu m.mu ∧ Holds2 L L ic (inv m.cov).1 ∧
      ∀ other : Fin T → Fin N, pathProb P A (fun t i => Real.exp (logDensity L (Xx t) (Mu i) ic (inv m.cov).2)) other ≤
        pathProb P A (fun t i => Real.exp (logDensity L (Xx t) (Mu i) ic (inv m.cov).2)) best := by
  obtain ⟨P, A, Mu, C, h1, h2, h3, h4, h5, h6, h7, h8⟩ := hm
  obtain ⟨⟨D, hD⟩, hdet⟩ := hinv m.cov ⟨C, h4⟩
  obtain ⟨lb, l1, l2⟩ := logObservations_ok hx h3 hD hw.gy hw.gz hdet hw.logb
  obtain ⟨q', best, v1, v2, v3, v4⟩ := C34_optimal (q := q) hN hT h1 h2 l2 hw.phi hw.psi hq (fun i hi => (h5 i hi).le) (fun i j hi hj => (h6 i j hi hj).le)
  refine ⟨q', best, P, A, Mu, D, ?_, v2, v3, h1, h2, h3, hD, v4⟩
  unfold viterbiDecode
  rw [bind_ok l1]
  exact v1

/-- **C33** With one observation `hmm_init` divides by zero. -/
theorem C33_hmm_init_one (rm : Nat → Nat → ℝ) (r0 : Nat → ℝ) (r : Nat → Nat → ℝ) (hL : 0 < L) :
    hmmInit N 1 L x rm r0 r p0 a mu cov gm = none := by
  have key : ∀ gm', globalCov 1 L x gm' cov = none := by
    intro gm'
    unfold globalCov
    refine loop_none_of_le (m := 1) hL ?_
    rw [loop, loop]
    cases h1 : loop L (fun e (cov : List (List ℝ)) => wr2 cov 0 e 0) cov with
    | none => simp [h1]
    | some c =>
      cases h2 : gm'[0]? with
      | none => simp [h1, h2]
      | some m => cases h3 : scatter 1 x m 0 <;> simp [h1, h2, h3]
  unfold hmmInit
  cases h : globalMean 1 L x gm with
  | none => rfl
  | some g => rw [bind_ok rfl, key]; rfl

/-- Three observations of one number, two states, arrays with arbitrary contents. -/
example : ∃ m Mu, hmmInit 2 3 1 [[1], [2], [6]] (fun _ _ => 1 / 8) (fun i => i) (fun i j => i + j) [7, 7] [[7, 7], [7, 7]] [[5], [5]] [[4]] [3] = some m ∧
    Proper 2 1 m ∧ Holds2 1 1 (fun d e => if d = e then varOf 3 (fun i j => ([[1], [2], [6]].getD i []).getD j 0) d else 0) m.cov ∧ Holds2 2 1 Mu m.mu ∧
    ∀ i d, |Mu i d - meanOf 3 (fun i j => ([[1], [2], [6]].getD i []).getD j 0) d| ≤
      Real.sqrt (varOf 3 (fun i j => ([[1], [2], [6]].getD i []).getD j 0) d) / 4 :=
  C33_hmm_init _ _ _ (fun _ _ => by norm_num [abs_of_pos]) (fun _ => by positivity) (fun _ _ => by positivity) (by norm_num) (by norm_num)
    (holds2_of rfl (by simp) 0) rfl ⟨_, holds2_of rfl (by simp) 0⟩ ⟨_, holds2_of rfl (by simp) 0⟩ ⟨_, holds2_of rfl (by simp) 0⟩ rfl

example : ∃ q', viterbiDecode (fun _ => ([[1 / 2]], 2)) 2 3 1 [[1], [2], [6]] ⟨[1 / 4, 3 / 4], [[1 / 2, 1 / 2], [1 / 4, 3 / 4]], [[1], [6]], [[2]]⟩
    ⟨[[9, 9], [9, 9], [9, 9]], [[⊥, ⊥], [⊥, ⊥], [⊥, ⊥]], [[8, 8], [8, 8], [8, 8]], [7], [7]⟩ [5, 5, 5] = some q' ∧ q'.length = 3 := by
  have hp : Proper 2 1 ⟨[1 / 4, 3 / 4], [[1 / 2, 1 / 2], [1 / 4, 3 / 4]], [[1], [6]], [[2]]⟩ := by
    refine ⟨_, _, _, _, holds_of_length rfl 0, holds2_of rfl (by simp) 0, holds2_of rfl (by simp) 0, holds2_of rfl (by simp) 0, ?_, ?_, ?_, ?_⟩
    · intro i hi
      match i, hi with
      | 0, _ => simp
      | 1, _ => simp
    · intro i j hi hj
      match i, j, hi, hj with
      | 0, 0, _, _ => simp
      | 0, 1, _, _ => simp
      | 1, 0, _, _ => simp
      | 1, 1, _, _ => simp
    · norm_num [Finset.sum_range_succ]
    · intro i hi
      match i, hi with
      | 0, _ => norm_num [Finset.sum_range_succ]
      | 1, _ => norm_num [Finset.sum_range_succ]
  obtain ⟨q', _, _, _, _, _, h1, h2, _⟩ := C34_viterbi_decode (fun _ => ([[1 / 2]], 2)) (T := 3) (N := 2) (L := 1) (by norm_num) (by norm_num)
    (holds2_of (M := [[1], [2], [6]]) rfl (by simp) 0) (fun _ _ => ⟨⟨_, holds2_of rfl (by simp) 0⟩, by norm_num⟩) _ hp
    ⟨[[9, 9], [9, 9], [9, 9]], [[⊥, ⊥], [⊥, ⊥], [⊥, ⊥]], [[8, 8], [8, 8], [8, 8]], [7], [7]⟩
    ⟨⟨_, holds2_of rfl (by simp) 0⟩, ⟨_, holds2_of rfl (by simp) 0⟩, ⟨_, holds2_of rfl (by simp) 0⟩, rfl, rfl⟩ [5, 5, 5] rfl
  exact ⟨q', h1, h2⟩

end QM.Hmm
