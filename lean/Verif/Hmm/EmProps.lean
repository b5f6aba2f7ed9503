import Verif.Hmm.Em
import Verif.Hmm.InitProps

/-!
# C79: training a hidden Markov model never makes it worse
-/

namespace QM.Hmm

open Finset

variable {N T L : Nat} {x : List (List ℝ)} {X : Nat → Nat → ℝ}

/-- The model holds these initial and transition probabilities, means and covariance; the probabilities are positive and sum to one, and
the covariance is positive definite. -/
structure Sound (N L : Nat) (m : Params) (P : Nat → ℝ) (A Mu C : Nat → Nat → ℝ) : Prop where
  p0 : Holds N P m.p0
  a : Holds2 N N A m.a
  mu : Holds2 N L Mu m.mu
  cov : Holds2 L L C m.cov
  p_pos : ∀ i, i < N → 0 < P i
  a_pos : ∀ i j, i < N → j < N → 0 < A i j
  p_sum : ∑ i ∈ range N, P i = 1
  a_sum : ∀ i, i < N → ∑ j ∈ range N, A i j = 1
  pd : (mat L C).PosDef

/-- The likelihood of the observations: the sum over all paths of the probability of the path and the Gaussian densities along it. -/
noncomputable def dataLikelihood (N T L : Nat) (X : Nat → Nat → ℝ) (P : Nat → ℝ) (A Mu C : Nat → Nat → ℝ) : ℝ :=
  likelihood N T P A (fun t i => gaussDensity L C (Mu i) (X t))

/-- `inv` inverts positive definite matrices and gives their determinant. -/
def Inverts (L : Nat) (inv : List (List ℝ) → List (List ℝ) × ℝ) : Prop :=
  ∀ m C, Holds2 L L C m → (mat L C).PosDef → (∃ D, Holds2 L L D (inv m).1 ∧ mat L D = (mat L C)⁻¹) ∧ (inv m).2 = (mat L C).det

/-- **C79** One iteration, whatever is in the work arrays: everything in it is defined, the new model is sound and the likelihood of the
observations has not fallen. -/
theorem C79_iteration {inv : List (List ℝ) → List (List ℝ) × ℝ} (hinv : Inverts L inv) (hT : 2 ≤ T) (hN : 0 < N) (hx : Holds2 T L X x)
    (hX : Spread T L X) {w : Work} (hw : WorkSizes N T L w) {m : Params} {P : Nat → ℝ} {A Mu C : Nat → Nat → ℝ} (hm : Sound N L m P A Mu C) :
    ∃ b xi gamma al0 c0 l0 p' a' mu' mu'' cov', observations N T L x m.mu (inv m.cov).1 (inv m.cov).2 w.b w.gy w.gz = some b ∧
      forwardBackwards rlog N T m.p0 m.a b w.xi w.gamma w.alpha w.beta w.c = some (xi, gamma, Real.log (dataLikelihood N T L X P A Mu C)) ∧
      forward rlog N 1 m.p0 m.a b w.alpha w.c = some (al0, c0, l0) ∧
      baumWelch N T L m.p0 m.a m.mu m.cov x xi gamma w.sg w.u w.yy w.yy2 = some (p', a', mu', cov') ∧ allSome mu' = some mu'' ∧
      ∃ P' A' Mu' C', Sound N L ⟨p', a', mu'', cov'⟩ P' A' Mu' C' ∧
        dataLikelihood N T L X P A Mu C ≤ dataLikelihood N T L X P' A' Mu' C' := by
  have hT0 : 0 < T := by omega
  obtain ⟨⟨D, hD, hDi⟩, hdet⟩ := hinv m.cov C hm.cov hm.pd
  have hdpos : 0 < (inv m.cov).2 := by
    rw [hdet]
    exact hm.pd.det_pos
  obtain ⟨b, e1, e2⟩ := observations_ok hx hm.mu hD hw.h_gy hw.h_gz hdpos hw.h_b
  simp only [density_eq hm.pd hDi hdet] at e2
  have hpos : Positive N T P A (fun t i => gaussDensity L C (Mu i) (X t)) := ⟨hm.p_pos, hm.a_pos, fun _ _ _ _ => gaussDensity_pos hm.pd _ _⟩
  have hle := fun B' h1 h2 => likelihood_le (B' := B') hT hN hpos hm.p_sum hm.a_sum h1 h2
  have hgs : (mat L (newCov N T (statePosterior N T P A (fun t i => gaussDensity L C (Mu i) (X t))) X Mu)).PosDef →
      ∑ t ∈ range T, ∑ j ∈ range N, statePosterior N T P A (fun t i => gaussDensity L C (Mu i) (X t)) t j * Real.log (gaussDensity L C (Mu j) (X t)) ≤ _ :=
    fun h => gauss_step (N := N) hT0 hm.pd h (fun t j ht hj => statePosterior_pos hpos hT0 ht hj)
      (C32_distributions hT0 hpos.nonneg (likelihood_pos hpos hT0 hN)).2.1
  unfold dataLikelihood
  generalize hB : (fun t i => gaussDensity L C (Mu i) (X t)) = B at e2 hpos hle hgs ⊢
  have hBt : ∀ t j, Real.log (gaussDensity L C (Mu j) (X t)) = Real.log (B t j) := fun t j => by rw [← hB]
  simp only [hBt] at hgs hle
  have hL := likelihood_pos hpos hT0 hN
  obtain ⟨xi', ga', f1, f2, _, f3⟩ := C32_posteriors hT0 ⟨hm.p0, hm.a, e2, hw.h_xi, hw.h_xi2, hw.h_gamma, hw.h_alpha, hw.h_beta, hw.h_c⟩ hpos.nonneg hL
  obtain ⟨fa, ha⟩ := hw.h_alpha
  obtain ⟨fc, hc⟩ := hw.h_c
  obtain ⟨al0, c0, g1, _, _⟩ := forward_prefix (m := 0) hT0 hm.p0 hm.a e2 ha hc (fun t ht => by
    rw [likelihood_eq hT0] at hL
    exact S_pos hpos.nonneg hL t (by omega))
  obtain ⟨p', a', mu', cov', b1, b2, b3, b4, b5⟩ := baumWelch_ok hT0 hm.p0.1 ⟨A, hm.a⟩ hm.mu ⟨C, hm.cov⟩ hx f3 f2 hw.h_sg hw.h_u hw.h_yy hw.h_yy2
  have hs : ∀ j, j < N → ∑ t ∈ range T, statePosterior N T P A B t j ≠ 0 := fun j hj =>
    ne_of_gt (sum_pos (fun t ht => statePosterior_pos hpos hT0 (mem_range.mp ht) hj) ⟨0, mem_range.mpr hT0⟩)
  have hocc : ∀ j, j < N → 0 < ∑ t ∈ range (T - 1), statePosterior N T P A B t j := fun j hj =>
    sum_pos (fun t ht => statePosterior_pos hpos hT0 (by have := mem_range.mp ht; omega) hj) ⟨0, mem_range.mpr (by omega)⟩
  obtain ⟨mu2, q1, q2⟩ := allSome_ok (f := fun j d => (∑ t ∈ range T, statePosterior N T P A B t j * X t d) / ∑ t ∈ range T, statePosterior N T P A B t j)
    (b4.congr fun j d hj _ => by unfold newMu; rw [if_neg (hs j hj)])
  obtain ⟨d1, d2, _⟩ := C32_distributions hT0 hpos.nonneg hL
  have hpd := newCov_posDef hT0 hN Mu (fun t j ht hj => statePosterior_pos hpos hT0 ht hj) hX
  refine ⟨b, xi', ga', al0, c0, _, p', a', mu', mu2, cov', e1, f1, g1, b1, q1, _, _, _, _, ⟨b2, b3, q2, b5, fun i hi => statePosterior_pos hpos hT0 hT0 hi,
    fun i j hi hj => ?_, d2 0 hT0, fun i hi => ?_, hpd⟩, ?_⟩
  · unfold newA
    rw [if_neg (hocc i hi).ne']
    exact div_pos (sum_pos (fun t ht => stepPosterior_pos hpos hT0 (by have := mem_range.mp ht; omega) hi hj) ⟨0, mem_range.mpr (by omega)⟩) (hocc i hi)
  · rw [newA_eq hT0 hpos.nonneg hL hi]
    exact if_neg (hocc i hi).ne'
  · exact hle _ (fun t i _ _ => gaussDensity_pos hpd _ _) (hgs hpd)

theorem trainLoop_em {inv : List (List ℝ) → List (List ℝ) × ℝ} (hinv : Inverts L inv) (hT : 2 ≤ T) (hN : 0 < N) (hx : Holds2 T L X x)
    (hX : Spread T L X) {work : Nat → Work} (hw : ∀ i, WorkSizes N T L (work i)) (fuel iter : Nat) (l l1 l2 : ℝ) {m : Params} {P : Nat → ℝ}
    {A Mu C : Nat → Nat → ℝ} (hm : Sound N L m P A Mu C) :
    ∃ m' P' A' Mu' C', trainLoop inv N T L x work fuel iter l l1 l2 m = some m' ∧ Sound N L m' P' A' Mu' C' ∧
      dataLikelihood N T L X P A Mu C ≤ dataLikelihood N T L X P' A' Mu' C' := by
  induction fuel generalizing iter l l1 l2 m P A Mu C with
  | zero => exact ⟨m, _, _, _, _, rfl, hm, le_refl _⟩
  | succ fuel ih =>
    unfold trainLoop
    split
    · exact ⟨m, _, _, _, _, rfl, hm, le_refl _⟩
    · obtain ⟨b, xi, gamma, al0, c0, l0, p', a', mu', mu'', cov', e1, e2, e3, e4, e5, P', A', Mu', C', hs, hle⟩ :=
        C79_iteration hinv hT hN hx hX (hw (iter + 1)) hm
      obtain ⟨m', P2, A2, Mu2, C2, r1, r2, r3⟩ := ih (iter + 1) (Real.log (dataLikelihood N T L X P A Mu C)) l (if iter + 1 = 2 then l0 else l2) hs
      refine ⟨m', P2, A2, Mu2, C2, ?_, r2, hle.trans r3⟩
      dsimp only
      rw [bind_ok e1, bind_ok e2]
      dsimp only
      rw [bind_ok e3]
      dsimp only
      rw [bind_ok e4]
      dsimp only
      rw [bind_ok e5]
      exact r1

/-- **C79** Training, for every set of observations that do not all agree in some direction and every sound start model: it is defined
throughout and ends with a sound model under which the observations are at least as likely as under the start model. -/
theorem C79_training {inv : List (List ℝ) → List (List ℝ) × ℝ} (hinv : Inverts L inv) (hT : 2 ≤ T) (hN : 0 < N) (hx : Holds2 T L X x)
    (hX : Spread T L X) {work : Nat → Work} (hw : ∀ i, WorkSizes N T L (work i)) (l l1 l2 : ℝ) {m : Params} {P : Nat → ℝ}
    {A Mu C : Nat → Nat → ℝ} (hm : Sound N L m P A Mu C) :
    ∃ m' P' A' Mu' C', hmmTrain inv N T L x work l l1 l2 m = some m' ∧ Sound N L m' P' A' Mu' C' ∧
      dataLikelihood N T L X P A Mu C ≤ dataLikelihood N T L X P' A' Mu' C' :=
  trainLoop_em hinv hT hN hx hX hw 50 0 l l1 l2 hm

theorem varOf_pos (hT : 2 ≤ T) (hX : Spread T L X) {d : Nat} (hd : d < L) : 0 < varOf T X d := by
  have hT' : (0 : ℝ) < (T : ℝ) - 1 := by
    have : (2 : ℝ) ≤ T := by exact_mod_cast hT
    linarith
  refine div_pos ?_ hT'
  by_contra hc
  have h0 : ∑ t ∈ range T, (X t d - meanOf T X d) ^ 2 = 0 := le_antisymm (not_lt.mp hc) (sum_nonneg fun t _ => sq_nonneg _)
  have hz : ∀ t, t < T → X t d = meanOf T X d := fun t ht => by
    have := (sum_eq_zero_iff_of_nonneg (fun t _ => sq_nonneg _)).mp h0 t (mem_range.mpr ht)
    have := pow_eq_zero_iff (two_ne_zero) |>.mp this
    linarith
  obtain ⟨a, b, ha, hb, hab⟩ := hX (fun e => if e = d then 1 else 0) ⟨d, hd, by simp⟩
  apply hab
  simp only [ite_mul, one_mul, zero_mul, sum_ite_eq', mem_range, hd, if_true]
  rw [hz a ha, hz b hb]

/-- **C79** `hmm_init` and `hmm_train` together, for every set of observations that do not all agree in some direction, every number of
states, all random numbers and whatever is in the memory: the result is a sound model under which the observations are at least as likely as
under the model that `hmm_init` made. -/
theorem C79_init_train {inv : List (List ℝ) → List (List ℝ) × ℝ} (hinv : Inverts L inv) (hT : 2 ≤ T) (hN : 0 < N) (hx : Holds2 T L X x)
    (hX : Spread T L X) (rm : Nat → Nat → ℝ) (r0 : Nat → ℝ) (r : Nat → Nat → ℝ) (hr0 : ∀ i, 0 ≤ r0 i) (hr : ∀ i j, 0 ≤ r i j)
    {p0 gm : List ℝ} {a mu cov : List (List ℝ)} (hp : p0.length = N) (ha : ∃ f, Holds2 N N f a) (hmu : ∃ f, Holds2 N L f mu) (hc : ∃ f, Holds2 L L f cov)
    (hg : gm.length = L) {work : Nat → Work} (hw : ∀ i, WorkSizes N T L (work i)) (l l1 l2 : ℝ) :
    ∃ m P A Mu C m' P' A' Mu' C', hmmInit N T L x rm r0 r p0 a mu cov gm = some m ∧ Sound N L m P A Mu C ∧
      hmmTrain inv N T L x work l l1 l2 m = some m' ∧ Sound N L m' P' A' Mu' C' ∧
      dataLikelihood N T L X P A Mu C ≤ dataLikelihood N T L X P' A' Mu' C' := by
  obtain ⟨gm', g1, g2⟩ := globalMean_ok (by omega) hx hg
  obtain ⟨cov', c1, c2⟩ := globalCov_ok hT hx g2 hc
  obtain ⟨mu', m1, m2⟩ := startMeans_ok rm g2 c2 hmu
  obtain ⟨p', a', P, A, e1, e2, e3, e4, e5, e6, e7⟩ := C33_init r0 r hr0 hr hN hp ha
  have hpd : (mat L (fun d e => if d = e then varOf T X d else 0)).PosDef := by
    have : mat L (fun d e => if d = e then varOf T X d else 0) = Matrix.diagonal (fun i : Fin L => varOf T X i) := by
      ext i j
      simp [mat, Matrix.diagonal_apply, Fin.ext_iff]
    rw [this, Matrix.posDef_diagonal_iff]
    exact fun i => varOf_pos hT hX i.2
  have hs : Sound N L ⟨p', a', mu', cov'⟩ P A _ _ := ⟨e2, e3, m2, c2, e4, e5, e6, e7, hpd⟩
  obtain ⟨m', P', A', Mu', C', t1, t2, t3⟩ := C79_training hinv hT hN hx hX hw l l1 l2 hs
  refine ⟨_, P, A, _, _, m', P', A', Mu', C', ?_, hs, t1, t2, t3⟩
  unfold hmmInit
  rw [bind_ok g1, bind_ok c1, bind_ok m1, bind_ok e1]
  rfl

end QM.Hmm
