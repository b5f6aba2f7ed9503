import Verif.Hmm.Train
import Verif.Lapack.Cols
import Mathlib.Tactic.Positivity
import Mathlib.Tactic.IntervalCases

namespace QM.Hmm

variable {N T L : Nat} {p0 sg u yy yy2 c gy gz : List ℝ} {a mu cov x gamma b alpha beta : List (List ℝ)} {xi : List (List (List ℝ))}
  {P : Nat → ℝ} {A B Xx Mu : Nat → Nat → ℝ}

/-- The expected number of visits to state `i` before the last observation. -/
noncomputable def occupancy (N T : Nat) (P : Nat → ℝ) (A B : Nat → Nat → ℝ) (i : Nat) : ℝ := ∑ t ∈ Finset.range (T - 1), statePosterior N T P A B t i

/-- `v` gives a probability distribution on `N` states. -/
def Distribution (N : Nat) (v : Nat → ℝ) : Prop := (∀ i, i < N → 0 ≤ v i) ∧ ∑ i ∈ Finset.range N, v i = 1

/-- The arrays of a re-estimation have the documented sizes. -/
structure ReSizes (N T L : Nat) (p0 : List ℝ) (a mu cov x : List (List ℝ)) (sg u yy yy2 : List ℝ) (Mu Xx : Nat → Nat → ℝ) : Prop where
  h_p0 : p0.length = N
  h_a : ∃ f, Holds2 N N f a
  h_mu : Holds2 N L Mu mu
  h_cov : ∃ f, Holds2 L L f cov
  h_x : Holds2 T L Xx x
  h_sg : sg.length = N
  h_u : u.length = L * L
  h_yy : yy.length = L * T
  h_yy2 : yy2.length = L * T

theorem newA_eq (hT : 0 < T) (hn : Nonneg N T P A B) (hL : 0 < likelihood N T P A B) {i : Nat} (hi : i < N) :
    ∑ j ∈ Finset.range N, newA T (statePosterior N T P A B) (stepPosterior N T P A B) i j = if occupancy N T P A B i = 0 then 0 else 1 := by
  obtain ⟨_, _, _, h4, _⟩ := C32_distributions hT hn hL
  unfold newA occupancy
  by_cases h0 : ∑ t ∈ Finset.range (T - 1), statePosterior N T P A B t i = 0
  · simp [h0]
  · simp only [if_neg h0]
    rw [← Finset.sum_div, Finset.sum_comm, Finset.sum_congr rfl (fun t ht => h4 t i (by have := Finset.mem_range.mp ht; omega) hi), div_self h0]

theorem newA_nonneg (hT : 0 < T) (hn : Nonneg N T P A B) (hL : 0 < likelihood N T P A B) {i j : Nat} (hi : i < N) (hj : j < N) :
    0 ≤ newA T (statePosterior N T P A B) (stepPosterior N T P A B) i j := by
  obtain ⟨h1, _, h3, _, _⟩ := C32_distributions hT hn hL
  unfold newA
  split
  · exact le_refl _
  · exact div_nonneg (Finset.sum_nonneg fun t ht => h3 t i j (by have := Finset.mem_range.mp ht; omega) hi hj)
      (Finset.sum_nonneg fun t ht => h1 t i (by have := Finset.mem_range.mp ht; omega) hi)

/-- C33. A re-estimation step after forward-backward: the initial probabilities are a distribution, the transition probabilities from every
state that is visited before the end are a distribution, and the others are zero. -/
theorem C33_stochastic (hT : 0 < T) (hs : Sizes N T p0 a b xi gamma alpha beta c P A B) (hn : Nonneg N T P A B) (hL : 0 < likelihood N T P A B)
    (hr : ReSizes N T L p0 a mu cov x sg u yy yy2 Mu Xx) :
    ∃ xi' gamma' ll p' a' mu' cov' P' A', forwardBackwards rlog N T p0 a b xi gamma alpha beta c = some (xi', gamma', ll) ∧
      baumWelch N T L p0 a mu cov x xi' gamma' sg u yy yy2 = some (p', a', mu', cov') ∧
      Holds N P' p' ∧ Holds2 N N A' a' ∧ Distribution N P' ∧
      (∀ i, i < N → occupancy N T P A B i ≠ 0 → Distribution N (A' i)) ∧
      (∀ i j, i < N → j < N → occupancy N T P A B i = 0 → A' i j = 0) := by
  obtain ⟨xi', ga', h1, h2, _, h3⟩ := C32_posteriors hT hs hn hL
  obtain ⟨p', a', mu', cov', h4, h5, h6, h7, h8⟩ := baumWelch_ok hT hr.h_p0 hr.h_a hr.h_mu hr.h_cov hr.h_x h3 h2 hr.h_sg hr.h_u hr.h_yy hr.h_yy2
  obtain ⟨d1, d2, _⟩ := C32_distributions hT hn hL
  refine ⟨xi', ga', _, p', a', mu', cov', _, _, h1, h4, h5, h6, ⟨fun i hi => d1 0 i hT hi, d2 0 hT⟩, fun i hi h0 => ⟨fun j hj => newA_nonneg hT hn hL hi hj, ?_⟩,
    fun i j hi hj h0 => ?_⟩
  · rw [newA_eq hT hn hL hi, if_neg h0]
  · exact if_pos h0

/-- C33. The new means are the means of the data weighted with the posteriors; the mean of a state that is never visited is not a number,
while the transition probabilities guard against it. -/
theorem C33_means (hT : 0 < T) (hs : Sizes N T p0 a b xi gamma alpha beta c P A B) (hn : Nonneg N T P A B) (hL : 0 < likelihood N T P A B)
    (hr : ReSizes N T L p0 a mu cov x sg u yy yy2 Mu Xx) :
    ∃ xi' gamma' ll p' a' mu' cov', forwardBackwards rlog N T p0 a b xi gamma alpha beta c = some (xi', gamma', ll) ∧
      baumWelch N T L p0 a mu cov x xi' gamma' sg u yy yy2 = some (p', a', mu', cov') ∧
      Holds2 N L (fun j d => if ∑ t ∈ Finset.range T, statePosterior N T P A B t j = 0 then none else
        some ((∑ t ∈ Finset.range T, statePosterior N T P A B t j * Xx t d) / ∑ t ∈ Finset.range T, statePosterior N T P A B t j)) mu' := by
  obtain ⟨xi', ga', h1, h2, _, h3⟩ := C32_posteriors hT hs hn hL
  obtain ⟨p', a', mu', cov', h4, h5, h6, h7, h8⟩ := baumWelch_ok hT hr.h_p0 hr.h_a hr.h_mu hr.h_cov hr.h_x h3 h2 hr.h_sg hr.h_u hr.h_yy hr.h_yy2
  exact ⟨xi', ga', _, p', a', mu', cov', h1, h4, h7⟩

/-- C33. The new covariance is symmetric and positive semidefinite. -/
theorem C33_covariance (hT : 0 < T) (hs : Sizes N T p0 a b xi gamma alpha beta c P A B) (hn : Nonneg N T P A B) (hL : 0 < likelihood N T P A B)
    (hr : ReSizes N T L p0 a mu cov x sg u yy yy2 Mu Xx) :
    ∃ xi' gamma' ll p' a' mu' cov' C, forwardBackwards rlog N T p0 a b xi gamma alpha beta c = some (xi', gamma', ll) ∧
      baumWelch N T L p0 a mu cov x xi' gamma' sg u yy yy2 = some (p', a', mu', cov') ∧ Holds2 L L C cov' ∧
      (∀ d e, C d e = (∑ j ∈ Finset.range N, ∑ t ∈ Finset.range T, statePosterior N T P A B t j * (Xx t d - Mu j d) * (Xx t e - Mu j e)) / (T : ℝ)) ∧
      (∀ d e, C d e = C e d) ∧ ∀ v : Nat → ℝ, 0 ≤ ∑ d ∈ Finset.range L, ∑ e ∈ Finset.range L, v d * C d e * v e := by
  obtain ⟨xi', ga', h1, h2, _, h3⟩ := C32_posteriors hT hs hn hL
  obtain ⟨p', a', mu', cov', h4, h5, h6, h7, h8⟩ := baumWelch_ok hT hr.h_p0 hr.h_a hr.h_mu hr.h_cov hr.h_x h3 h2 hr.h_sg hr.h_u hr.h_yy hr.h_yy2
  obtain ⟨d1, _⟩ := C32_distributions hT hn hL
  have hval : ∀ d e, newCov N T (statePosterior N T P A B) Xx Mu d e
      = (∑ j ∈ Finset.range N, ∑ t ∈ Finset.range T, statePosterior N T P A B t j * (Xx t d - Mu j d) * (Xx t e - Mu j e)) / (T : ℝ) := by
    intro d e
    unfold newCov covTerm
    congr 1
    exact Finset.sum_congr rfl fun j _ => Finset.sum_congr rfl fun t _ => by ring
  refine ⟨xi', ga', _, p', a', mu', cov', _, h1, h4, h8, hval, fun d e => ?_, fun v => ?_⟩
  · rw [hval, hval]
    congr 1
    exact Finset.sum_congr rfl fun j _ => Finset.sum_congr rfl fun t _ => by ring
  · have : ∑ d ∈ Finset.range L, ∑ e ∈ Finset.range L, v d * newCov N T (statePosterior N T P A B) Xx Mu d e * v e
        = (∑ j ∈ Finset.range N, ∑ t ∈ Finset.range T, statePosterior N T P A B t j * (∑ d ∈ Finset.range L, v d * (Xx t d - Mu j d)) ^ 2) / (T : ℝ) := by
      simp only [hval]
      rw [Finset.sum_div]
      simp only [Finset.sum_div, Finset.mul_sum, Finset.sum_mul]
      have hsq : ∀ t j, (∑ d ∈ Finset.range L, v d * (Xx t d - Mu j d)) ^ 2
          = ∑ d ∈ Finset.range L, ∑ e ∈ Finset.range L, (v d * (Xx t d - Mu j d)) * (v e * (Xx t e - Mu j e)) :=
        fun t j => by rw [pow_two, Finset.sum_mul_sum]
      simp only [hsq, Finset.mul_sum, Finset.sum_div]
      rw [Finset.sum_congr rfl (fun d _ => Finset.sum_comm), Finset.sum_comm]
      refine Finset.sum_congr rfl fun j _ => ?_
      rw [Finset.sum_congr rfl (fun d _ => Finset.sum_comm), Finset.sum_comm]
      refine Finset.sum_congr rfl fun t _ => Finset.sum_congr rfl fun d _ => Finset.sum_congr rfl fun e _ => ?_
      ring
    rw [this]
    refine div_nonneg (Finset.sum_nonneg fun j hj => Finset.sum_nonneg fun t ht => ?_) (Nat.cast_nonneg _)
    exact mul_nonneg (d1 t j (Finset.mem_range.mp ht) (Finset.mem_range.mp hj)) (sq_nonneg _)

/-! ### Training -/

/-- All probabilities are positive. -/
structure Positive (N T : Nat) (P : Nat → ℝ) (A B : Nat → Nat → ℝ) : Prop where
  p0 : ∀ i, i < N → 0 < P i
  a : ∀ i j, i < N → j < N → 0 < A i j
  b : ∀ t i, t < T → i < N → 0 < B t i

theorem Positive.nonneg (h : Positive N T P A B) : Nonneg N T P A B :=
  ⟨fun i hi => (h.p0 i hi).le, fun i j hi hj => (h.a i j hi hj).le, fun t i ht hi => (h.b t i ht hi).le⟩

theorem pathProb_pos (h : Positive N T P A B) (hT : 0 < T) (q : Fin T → Fin N) : 0 < pathProb P A B q :=
  mul_pos (mul_pos (h.p0 _ (at'_lt hT)) (Finset.prod_pos fun t ht => by
    have := Finset.mem_range.mp ht
    exact h.a _ _ (at'_lt (by omega)) (at'_lt (by omega))))
    (Finset.prod_pos fun t ht => h.b _ _ (Finset.mem_range.mp ht) (at'_lt (Finset.mem_range.mp ht)))

theorem likelihood_pos (h : Positive N T P A B) (hT : 0 < T) (hN : 0 < N) : 0 < likelihood N T P A B :=
  Finset.sum_pos (fun q _ => pathProb_pos h hT q) ⟨fun _ => ⟨0, hN⟩, Finset.mem_univ _⟩

theorem statePosterior_pos (h : Positive N T P A B) (hT : 0 < T) {t i : Nat} (ht : t < T) (hi : i < N) : 0 < statePosterior N T P A B t i := by
  refine div_pos (Finset.sum_pos' (fun q _ => mul_nonneg (pathProb_pos h hT q).le (by split <;> norm_num)) ⟨fun _ => ⟨i, hi⟩, Finset.mem_univ _, ?_⟩)
    (likelihood_pos h hT (by omega))
  rw [if_pos (by unfold at'; rw [dif_pos ht]), mul_one]
  exact pathProb_pos h hT _

theorem stepPosterior_pos (h : Positive N T P A B) (hT : 0 < T) {t i j : Nat} (ht : t + 1 < T) (hi : i < N) (hj : j < N) :
    0 < stepPosterior N T P A B t i j := by
  refine div_pos (Finset.sum_pos' (fun q _ => mul_nonneg (pathProb_pos h hT q).le (by split <;> norm_num))
    ⟨fun s => if s.1 ≤ t then ⟨i, hi⟩ else ⟨j, hj⟩, Finset.mem_univ _, ?_⟩) (likelihood_pos h hT (by omega))
  rw [if_pos (by
    unfold at'
    rw [dif_pos (by omega), dif_pos ht]
    simp), mul_one]
  exact pathProb_pos h hT _

/-- The log-density of a Gaussian with the given inverse covariance matrix and determinant. -/
noncomputable def logDensity (L : Nat) (xt m : Nat → ℝ) (ic : Nat → Nat → ℝ) (det : ℝ) : ℝ :=
  -(1 / 2) * ((∑ i ∈ Finset.range L, (∑ j ∈ Finset.range L, ic i j * (xt j - m j)) * (xt i - m i)) + (L : ℝ) * Real.log (2 * Real.pi) + Real.log det)

theorem ddot_eq (L : Nat) (x y : List ℝ) : ddot L x y = loop L (fun i s => dotAt x y i s) 0 := by
  unfold ddot
  by_cases hL : L = 0
  · subst hL; rfl
  rw [if_neg hL]
  dsimp only
  have h1 : L = L % 5 + 5 * ((L - L % 5) / 5) := by omega
  have h2 : loop L (fun i s => dotAt x y i s) 0 = (loop (L % 5) (fun i s => dotAt x y i s) 0).bind
      (loop (5 * ((L - L % 5) / 5)) fun i s => dotAt x y (L % 5 + i) s) := by
    conv_lhs => rw [h1]
    exact Lapack.loop_add _ _ _ _
  rw [h2]
  cases loop (L % 5) (fun i s => dotAt x y i s) 0 with
  | none => rfl
  | some s =>
    show (if L % 5 ≠ 0 ∧ L < 5 then some s else _) = loop _ _ s
    by_cases h3 : L % 5 ≠ 0 ∧ L < 5
    · rw [if_pos h3, show (L - L % 5) / 5 = 0 by omega]
      rfl
    · rw [if_neg h3, Lapack.loop_five]
      rfl

theorem ddot_ok {f g : Nat → ℝ} {v w : List ℝ} (hv : Holds L f v) (hw : Holds L g w) :
    ddot L v w = some (∑ i ∈ Finset.range L, f i * g i) := by
  rw [ddot_eq, loop_sum L _ (fun i => f i * g i) 0 (by
    intro i acc hi
    unfold dotAt
    rw [bind_ok (hv.2 i hi), bind_ok (hw.2 i hi)]
    rfl), zero_add]

theorem quad_ok {xt m : List ℝ} {icov : List (List ℝ)} {X M : Nat → ℝ} {ic : Nat → Nat → ℝ} (hx : Holds L X xt) (hm : Holds L M m)
    (hi : Holds2 L L ic icov) (hy : gy.length = L) (hz : gz.length = L) :
    quad xt L m icov gy gz = some (∑ i ∈ Finset.range L, (∑ j ∈ Finset.range L, ic i j * (X j - M j)) * (X i - M i)) := by
  obtain ⟨y, h1, h2⟩ := fill_part (L := L) (new := fun i => X i - M i) (holds_of_length hy 0) (f := fun i (y : List ℝ) => do
      let a ← xt[i]?
      let b ← m[i]?
      wr y i (a - b))
    (by
      intro i ys h _
      rw [bind_ok (hx.2 i h), bind_ok (hm.2 i h)])
  obtain ⟨z, h3, h4⟩ := fill_part (L := L) (new := fun i => ∑ j ∈ Finset.range L, ic i j * (X j - M j)) (holds_of_length hz 0) (f := fun i (z : List ℝ) => do
      let r ← icov[i]?
      let v ← ddot L r y
      wr z i v)
    (by
      intro i ys h _
      obtain ⟨r, hr, hr2⟩ := hi.2 i h
      rw [bind_ok hr, bind_ok (ddot_ok hr2 h2)])
  unfold quad
  rw [bind_ok h1, bind_ok h3]
  exact ddot_ok h4 h2

/-- C34. `loggauss` is the logarithm of the Gaussian density, and `gauss` its exponential. -/
theorem C34_gauss {xt m : List ℝ} {icov : List (List ℝ)} {X M : Nat → ℝ} {ic : Nat → Nat → ℝ} {det : ℝ} (hx : Holds L X xt) (hm : Holds L M m)
    (hi : Holds2 L L ic icov) (hy : gy.length = L) (hz : gz.length = L) (hd : 0 < det) :
    loggauss xt L m icov det gy gz = some (logDensity L X M ic det) ∧ gauss xt L m icov det gy gz = some (Real.exp (logDensity L X M ic det)) := by
  constructor
  · unfold loggauss
    rw [bind_ok (quad_ok hx hm hi hy hz), bind_ok (show rlog det = some (Real.log det) by unfold rlog; rw [if_pos hd])]
    rfl
  · unfold gauss
    rw [bind_ok (quad_ok hx hm hi hy hz), if_neg (not_le.mpr hd)]
    show some _ = some _
    congr 1
    unfold logDensity
    have hpi : (0 : ℝ) < 2 * Real.pi := by positivity
    rw [Real.rpow_def_of_pos hpi, Real.sqrt_eq_rpow, Real.rpow_def_of_pos hd, ← Real.exp_add, ← Real.exp_sub]
    congr 1
    ring

theorem observations_ok {icov : List (List ℝ)} {ic : Nat → Nat → ℝ} {det : ℝ} {bb : List (List ℝ)} (hx : Holds2 T L Xx x) (hm : Holds2 N L Mu mu)
    (hi : Holds2 L L ic icov) (hy : gy.length = L) (hz : gz.length = L) (hd : 0 < det) (hb : ∃ f, Holds2 T N f bb) :
    ∃ b', observations N T L x mu icov det bb gy gz = some b' ∧ Holds2 T N (fun t i => Real.exp (logDensity L (Xx t) (Mu i) ic det)) b' := by
  obtain ⟨f, hb⟩ := hb
  unfold observations
  refine hb.fillAll (fun t i => Real.exp (logDensity L (Xx t) (Mu i) ic det)) _ ?_
  intro t i M ht hii _
  obtain ⟨xt, h1, h2⟩ := hx.2 t ht
  obtain ⟨m, h3, h4⟩ := hm.2 i hii
  rw [bind_ok h1, bind_ok h3, bind_ok (C34_gauss h2 h4 hi hy hz hd).1]

theorem mapM_holds {β γ : Type} {n : Nat} {f : Nat → β} {xs : List β} (h : Holds n f xs) (F : β → Option γ) (g : Nat → γ)
    (hF : ∀ i, i < n → F (f i) = some (g i)) : ∃ ys, xs.mapM F = some ys ∧ Holds n g ys := by
  induction xs generalizing n f g with
  | nil =>
    obtain rfl : n = 0 := h.1.symm
    exact ⟨[], rfl, rfl, fun j hj => absurd hj (Nat.not_lt_zero j)⟩
  | cons y ys ih =>
    obtain ⟨n', rfl⟩ : ∃ n', n = n' + 1 := ⟨ys.length, h.1.symm⟩
    have h0 : y = f 0 := by have := h.2 0 (by omega); simpa using this
    obtain ⟨zs, e1, e2⟩ := ih (n := n') (f := fun i => f (i + 1)) ⟨by have := h.1; simp at this; exact this, fun j hj => by
      have := h.2 (j + 1) (by omega); simpa using this⟩ (fun i => g (i + 1)) (fun i hi => hF (i + 1) (by omega))
    refine ⟨g 0 :: zs, ?_, by simp [e2.1], fun j hj => ?_⟩
    · rw [List.mapM_cons, h0, bind_ok (hF 0 (by omega)), bind_ok e1]
      rfl
    · cases j with
      | zero => simp
      | succ j => simpa using e2.2 j (by omega)

theorem allSome_ok {n m : Nat} {f : Nat → Nat → ℝ} {M : List (List (Option ℝ))} (h : Holds2 n m (fun i j => some (f i j)) M) :
    ∃ M', allSome M = some M' ∧ Holds2 n m f M' := by
  have hr : Holds n (fun i => (M.getD i [])) M := holds_of_length h.1 []
  have hrow : ∀ i, i < n → ∃ r, (M.getD i []).mapM id = some r ∧ Holds m (f i) r := by
    intro i hi
    obtain ⟨r, h1, h2⟩ := h.2 i hi
    have : M.getD i [] = r := by simp [h1]
    rw [this]
    exact mapM_holds h2 id (f i) (fun _ _ => rfl)
  let g : Nat → List ℝ := fun i => if hi : i < n then (hrow i hi).choose else []
  obtain ⟨M', h1, h2⟩ := mapM_holds hr (fun r => r.mapM id) g (fun i hi => by
    show _ = some (if hi : i < n then (hrow i hi).choose else [])
    rw [dif_pos hi]
    exact (hrow i hi).choose_spec.1)
  refine ⟨M', h1, h2.1, fun i hi => ⟨g i, h2.2 i hi, ?_⟩⟩
  show Holds m (f i) (if hi : i < n then (hrow i hi).choose else [])
  rw [dif_pos hi]
  exact (hrow i hi).choose_spec.2

/-- The arrays of an iteration have the right sizes. -/
structure WorkSizes (N T L : Nat) (w : Work) : Prop where
  h_gamma : ∃ f, Holds2 T N f w.gamma
  h_xi : w.xi.length = T
  h_xi2 : ∀ t : Nat, t < T → ∃ m f, w.xi[t]? = some m ∧ Holds2 N N f m
  h_b : ∃ f, Holds2 T N f w.b
  h_gy : w.gy.length = L
  h_gz : w.gz.length = L
  h_alpha : ∃ f, Holds2 T N f w.alpha
  h_beta : ∃ f, Holds2 T N f w.beta
  h_c : ∃ f, Holds T f w.c
  h_sg : w.sg.length = N
  h_u : w.u.length = L * L
  h_yy : w.yy.length = L * T
  h_yy2 : w.yy2.length = L * T

/-- A model with positive probabilities that sum to one, as `hmm_init` makes them. -/
def Proper (N L : Nat) (m : Params) : Prop :=
  ∃ P A Mu C, Holds N P m.p0 ∧ Holds2 N N A m.a ∧ Holds2 N L Mu m.mu ∧ Holds2 L L C m.cov ∧
    (∀ i, i < N → 0 < P i) ∧ (∀ i j, i < N → j < N → 0 < A i j) ∧
    ∑ i ∈ Finset.range N, P i = 1 ∧ ∀ i, i < N → ∑ j ∈ Finset.range N, A i j = 1

theorem trainLoop_ok {inv : List (List ℝ) → List (List ℝ) × ℝ} {work : Nat → Work} (hT : 2 ≤ T) (hN : 0 < N) (hx : Holds2 T L Xx x)
    (hinv : ∀ m, (∃ C, Holds2 L L C m) → (∃ D, Holds2 L L D (inv m).1) ∧ 0 < (inv m).2) (hw : ∀ i, WorkSizes N T L (work i))
    (fuel iter : Nat) (l l1 l2 : ℝ) (m : Params) (hm : Proper N L m) :
    ∃ m', trainLoop inv N T L x work fuel iter l l1 l2 m = some m' ∧ Proper N L m' := by
  induction fuel generalizing iter l l1 l2 m with
  | zero => exact ⟨m, rfl, hm⟩
  | succ fuel ih =>
    unfold trainLoop
    split
    · exact ⟨m, rfl, hm⟩
    · obtain ⟨P, A, Mu, C, h1, h2, h3, h4, h5, h6, h7, h8⟩ := hm
      have hT0 : 0 < T := by omega
      have w := hw (iter + 1)
      obtain ⟨⟨D, hD⟩, hdet⟩ := hinv m.cov ⟨C, h4⟩
      obtain ⟨b, e1, e2⟩ := observations_ok hx h3 hD w.h_gy w.h_gz hdet w.h_b
      have hpos : Positive N T P A (fun t i => Real.exp (logDensity L (Xx t) (Mu i) D (inv m.cov).2)) := ⟨h5, h6, fun _ _ _ _ => Real.exp_pos _⟩
      generalize (fun t i => Real.exp (logDensity L (Xx t) (Mu i) D (inv m.cov).2)) = B at e2 hpos
      have hL := likelihood_pos hpos hT0 hN
      obtain ⟨xi', ga', f1, f2, _, f3⟩ := C32_posteriors hT0 ⟨h1, h2, e2, w.h_xi, w.h_xi2, w.h_gamma, w.h_alpha, w.h_beta, w.h_c⟩ hpos.nonneg hL
      obtain ⟨fa, ha⟩ := w.h_alpha
      obtain ⟨fc, hc⟩ := w.h_c
      obtain ⟨al0, c0, g1, _, _⟩ := forward_prefix (m := 0) hT0 h1 h2 e2 ha hc (fun t ht => by
        rw [likelihood_eq hT0] at hL
        exact S_pos hpos.nonneg hL t (by omega))
      obtain ⟨p', a', mu', cov', b1, b2, b3, b4, b5⟩ := baumWelch_ok hT0 h1.1 ⟨A, h2⟩ h3 ⟨C, h4⟩ hx f3 f2 w.h_sg w.h_u w.h_yy w.h_yy2
      have hs : ∀ j, j < N → ∑ t ∈ Finset.range T, statePosterior N T P A B t j ≠ 0 := fun j hj =>
        ne_of_gt (Finset.sum_pos (fun t ht => statePosterior_pos hpos hT0 (Finset.mem_range.mp ht) hj) ⟨0, Finset.mem_range.mpr hT0⟩)
      have hocc : ∀ j, j < N → ∑ t ∈ Finset.range (T - 1), statePosterior N T P A B t j ≠ 0 := fun j hj =>
        ne_of_gt (Finset.sum_pos (fun t ht => statePosterior_pos hpos hT0 (by have := Finset.mem_range.mp ht; omega) hj) ⟨0, Finset.mem_range.mpr (by omega)⟩)
      obtain ⟨mu2, q1, q2⟩ := allSome_ok (f := fun j d => (∑ t ∈ Finset.range T, statePosterior N T P A B t j * Xx t d) / ∑ t ∈ Finset.range T, statePosterior N T P A B t j)
        (b4.congr fun j d hj _ => by unfold newMu; rw [if_neg (hs j hj)])
      obtain ⟨d1, d2, _⟩ := C32_distributions hT0 hpos.nonneg hL
      obtain ⟨m', r1, r2⟩ := ih (iter + 1) (Real.log (likelihood N T P A B)) l (if iter + 1 = 2 then Real.log (S N P A B 0) else l2) ⟨p', a', mu2, cov'⟩
        ⟨_, _, _, _, b2, b3, q2, b5, fun i hi => statePosterior_pos hpos hT0 hT0 hi, fun i j hi hj => by
          unfold newA
          rw [if_neg (hocc i hi)]
          exact div_pos (Finset.sum_pos (fun t ht => stepPosterior_pos hpos hT0 (by have := Finset.mem_range.mp ht; omega) hi hj)
            ⟨0, Finset.mem_range.mpr (by omega)⟩) (lt_of_le_of_ne (Finset.sum_nonneg fun t ht => d1 t i (by have := Finset.mem_range.mp ht; omega) hi) (Ne.symm (hocc i hi))),
          d2 0 hT0, fun i hi => by rw [newA_eq hT0 hpos.nonneg hL hi]; exact if_neg (hocc i hi)⟩
      refine ⟨m', ?_, r2⟩
      dsimp only
      rw [bind_ok e1, bind_ok f1]
      dsimp only
      rw [bind_ok g1]
      dsimp only
      rw [bind_ok b1]
      dsimp only
      rw [bind_ok q1]
      exact r1

/-- C33. Training: for every data set of at least two observations, from every model with positive probabilities and for every matrix
inversion that gives a positive determinant, training never divides by zero or takes the logarithm of zero, stays inside its arrays, and
ends with a model whose initial and transition probabilities are positive and sum to one. -/
theorem C33_training {inv : List (List ℝ) → List (List ℝ) × ℝ} {work : Nat → Work} (hT : 2 ≤ T) (hN : 0 < N) (hx : Holds2 T L Xx x)
    (hinv : ∀ m, (∃ C, Holds2 L L C m) → (∃ D, Holds2 L L D (inv m).1) ∧ 0 < (inv m).2) (hw : ∀ i, WorkSizes N T L (work i))
    (l l1 l2 : ℝ) (m : Params) (hm : Proper N L m) :
    ∃ m', hmmTrain inv N T L x work l l1 l2 m = some m' ∧ Proper N L m' :=
  trainLoop_ok hT hN hx hinv hw 50 0 l l1 l2 m hm

theorem trainLoop_one (inv : List (List ℝ) → List (List ℝ) × ℝ) (N T L : Nat) (x : List (List ℝ)) (work : Nat → Work) (fuel : Nat)
    (l l1 l2 l1' l2' : ℝ) (m : Params) :
    trainLoop inv N T L x work (fuel + 1) 1 l l1 l2 m = trainLoop inv N T L x work (fuel + 1) 1 l l1' l2' m := by
  rw [trainLoop.eq_2, trainLoop.eq_2, if_neg (by simp), if_neg (by simp)]
  rfl

theorem trainLoop_zero (inv : List (List ℝ) → List (List ℝ) × ℝ) (N T L : Nat) (x : List (List ℝ)) (work : Nat → Work) (fuel : Nat)
    (l l1 l2 l' l1' l2' : ℝ) (m : Params) :
    trainLoop inv N T L x work (fuel + 2) 0 l l1 l2 m = trainLoop inv N T L x work (fuel + 2) 0 l' l1' l2' m := by
  rw [trainLoop.eq_2, trainLoop.eq_2, if_neg (by simp), if_neg (by simp)]
  refine congrArg (Option.bind _) (funext fun _ => congrArg (Option.bind _) (funext fun _ => congrArg (Option.bind _) (funext fun _ =>
    congrArg (Option.bind _) (funext fun _ => congrArg (Option.bind _) (funext fun _ => ?_)))))
  exact trainLoop_one inv N T L x work fuel _ _ _ _ _ _

/-- C33. The three log-likelihoods that `hmm_train` leaves uninitialised are never used: the result does not depend on them. -/
theorem C33_uninitialised (inv : List (List ℝ) → List (List ℝ) × ℝ) (N T L : Nat) (x : List (List ℝ)) (work : Nat → Work)
    (l l1 l2 l' l1' l2' : ℝ) (m : Params) : hmmTrain inv N T L x work l l1 l2 m = hmmTrain inv N T L x work l' l1' l2' m := by
  exact trainLoop_zero inv N T L x work 48 l l1 l2 l' l1' l2' m

/-- C33. `hmm_init` gives positive initial and transition probabilities that sum to one, whatever the random numbers. -/
theorem C33_init (r0 : Nat → ℝ) (r : Nat → Nat → ℝ) (hr0 : ∀ i, 0 ≤ r0 i) (hr : ∀ i j, 0 ≤ r i j) (hN : 0 < N) (hp : p0.length = N)
    (ha : ∃ f, Holds2 N N f a) :
    ∃ p' a' P A, initProbs N r0 r p0 a = some (p', a') ∧ Holds N P p' ∧ Holds2 N N A a' ∧ (∀ i, i < N → 0 < P i) ∧
      (∀ i j, i < N → j < N → 0 < A i j) ∧ ∑ i ∈ Finset.range N, P i = 1 ∧ ∀ i, i < N → ∑ j ∈ Finset.range N, A i j = 1 := by
  obtain ⟨f, ha⟩ := ha
  have hs : 0 < ∑ i ∈ Finset.range N, (1 + r0 i) :=
    Finset.sum_pos (fun i _ => by have := hr0 i; linarith) ⟨0, Finset.mem_range.mpr hN⟩
  have hss : ∀ i, 0 < ∑ j ∈ Finset.range N, (1 + r i j) := fun i =>
    Finset.sum_pos (fun j _ => by have := hr i j; linarith) ⟨0, Finset.mem_range.mpr hN⟩
  obtain ⟨⟨⟨p1, a1⟩, s⟩, h1, h2, h3, h4⟩ := loop_inv (n := N) (f := fun i (st : (List ℝ × List (List ℝ)) × ℝ) => do
      let p ← wr st.1.1 i (1 + r0 i)
      let (a, ss) ← loop N (fun j (st : List (List ℝ) × ℝ) => do
        let a ← wr2 st.1 i j (1 + r i j)
        pure (a, st.2 + (1 + r i j))) (st.1.2, 0)
      let a ← loop N (fun j (a : List (List ℝ)) => do
        let v ← rd2 a i j
        wr2 a i j (v / ss)) a
      pure ((p, a), st.2 + (1 + r0 i))) (s := ((p0, a), 0))
    (P := fun i st => Part N i (fun i => 1 + r0 i) (fun i => p0.getD i 0) st.1.1 ∧
      Holds2 N N (fun i' j => if i' < i then (1 + r i' j) / ∑ j ∈ Finset.range N, (1 + r i' j) else f i' j) st.1.2 ∧
      st.2 = ∑ i ∈ Finset.range i, (1 + r0 i))
    ⟨(holds_of_length hp 0).part _, ha.congr fun _ _ _ _ => by simp, by simp⟩
    (by
      rintro i ⟨⟨p, a⟩, s⟩ hi ⟨i1, i2, i3⟩
      dsimp only at i1 i2 i3
      obtain ⟨a1, e1, e2⟩ := fillSum_ok i2 hi (fun j => 1 + r i j) (fun j _ => some (1 + r i j)) (fun _ _ _ _ => rfl)
      obtain ⟨a2, e3, e4⟩ := e2.fillRow hi N (Nat.le_refl _) (fun j => (1 + r i j) / ∑ j ∈ Finset.range N, (1 + r i j)) (fun j (a : List (List ℝ)) => do
          let v ← rd2 a i j
          wr2 a i j (v / ∑ j ∈ Finset.range N, (1 + r i j)))
        (by
          intro j M hj hM
          rw [bind_ok (hM.rd hi hj), if_neg (by omega), if_pos rfl])
      refine ⟨((p.set i (1 + r0 i), a2), s + (1 + r0 i)), ?_, i1.step hi, e4.congr fun i' j _ hj => ?_, ?_⟩
      · have e1' : loop N (fun j (st : List (List ℝ) × ℝ) => do
            let a ← wr2 st.1 i j (1 + r i j)
            pure (a, st.2 + (1 + r i j))) (a, 0) = some (a1, ∑ j ∈ Finset.range N, (1 + r i j)) := e1
        dsimp only
        rw [bind_ok (i1.wr hi), bind_ok e1']
        dsimp only
        rw [bind_ok e3]
        rfl
      · by_cases c : i' = i
        · subst c; rw [if_pos ⟨rfl, hj⟩, if_pos (by omega)]
        · rw [if_neg (by omega), if_neg c]
          by_cases c2 : i' < i
          · rw [if_pos c2, if_pos (by omega)]
          · rw [if_neg c2, if_neg (by omega)]
      · dsimp only
        rw [i3, Finset.sum_range_succ])
  dsimp only at h2 h3 h4
  subst h4
  obtain ⟨p2, h5, h6⟩ := fill_part (L := N) (new := fun i => (1 + r0 i) / ∑ i ∈ Finset.range N, (1 + r0 i)) h2.holds (f := fun i (p : List ℝ) => do
      let v ← p[i]?
      wr p i (v / ∑ i ∈ Finset.range N, (1 + r0 i)))
    (by
      intro i ys hi hP
      rw [bind_ok (hP.get hi)])
  refine ⟨p2, a1, _, _, ?_, h6, h3.congr fun i j hi _ => by rw [if_pos hi], ?_, ?_, ?_, ?_⟩
  · unfold initProbs
    rw [bind_ok h1]
    dsimp only
    rw [bind_ok h5]
    rfl
  · exact fun i _ => div_pos (by have := hr0 i; linarith) hs
  · exact fun i j _ _ => div_pos (by have := hr i j; linarith) (hss i)
  · rw [← Finset.sum_div, div_self (ne_of_gt hs)]
  · exact fun i _ => by rw [← Finset.sum_div, div_self (ne_of_gt (hss i))]

/-- A model with two states, three observations of dimension one. -/
example : Proper 2 1 ⟨[1/2, 1/2], [[1/3, 2/3], [1/4, 3/4]], [[0], [1]], [[1]]⟩ := by
  refine ⟨fun _ => 1/2, fun i j => ([[1/3, 2/3], [1/4, 3/4]] : List (List ℝ)).getD i [] |>.getD j 0, fun i _ => i, fun _ _ => 1, ?_, ?_, ?_, ?_, ?_, ?_, ?_, ?_⟩
  · exact ⟨rfl, fun j hj => by interval_cases j <;> rfl⟩
  · exact holds2_of rfl (by simp) 0
  · refine ⟨rfl, fun i hi => ?_⟩
    interval_cases i
    · exact ⟨[0], rfl, rfl, fun j hj => by interval_cases j; simp⟩
    · exact ⟨[1], rfl, rfl, fun j hj => by interval_cases j; simp⟩
  · refine ⟨rfl, fun i hi => ⟨[1], by interval_cases i; rfl, rfl, fun j hj => by interval_cases j; rfl⟩⟩
  · intro i _; norm_num
  · intro i j hi hj; interval_cases i <;> interval_cases j <;> norm_num
  · norm_num
  · intro i hi; interval_cases i <;> norm_num [Finset.sum_range_succ]

end QM.Hmm
