import Verif.Hmm.Lemmas
import Mathlib.Algebra.Order.Ring.Rat
import Mathlib.Algebra.Field.Rat
import Mathlib.Tactic.NormNum

namespace QM.Hmm

/-- The arguments of `forward_backwards` have the documented sizes: `N` states, `T` observations; `xi` and `gamma`, and the temporary
arrays, have any contents. -/
structure Sizes (N T : Nat) (p0 : List ℝ) (a b : List (List ℝ)) (xi : List (List (List ℝ))) (gamma alpha beta : List (List ℝ)) (c : List ℝ)
    (P : Nat → ℝ) (A B : Nat → Nat → ℝ) : Prop where
  h_p0 : Holds N P p0
  h_a : Holds2 N N A a
  h_b : Holds2 T N B b
  h_xi : xi.length = T
  h_xi2 : ∀ t : Nat, t < T → ∃ m f, xi[t]? = some m ∧ Holds2 N N f m
  h_gamma : ∃ f, Holds2 T N f gamma
  h_alpha : ∃ f, Holds2 T N f alpha
  h_beta : ∃ f, Holds2 T N f beta
  h_c : ∃ f, Holds T f c

/-- No probability is negative. -/
structure Nonneg (N T : Nat) (P : Nat → ℝ) (A B : Nat → Nat → ℝ) : Prop where
  p0 : ∀ i, i < N → 0 ≤ P i
  a : ∀ i j, i < N → j < N → 0 ≤ A i j
  b : ∀ t i, t < T → i < N → 0 ≤ B t i

/-- The probability that the state at time `t` is `i`, given the observations. -/
noncomputable def statePosterior (N T : Nat) (P : Nat → ℝ) (A B : Nat → Nat → ℝ) (t i : Nat) : ℝ :=
  (∑ q : Fin T → Fin N, pathProb P A B q * if at' q t = i then 1 else 0) / likelihood N T P A B

/-- The probability that the states at times `t` and `t+1` are `i` and `j`, given the observations. -/
noncomputable def stepPosterior (N T : Nat) (P : Nat → ℝ) (A B : Nat → Nat → ℝ) (t i j : Nat) : ℝ :=
  (∑ q : Fin T → Fin N, pathProb P A B q * if at' q t = i ∧ at' q (t + 1) = j then 1 else 0) / likelihood N T P A B

variable {N T : Nat} {p0 c : List ℝ} {a b gamma alpha beta : List (List ℝ)} {xi : List (List (List ℝ))} {P : Nat → ℝ} {A B : Nat → Nat → ℝ}

theorem likelihood_eq (hT : 0 < T) : likelihood N T P A B = S N P A B (T - 1) := by
  unfold likelihood
  rw [Finset.sum_congr rfl (fun q _ => pathProb_eq hT P A B q), sum_all N T hT]
  rfl

theorem state_eq (hT : 0 < T) {t i : Nat} (ht : t < T) (hi : i < N) :
    statePosterior N T P A B t i = F N P A B t i * Bk N T A B t i / S N P A B (T - 1) := by
  unfold statePosterior
  rw [likelihood_eq hT, Finset.sum_congr rfl (fun q _ => by rw [pathProb_eq hT P A B q]), sum_one N T _ _ t ht (fun k => if k = i then 1 else 0)]
  congr 1
  rw [Finset.sum_eq_single i (fun k _ hk => by simp [hk]) (fun h => absurd (Finset.mem_range.mpr hi) h), if_pos rfl, mul_one]
  rfl

theorem step_eq (hT : 0 < T) {t i j : Nat} (ht : t + 1 < T) (hi : i < N) (hj : j < N) :
    stepPosterior N T P A B t i j = X N T P A B t i j / S N P A B (T - 1) := by
  unfold stepPosterior
  rw [likelihood_eq hT, Finset.sum_congr rfl (fun q _ => by rw [pathProb_eq hT P A B q]), sum_two N T _ _ t ht (fun k l => if k = i ∧ l = j then 1 else 0)]
  congr 1
  rw [Finset.sum_eq_single i (fun k _ hk => by simp [hk]) (fun h => absurd (Finset.mem_range.mpr hi) h),
    Finset.sum_eq_single j (fun k _ hk => by simp [hk]) (fun h => absurd (Finset.mem_range.mpr hj) h), if_pos ⟨rfl, rfl⟩]
  unfold X
  rw [mul_one]
  show F N P A B t i * (A i j * B (t + 1) j) * Bk N T A B (t + 1) j = _
  ring

theorem F_nonneg (h : Nonneg N T P A B) (t i : Nat) (ht : t < T) (hi : i < N) : 0 ≤ F N P A B t i := by
  induction t generalizing i with
  | zero => exact mul_nonneg (h.p0 i hi) (h.b 0 i ht hi)
  | succ t ih =>
    show 0 ≤ ∑ k ∈ Finset.range N, F N P A B t k * W A B t k i
    exact Finset.sum_nonneg fun k hk => mul_nonneg (ih k (by omega) (Finset.mem_range.mp hk))
      (mul_nonneg (h.a k i (Finset.mem_range.mp hk) hi) (h.b _ i ht hi))

theorem S_nonneg (h : Nonneg N T P A B) (t : Nat) (ht : t < T) : 0 ≤ S N P A B t :=
  Finset.sum_nonneg fun i hi => F_nonneg h t i ht (Finset.mem_range.mp hi)

theorem S_pos (h : Nonneg N T P A B) (hL : 0 < S N P A B (T - 1)) (t : Nat) (ht : t < T) : 0 < S N P A B t := by
  rcases lt_or_eq_of_le (S_nonneg h t ht) with h1 | h1
  · exact h1
  · exfalso
    have h2 : ∀ i ∈ Finset.range N, F N P A B t i = 0 :=
      (Finset.sum_eq_zero_iff_of_nonneg fun i hi => F_nonneg h t i ht (Finset.mem_range.mp hi)).mp h1.symm
    have h3 := total (N := N) (P := P) (A := A) (B := B) (T := T) (by omega) t ht
    rw [Finset.sum_eq_zero (fun i hi => by rw [h2 i hi, zero_mul])] at h3
    linarith

theorem at'_lt {q : Fin T → Fin N} {t : Nat} (ht : t < T) : at' q t < N := by
  unfold at'
  rw [dif_pos ht]
  exact (q ⟨t, ht⟩).2

theorem pathProb_nonneg (h : Nonneg N T P A B) (hT : 0 < T) (q : Fin T → Fin N) : 0 ≤ pathProb P A B q :=
  mul_nonneg (mul_nonneg (h.p0 _ (at'_lt hT)) (Finset.prod_nonneg fun t ht => by
    have := Finset.mem_range.mp ht
    exact h.a _ _ (at'_lt (by omega)) (at'_lt (by omega))))
    (Finset.prod_nonneg fun t ht => h.b _ _ (Finset.mem_range.mp ht) (at'_lt (Finset.mem_range.mp ht)))

/-- C32. For every hidden Markov model without negative probabilities and every observation sequence of positive likelihood, whatever the
contents of the arrays: `gamma[t][i]` is the posterior probability of state `i` at time `t`, `xi[t][i][j]` that of the step from `i` to
`j`, and the log-likelihood is the logarithm of the sum over all state paths. -/
theorem C32_posteriors (hT : 0 < T) (hs : Sizes N T p0 a b xi gamma alpha beta c P A B) (hn : Nonneg N T P A B) (hL : 0 < likelihood N T P A B) :
    ∃ xi' gamma', forwardBackwards rlog N T p0 a b xi gamma alpha beta c = some (xi', gamma', Real.log (likelihood N T P A B)) ∧
      Holds2 T N (statePosterior N T P A B) gamma' ∧ xi'.length = T ∧
      ∀ t : Nat, t + 1 < T → ∃ m, xi'[t]? = some m ∧ Holds2 N N (stepPosterior N T P A B t) m := by
  rw [likelihood_eq hT] at hL ⊢
  have hS := S_pos hn hL
  obtain ⟨f1, h1⟩ := hs.h_alpha
  obtain ⟨f2, h2⟩ := hs.h_beta
  obtain ⟨f3, h3⟩ := hs.h_gamma
  obtain ⟨f4, h4⟩ := hs.h_c
  obtain ⟨al', c', e1, e2, e3⟩ := forward_ok hs.h_p0 hs.h_a hs.h_b h1 h4 hT hS
  obtain ⟨be', e4, e5⟩ := backward_ok hs.h_a hs.h_b h2 e3 hT hS
  obtain ⟨ga', e6, e7⟩ := posterior_ok e2 e5 h3 hT hS
  obtain ⟨xi', e8, e9, e10⟩ := transitions_ok hs.h_a hs.h_b e2 e5 hs.h_xi hs.h_xi2 hT hS
  refine ⟨xi', ga', ?_, e7.congr fun t i ht hi => (state_eq hT ht hi).symm, e9, fun t ht => ?_⟩
  · unfold forwardBackwards
    rw [bind_ok e1]
    dsimp only
    rw [bind_ok e4, bind_ok e6, bind_ok e8]
    rfl
  · obtain ⟨m, hm, hm2⟩ := e10 t ht
    exact ⟨m, hm, hm2.congr fun i j hi hj => (step_eq hT ht hi hj).symm⟩

/-- C32. The posteriors are probability distributions, and the step posteriors have the state posteriors as marginals. -/
theorem C32_distributions (hT : 0 < T) (hn : Nonneg N T P A B) (hL : 0 < likelihood N T P A B) :
    (∀ t i, t < T → i < N → 0 ≤ statePosterior N T P A B t i) ∧
    (∀ t, t < T → ∑ i ∈ Finset.range N, statePosterior N T P A B t i = 1) ∧
    (∀ t i j, t + 1 < T → i < N → j < N → 0 ≤ stepPosterior N T P A B t i j) ∧
    (∀ t i, t + 1 < T → i < N → ∑ j ∈ Finset.range N, stepPosterior N T P A B t i j = statePosterior N T P A B t i) ∧
    (∀ t j, t + 1 < T → j < N → ∑ i ∈ Finset.range N, stepPosterior N T P A B t i j = statePosterior N T P A B (t + 1) j) := by
  have hpp : ∀ q : Fin T → Fin N, 0 ≤ pathProb P A B q := pathProb_nonneg hn hT
  refine ⟨fun t i _ _ => ?_, fun t ht => ?_, fun t i j _ _ _ => ?_, fun t i ht hi => ?_, fun t j ht hj => ?_⟩
  · exact div_nonneg (Finset.sum_nonneg fun q _ => mul_nonneg (hpp q) (by split <;> norm_num)) hL.le
  · rw [likelihood_eq hT] at hL
    rw [Finset.sum_congr rfl (fun i hi => state_eq hT ht (Finset.mem_range.mp hi)), ← Finset.sum_div, total hT t ht, div_self (ne_of_gt hL)]
  · exact div_nonneg (Finset.sum_nonneg fun q _ => mul_nonneg (hpp q) (by split <;> norm_num)) hL.le
  · rw [Finset.sum_congr rfl (fun j hj => step_eq hT ht hi (Finset.mem_range.mp hj)), ← Finset.sum_div, X_sum_right t i ht, state_eq hT (by omega) hi]
  · rw [Finset.sum_congr rfl (fun i hi => step_eq hT ht (Finset.mem_range.mp hi) hj), ← Finset.sum_div, X_sum_left t j, state_eq hT ht hj]

/-- C32. The scaling divides by zero exactly if the observations have likelihood zero. -/
theorem C32_defined (hT : 0 < T) (hs : Sizes N T p0 a b xi gamma alpha beta c P A B) (hn : Nonneg N T P A B) :
    forwardBackwards rlog N T p0 a b xi gamma alpha beta c = none ↔ likelihood N T P A B = 0 := by
  constructor
  · intro h
    by_contra h0
    have hnn : 0 ≤ likelihood N T P A B := by rw [likelihood_eq hT]; exact S_nonneg hn _ (by omega)
    obtain ⟨xi', ga', h1, _⟩ := C32_posteriors hT hs hn (lt_of_le_of_ne hnn (Ne.symm h0))
    rw [h1] at h
    cases h
  · intro h
    rw [likelihood_eq hT] at h
    have hex : ∃ m, S N P A B m = 0 := ⟨T - 1, h⟩
    classical
    have hle : Nat.find hex ≤ T - 1 := Nat.find_min' hex h
    obtain ⟨f1, h1⟩ := hs.h_alpha
    obtain ⟨f4, h4⟩ := hs.h_c
    unfold forwardBackwards
    rw [forward_none hs.h_p0 hs.h_a hs.h_b h1 h4 (m := Nat.find hex) (by omega)
      (fun t ht => lt_of_le_of_ne (S_nonneg hn t (by omega)) (Ne.symm (Nat.find_min hex ht))) (Nat.find_spec hex)]
    rfl

/-- A model with two states and two observations meets the hypotheses. -/
example : forwardBackwards (fun x : ℚ => some x) 2 2 [1/2, 1/2] [[3/4, 1/4], [1/2, 1/2]] [[1, 1/2], [1/2, 1]]
    [[[7, 7], [7, 7]], [[7, 7], [7, 7]]] [[7, 7], [7, 7]] [[8, 8], [8, 8]] [[9, 9], [9, 9]] [5, 5] =
    some ([[[3/8, 1/4], [1/8, 1/4]], [[7, 7], [7, 7]]], [[5/8, 3/8], [1/2, 1/2]], -(4/3) - 3/2) := by
  decide +kernel

end QM.Hmm
