import Verif.Hmm.UnderflowLemmas
import Verif.Hmm.InitProps

/-!
# Theorems about training when observation probabilities underflow (property C103)
-/

namespace QM.Hmm.Under

open Ext

variable {N T L : Nat} {P : Nat → ℝ} {A B : Nat → Nat → ℝ}

theorem S_pos_of_frames {m : Nat} (hP : ∀ i, i < N → 0 < P i) (hA : ∀ i j, i < N → j < N → 0 < A i j)
    (hB : ∀ t i, t ≤ m → i < N → 0 ≤ B t i) (hpos : ∀ t, t ≤ m → ∃ i, i < N ∧ 0 < B t i) : ∀ t, t ≤ m → 0 < S N P A B t := by
  have hnn : Nonneg N (m + 1) P A B := ⟨fun i hi => (hP i hi).le, fun i j hi hj => (hA i j hi hj).le, fun t i ht hi => hB t i (by omega) hi⟩
  have key : ∀ t, t ≤ m → ∃ i, i < N ∧ 0 < F N P A B t i := by
    intro t
    induction t with
    | zero =>
      intro ht
      obtain ⟨i, hi, h⟩ := hpos 0 ht
      exact ⟨i, hi, mul_pos (hP i hi) h⟩
    | succ t ih =>
      intro ht
      obtain ⟨k, hk, h1⟩ := ih (by omega)
      obtain ⟨j, hj, h2⟩ := hpos (t + 1) ht
      refine ⟨j, hj, ?_⟩
      show 0 < ∑ i ∈ Finset.range N, F N P A B t i * W A B t i j
      refine Finset.sum_pos' (fun i hi => ?_) ⟨k, Finset.mem_range.mpr hk, mul_pos h1 (mul_pos (hA k j hk hj) h2)⟩
      have hi' := Finset.mem_range.mp hi
      exact mul_nonneg (F_nonneg hnn t i (by omega) hi') (mul_nonneg (hA i j hi' hj).le h2.le)
  intro t ht
  obtain ⟨i, hi, h⟩ := key t ht
  exact Finset.sum_pos' (fun k hk => F_nonneg hnn t k (by omega) (Finset.mem_range.mp hk)) ⟨i, Finset.mem_range.mpr hi, h⟩

theorem bwd_nonneg (h : Nonneg N T P A B) : ∀ d t i, t + d < T → i < N → 0 ≤ bwd N (W A B) d t i
  | 0, _, _, _, _ => zero_le_one
  | d + 1, t, i, ht, hi => by
    rw [bwd]
    refine Finset.sum_nonneg (fun j hj => mul_nonneg (mul_nonneg (h.a i j hi (Finset.mem_range.mp hj)) (h.b _ j (by omega) (Finset.mem_range.mp hj))) ?_)
    exact bwd_nonneg h d (t + 1) j (by omega) (Finset.mem_range.mp hj)

/-- **C103** As long as every observation has some state in which its probability does not underflow, an iteration of training uses the exact
posterior probabilities for the (rounded) observation probabilities: the new parameters are numbers, but for the mean of a state that is never
occupied. -/
theorem C103_finite_partial {lib : Lib} {x Mu C : Nat → Nat → ℝ} (hT : 0 < T) (hP : ∀ i, i < N → 0 < P i) (hA : ∀ i j, i < N → j < N → 0 < A i j)
    (hb : ∀ t i, t < T → i < N → density lib L x (embed P A Mu C) t i = fin (B t i)) (hB : ∀ t i, t < T → i < N → 0 ≤ B t i)
    (hpos : ∀ t, t < T → ∃ i, i < N ∧ 0 < B t i) (fuel : Nat) (ll ll1 ll2 : Ext) :
    ∃ m' : Params, trainLoop lib N T L x (fuel + 1) 0 ll ll1 ll2 (embed P A Mu C) = trainLoop lib N T L x fuel 1 (fin (Real.log (likelihood N T P A B))) ll ll2 m' ∧
      (∀ i, i < N → m'.p0 i = fin (statePosterior N T P A B 0 i)) ∧
      (∀ i j, i < N → j < N → m'.a i j = fin (newA T (statePosterior N T P A B) (stepPosterior N T P A B) i j)) ∧
      (∀ j d, j < N → d < L → m'.mu j d = (newMu T (statePosterior N T P A B) x j d).elim nan fin) ∧
      (∀ d e, d < L → e < L → m'.cov d e = fin (newCov N T (statePosterior N T P A B) x Mu d e)) := by
  have hS := S_pos_of_frames (m := T - 1) hP hA (fun t i ht hi => hB t i (by omega) hi) (fun t ht => hpos t (by omega))
  have hb' : ∀ t i, t ≤ T - 1 → i < N → density lib L x (embed P A Mu C) t i = fin (B t i) := fun t i ht hi => hb t i (by omega) hi
  have hl := loglik_fin (p0 := (embed P A Mu C).p0) (a := (embed P A Mu C).a) (fun _ _ => rfl) (fun _ _ _ _ => rfl) hb' hS (T - 1) le_rfl
  have hnn : Nonneg N T P A B := ⟨fun i hi => (hP i hi).le, fun i j hi hj => (hA i j hi hj).le, hB⟩
  refine ⟨_, ?_, baumWelch_fin hT (z := xi N T (embed P A Mu C).p0 (embed P A Mu C).a (density lib L x (embed P A Mu C)))
    (g := gamma N T (embed P A Mu C).p0 (embed P A Mu C).a (density lib L x (embed P A Mu C))) (mu := (embed P A Mu C).mu) (L := L)
    (fun t i ht hi => ?_) (fun t i j ht hi hj => ?_) (fun _ _ _ _ => rfl) (fun t i ht hi => ?_)⟩
  · show (if 0 > 1 ∧ _ then _ else _) = _
    rw [if_neg (by rintro ⟨h, _⟩; omega)]
    dsimp only
    rw [hl, if_neg (fun h => by cases h), likelihood_eq hT]
    rfl
  · rw [gamma_fin (p0 := (embed P A Mu C).p0) (a := (embed P A Mu C).a) (fun _ _ => rfl) (fun _ _ _ _ => rfl) hT hb' hS ht hi, state_eq hT ht hi]
  · rw [xi_fin (p0 := (embed P A Mu C).p0) (a := (embed P A Mu C).a) (fun _ _ => rfl) (fun _ _ _ _ => rfl) hT hb' hS ht hi hj, step_eq hT ht hi hj]
  · rw [state_eq hT ht hi]
    refine div_nonneg ?_ (hS (T - 1) le_rfl).le
    refine mul_nonneg (F_nonneg hnn t i ht hi) ?_
    exact bwd_nonneg hnn _ _ _ (by omega) hi

/-- **C103** If the probability of an observation other than the last underflows to zero in every state, training stops and leaves the model as it was
before this iteration. -/
theorem C103_stops {lib : Lib} {x : Nat → Nat → ℝ} {m : Params} (hN : 0 < N) {t : Nat} (ht : t + 1 < T) (h : ∀ i, i < N → density lib L x m t i = fin 0)
    (fuel iter : Nat) (ll ll1 ll2 : Ext) : trainLoop lib N T L x fuel iter ll ll1 ll2 m = m := by
  have hl : loglik N m.p0 m.a (density lib L x m) (T - 1) = nan :=
    loglik_of_c (t := t + 1) (c_nan hN (fun i hi => alpha_zero h hi)) (by omega)
  cases fuel with
  | zero => rfl
  | succ fuel =>
    unfold trainLoop
    by_cases hc : iter > 1 ∧ lt (ll - ll1) (fin (1 / 10000) * (ll1 - ll2))
    · rw [if_pos hc]
    · rw [if_neg hc]
      exact if_pos hl

/-- **C103** The last observation is not protected: if it is the only one whose probability underflows in every state, the log-likelihood is minus
infinity, which is not NaN, and training makes every parameter NaN; decoding with the trained model then puts every observation in state 0. -/
theorem C103_last_violation {lib : Lib} {x Mu C : Nat → Nat → ℝ} (hN : 0 < N) (hL : 0 < L) (hT : 2 ≤ T) (hP : ∀ i, i < N → 0 < P i) (hA : ∀ i j, i < N → j < N → 0 < A i j)
    (hb : ∀ t i, t + 1 < T → i < N → density lib L x (embed P A Mu C) t i = fin (B t i)) (hB : ∀ t i, t + 1 < T → i < N → 0 ≤ B t i)
    (hpos : ∀ t, t + 1 < T → ∃ i, i < N ∧ 0 < B t i) (h : ∀ i, i < N → density lib L x (embed P A Mu C) (T - 1) i = fin 0) (ll ll1 ll2 : Ext) :
    AllNan N L (train lib N T L x ll ll1 ll2 (embed P A Mu C)) ∧
      ∀ t, decode lib N T L x (train lib N T L x ll ll1 ll2 (embed P A Mu C)) t = 0 := by
  have hS := S_pos_of_frames (m := T - 2) hP hA (fun t i ht hi => hB t i (by omega) hi) (fun t ht => hpos t (by omega))
  have hb' : ∀ t i, t ≤ T - 2 → i < N → density lib L x (embed P A Mu C) t i = fin (B t i) := fun t i ht hi => hb t i (by omega) hi
  have hl := loglik_fin (p0 := (embed P A Mu C).p0) (a := (embed P A Mu C).a) (fun _ _ => rfl) (fun _ _ _ _ => rfl) hb' hS (T - 2) le_rfl
  have hraw : ∀ i, i < N → rawRow N (embed P A Mu C).p0 (embed P A Mu C).a (density lib L x (embed P A Mu C)) (T - 2 + 1) i = fin 0 := by
    intro j hj
    show Ext.total N (fun i => alpha N (embed P A Mu C).p0 (embed P A Mu C).a (density lib L x (embed P A Mu C)) (T - 2) i * fin (A i j)) * _ = fin 0
    rw [total_fin (g := fun i => F N P A B (T - 2) i / S N P A B (T - 2) * A i j) (fun i hi => by
      rw [alpha_fin (p0 := (embed P A Mu C).p0) (a := (embed P A Mu C).a) (fun _ _ => rfl) (fun _ _ _ _ => rfl) hb' hS le_rfl hi, fin_mul]), show T - 2 + 1 = T - 1 by omega, h j hj, fin_mul, mul_zero]
  have hl2 : loglik N (embed P A Mu C).p0 (embed P A Mu C).a (density lib L x (embed P A Mu C)) (T - 1) ≠ nan := by
    rw [show T - 1 = T - 2 + 1 by omega]
    show loglik N _ _ _ (T - 2) - log (c N _ _ _ (T - 2 + 1)) ≠ nan
    rw [hl]
    have : c N (embed P A Mu C).p0 (embed P A Mu C).a (density lib L x (embed P A Mu C)) (T - 2 + 1) = pinf := by
      unfold c
      rw [total_fin hraw, Finset.sum_const_zero, one_div_zero]
    rw [this]
    intro h'
    cases h'
  have hnan : AllNan N L (baumWelch N T x (embed P A Mu C).mu (gamma N T (embed P A Mu C).p0 (embed P A Mu C).a (density lib L x (embed P A Mu C)))
      (xi N T (embed P A Mu C).p0 (embed P A Mu C).a (density lib L x (embed P A Mu C)))) :=
    baumWelch_nan hN hT (fun t i ht hi => gamma_nan hN h ht hi) (fun t i j ht _ hj => xi_nan hN h ht hj)
  have htrain : train lib N T L x ll ll1 ll2 (embed P A Mu C) = baumWelch N T x (embed P A Mu C).mu
      (gamma N T (embed P A Mu C).p0 (embed P A Mu C).a (density lib L x (embed P A Mu C)))
      (xi N T (embed P A Mu C).p0 (embed P A Mu C).a (density lib L x (embed P A Mu C))) := by
    unfold train trainLoop
    rw [if_neg (by rintro ⟨h, _⟩; omega)]
    refine (if_neg hl2).trans ?_
    rw [trainLoop_nan hN hnan]
  rw [htrain]
  refine ⟨hnan, fun t => ?_⟩
  unfold decode
  exact path_nan hN (fun t i hi => loggauss_nan hL (fun d hd => hnan.2.2.1 i d hi hd) _ _) _

/-! ## A click after silence -/

/-- What is used of `exp` in double precision: it underflows to zero below -746 (the least positive double is about `exp (-744.4)`), and not above
-700. -/
structure Exp (ex : ℝ → ℝ) : Prop where
  pos : ∀ x, -700 ≤ x → 0 < ex x
  zero : ∀ x, x < -746 → ex x = 0

/-- `invert` of one positive number. -/
def Inverts1 (inv : (Nat → Nat → Ext) → (Nat → Nat → Ext) × Ext) : Prop :=
  ∀ cov v, 0 < v → cov 0 0 = fin v → (inv cov).1 0 0 = fin (1 / v) ∧ (inv cov).2 = fin v

/-- One feature that is zero for all observations but the last. -/
def click (T t _d : Nat) : ℝ := if t + 1 = T then 1 else 0

theorem click_mean (hT : 0 < T) : meanOf T (click T) 0 = 1 / T := by
  obtain ⟨n, rfl⟩ : ∃ n, T = n + 1 := ⟨T - 1, by omega⟩
  unfold meanOf click
  rw [Finset.sum_range_succ, if_pos rfl, Finset.sum_eq_zero (fun t ht => if_neg (by rw [Finset.mem_range] at ht; omega)), zero_add]

theorem click_var (hT : 2 ≤ T) : varOf T (click T) 0 = 1 / T := by
  have hm := click_mean (T := T) (by omega)
  obtain ⟨n, rfl⟩ : ∃ n, T = n + 1 := ⟨T - 1, by omega⟩
  have hn : (0 : ℝ) < n := by exact_mod_cast (by omega : 0 < n)
  unfold varOf
  rw [hm, Finset.sum_range_succ, Finset.sum_congr rfl (g := fun _ => (1 / ((n + 1 : ℕ) : ℝ)) ^ 2) (fun t ht => by
    rw [Finset.mem_range] at ht
    unfold click
    rw [if_neg (by omega), zero_sub, neg_sq]), Finset.sum_const, Finset.card_range, nsmul_eq_mul]
  unfold click
  rw [if_pos rfl]
  push_cast
  rw [add_sub_cancel_right]
  field_simp
  ring

theorem loggauss_one {x : Nat → ℝ} {mu : Nat → Ext} {m v : ℝ} {icov : Nat → Nat → Ext} {det : Ext} (hv : 0 < v) (hm : mu 0 = fin m) (hi : icov 0 0 = fin (1 / v))
    (hd : det = fin v) : loggauss 1 x mu icov det = fin (-1 / 2 * ((x 0 - m) ^ 2 / v + Real.log (2 * Real.pi) + Real.log v)) := by
  unfold loggauss
  show fin (-1 / 2) * (((0 : Ext) + ((0 : Ext) + icov 0 0 * (fin (x 0) - mu 0)) * (fin (x 0) - mu 0)) + _ + _) = _
  rw [hm, hi, hd, log_fin hv, zero_def, fin_sub, fin_mul, fin_add, fin_mul, fin_add, fin_add, fin_add, fin_mul]
  congr 1
  push_cast
  field_simp
  ring

/-- The model as numbers. -/
noncomputable def ofLists (m : Hmm.Params) : Params :=
  embed (fun i => m.p0.getD i 0) (fun i j => (m.a.getD i []).getD j 0) (fun i d => (m.mu.getD i []).getD d 0) (fun d e => (m.cov.getD d []).getD e 0)

theorem Holds.getD {β : Type} {n : Nat} {f : Nat → β} {xs : List β} (h : Holds n f xs) {i : Nat} (hi : i < n) (d : β) : xs.getD i d = f i := by
  rw [List.getD_eq_getElem?_getD, h.2 i hi]
  rfl

theorem Holds2.getD {β : Type} {n m : Nat} {f : Nat → Nat → β} {xs : List (List β)} (h : Holds2 n m f xs) {i j : Nat} (hi : i < n) (hj : j < m) (d : β) :
    (xs.getD i []).getD j d = f i j := by
  obtain ⟨r, h1, h2⟩ := h.2 i hi
  have h3 : xs.getD i [] = r := by rw [List.getD_eq_getElem?_getD, h1]; rfl
  rw [h3, Under.Holds.getD h2 hj]

/-- **C103** One odd observation after silence, at the very end: if a feature is zero for all of 2000 or more observations but the last, then, for every
seed, training the initial model makes every parameter NaN, and every observation is put in state 0. -/
theorem C103_click_violation {lib : Lib} (hex : Exp lib.ex) (hinv : Inverts1 lib.inv) (hT : 2000 ≤ T) (hN : 0 < N) (rm : Nat → Nat → ℝ) (r0 : Nat → ℝ) (r : Nat → Nat → ℝ)
    (hrm : ∀ i d, |rm i d| ≤ 1 / 4) (hr0 : ∀ i, 0 ≤ r0 i) (hr : ∀ i j, 0 ≤ r i j) {x a mu cov : List (List ℝ)} {p0 gm : List ℝ} (hx : Holds2 T 1 (click T) x)
    (hp : p0.length = N) (ha : ∃ f, Holds2 N N f a) (hm : ∃ f, Holds2 N 1 f mu) (hc : ∃ f, Holds2 1 1 f cov) (hg : gm.length = 1) (ll ll1 ll2 : Ext) :
    ∃ m, hmmInit N T 1 x rm r0 r p0 a mu cov gm = some m ∧ AllNan N 1 (train lib N T 1 (click T) ll ll1 ll2 (ofLists m)) ∧
      ∀ t, decode lib N T 1 (click T) (train lib N T 1 (click T) ll ll1 ll2 (ofLists m)) t = 0 := by
  obtain ⟨m, Mu, e1, ⟨P, A, Mu', C, q1, q2, _, _, q5, q6, _, _⟩, e3, e4, e5⟩ := C33_hmm_init rm r0 r hrm hr0 hr (by omega) hN hx hp ha hm hc hg
  have hTr : (2000 : ℝ) ≤ T := by exact_mod_cast hT
  have hv : (0 : ℝ) < 1 / T := by positivity
  have hcov : (ofLists m).cov 0 0 = fin (1 / T) := by
    show fin ((m.cov.getD 0 []).getD 0 0) = _
    rw [Under.Holds2.getD e3 one_pos one_pos, if_pos rfl, click_var (by omega)]
  obtain ⟨i1, i2⟩ := hinv (ofLists m).cov _ hv hcov
  have hmu : ∀ i, i < N → (ofLists m).mu i 0 = fin (Mu i 0) := by
    intro i hi
    show fin ((m.mu.getD i []).getD 0 0) = _
    rw [Under.Holds2.getD e4 hi one_pos]
  have hden : ∀ t i, i < N → density lib 1 (click T) (ofLists m) t i =
      fin (lib.ex (-1 / 2 * ((click T t 0 - Mu i 0) ^ 2 / (1 / T) + Real.log (2 * Real.pi) + Real.log (1 / T)))) := by
    intro t i hi
    unfold density
    rw [loggauss_one hv (hmu i hi) i1 i2]
    rfl
  -- the square root of `T`
  obtain ⟨w, hw, hw2, hw44⟩ : ∃ w : ℝ, 0 < w ∧ w * w = T ∧ 44 ≤ w := by
    refine ⟨Real.sqrt T, Real.sqrt_pos.mpr (by linarith), Real.mul_self_sqrt (by linarith), ?_⟩
    refine Real.le_sqrt_of_sq_le (by linarith)
  have hsq : Real.sqrt (1 / T) = 1 / w := by
    rw [← hw2, Real.sqrt_div zero_le_one, Real.sqrt_one, Real.sqrt_mul_self hw.le]
  have hb : ∀ i, |Mu i 0 - 1 / T| ≤ 1 / w / 4 := by
    intro i
    have := e5 i 0
    rwa [click_mean (by omega), click_var (by omega), hsq] at this
  have hlogT : Real.log (1 / T) = -(2 * Real.log w) := by
    rw [← hw2, one_div, Real.log_inv, Real.log_mul hw.ne' hw.ne']
    ring
  have hlw : Real.log w ≤ w - 1 := Real.log_le_sub_one_of_pos hw
  have hlw0 : 0 ≤ Real.log w := Real.log_nonneg (by linarith)
  have hpi0 : 0 ≤ Real.log (2 * Real.pi) := Real.log_nonneg (by linarith [Real.two_le_pi])
  have hpi1 : Real.log (2 * Real.pi) ≤ 10 := (Real.log_le_sub_one_of_pos (by positivity)).trans (by linarith [Real.pi_le_four])
  have h1w : 1 / w ≤ 1 / 44 := one_div_le_one_div_of_le (by norm_num) hw44
  have h1w0 : 0 < 1 / w := by positivity
  have h1T : 1 / (T : ℝ) = 1 / w * (1 / w) := by rw [← hw2]; field_simp
  have hres : ofLists m = embed (fun i => m.p0.getD i 0) (fun i j => (m.a.getD i []).getD j 0) (fun i d => (m.mu.getD i []).getD d 0) (fun d e => (m.cov.getD d []).getD e 0) := rfl
  refine ⟨m, e1, ?_⟩
  rw [hres]
  refine C103_last_violation (B := fun t i => lib.ex (-1 / 2 * ((click T t 0 - Mu i 0) ^ 2 / (1 / T) + Real.log (2 * Real.pi) + Real.log (1 / T)))) hN one_pos (by omega)
    (fun i hi => by rw [Under.Holds.getD q1 hi]; exact q5 i hi) (fun i j hi hj => by rw [Under.Holds2.getD q2 hi hj]; exact q6 i j hi hj)
    (fun t i ht hi => hden t i hi) ?_ ?_ ?_ ll ll1 ll2
  all_goals
    have early : ∀ t i, t + 1 < T → 0 < lib.ex (-1 / 2 * ((click T t 0 - Mu i 0) ^ 2 / (1 / T) + Real.log (2 * Real.pi) + Real.log (1 / T))) := by
      intro t i ht
      refine hex.pos _ ?_
      have hxt : click T t 0 = 0 := if_neg (by omega)
      have hbi := abs_le.mp (hb i)
      rw [hxt, hlogT, zero_sub, neg_sq, div_div_eq_mul_div, div_one, ← hw2]
      have h2 : |Mu i 0 * w| ≤ 1 := by
        have h3 : |Mu i 0| ≤ 1 / w := abs_le.mpr ⟨by nlinarith, by nlinarith⟩
        rw [abs_mul, abs_of_pos hw]
        calc |Mu i 0| * w ≤ 1 / w * w := mul_le_mul_of_nonneg_right h3 hw.le
          _ = 1 := by field_simp
      have h3 : Mu i 0 ^ 2 * (w * w) ≤ 1 := by
        have := abs_le.mp h2
        nlinarith
      linarith
  · intro t i ht _
    exact (early t i ht).le
  · intro t ht
    exact ⟨0, hN, early t 0 ht⟩
  · intro i hi
    rw [← hres, hden (T - 1) i hi]
    congr 1
    refine hex.zero _ ?_
    have hxt : click T (T - 1) 0 = 1 := if_pos (by omega)
    have hbi := abs_le.mp (hb i)
    rw [hxt, hlogT, div_div_eq_mul_div, div_one, ← hw2]
    have h2 : 49 / 50 ≤ 1 - Mu i 0 := by nlinarith
    have h3 : (2401 / 2500) * (w * w) ≤ (1 - Mu i 0) ^ 2 * (w * w) := mul_le_mul_of_nonneg_right (by nlinarith) (by positivity)
    nlinarith

/-! The hypotheses about `exp` and `invert` can be met, so the theorem is about real runs: an `exp` that underflows below -746, and division. -/

noncomputable def exampleLib : Lib where
  ex := fun x => if x < -746 then 0 else Real.exp x
  inv := fun cov => (fun _ _ => 1 / cov 0 0, cov 0 0)

theorem exampleLib_ok : Exp exampleLib.ex ∧ Inverts1 exampleLib.inv := by
  refine ⟨⟨fun x hx => ?_, fun x hx => if_pos hx⟩, fun cov v hv hc => ⟨?_, hc⟩⟩
  · show 0 < if x < -746 then 0 else Real.exp x
    rw [if_neg (by linarith)]
    exact Real.exp_pos x
  · show 1 / cov 0 0 = _
    rw [hc, one_def, fin_div hv.ne']

/-- Two states and 2000 or more observations: every observation is put in state 0. -/
example (T : Nat) (hT : 2000 ≤ T) : ∃ m, hmmInit 2 T 1 ((List.range T).map (fun t => [click T t 0])) (fun i _ => if i = 0 then 1 / 4 else -1 / 4) (fun _ => 1) (fun i j => if i = j then 1 else 0)
      [0, 0] [[0, 0], [0, 0]] [[0], [0]] [[0]] [0] = some m ∧
    AllNan 2 1 (train exampleLib 2 T 1 (click T) nan nan nan (ofLists m)) ∧
      ∀ t, decode exampleLib 2 T 1 (click T) (train exampleLib 2 T 1 (click T) nan nan nan (ofLists m)) t = 0 := by
  refine C103_click_violation (N := 2) exampleLib_ok.1 exampleLib_ok.2 hT two_pos _ _ _ ?_ ?_ ?_ ?_ rfl ?_ ?_ ?_ rfl nan nan nan
  · intro i d
    split_ifs <;> norm_num [abs_div]
  · intro i
    norm_num
  · intro i j
    split_ifs <;> norm_num
  · refine ⟨by rw [List.length_map, List.length_range], fun t ht => ⟨[click T t 0], by rw [List.getElem?_map, List.getElem?_range ht, Option.map_some], rfl, fun d hd => ?_⟩⟩
    obtain rfl : d = 0 := by omega
    rfl
  all_goals
    refine ⟨fun _ _ => 0, by simp, fun i hi => ?_⟩
    interval_cases i <;> exact ⟨_, rfl, rfl, fun j hj => by interval_cases j <;> rfl⟩

end QM.Hmm.Under
