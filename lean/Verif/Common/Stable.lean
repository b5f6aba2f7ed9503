import Verif.Common.IntPoly
import Verif.Filter.Spec
import Mathlib.Analysis.Complex.Basic
import Mathlib.Tactic.FieldSimp

/-!
# Linear difference equations with integer coefficients: bounded responses, decay, and the response to an oscillation

A filter is given by its coefficients `a` and `b` up to a common denominator. A certificate of stability is a list `q` such that
`q * a = p₀ + p₁ z + …` with `∑ |pₖ| < p₀` over `k > 0`.
-/

namespace QM.Stable

open QM.IntPoly

/-- The sum of the absolute values. -/
def l1 : List ℤ → ℤ
  | [] => 0
  | a :: p => |a| + l1 p

theorem l1_nonneg (p : List ℤ) : 0 ≤ l1 p := by
  induction p with
  | nil => exact le_rfl
  | cons a p ih => exact add_nonneg (abs_nonneg a) ih

section
variable {R : Type} [CommRing R]

/-- A sequence one step later. -/
def sh (u : ℕ → R) : ℕ → R
  | 0 => 0
  | n + 1 => u n

/-- The filter with coefficients `p` applied to `u`. -/
def cv : List ℤ → (ℕ → R) → ℕ → R
  | [], _, _ => 0
  | a :: p, u, n => (a : R) * u n + cv p (sh u) n

theorem cv_add (p q : List ℤ) (u : ℕ → R) (n : ℕ) : cv (add p q) u n = cv p u n + cv q u n := by
  induction p generalizing q u with
  | nil => simp [add, cv]
  | cons a p ih =>
    cases q with
    | nil => simp [add, cv]
    | cons b q =>
      simp only [add, cv, ih, Int.cast_add]
      ring

theorem cv_smul (k : ℤ) (p : List ℤ) (u : ℕ → R) (n : ℕ) : cv (smul k p) u n = (k : R) * cv p u n := by
  induction p generalizing u with
  | nil => simp [smul, cv]
  | cons a p ih =>
    simp only [smul, cv, ih, Int.cast_mul]
    ring

theorem cv_sh (p : List ℤ) (u : ℕ → R) : cv p (sh u) = sh (cv p u) := by
  induction p generalizing u with
  | nil =>
    funext n
    cases n <;> rfl
  | cons a p ih =>
    funext n
    cases n with
    | zero =>
      have := congrFun (ih (sh u)) 0
      simp only [cv, sh] at this ⊢
      rw [this]
      ring
    | succ n =>
      have := congrFun (ih (sh u)) (n + 1)
      simp only [cv, sh] at this ⊢
      rw [this]

theorem cv_mul (p q : List ℤ) (u : ℕ → R) (n : ℕ) : cv (mul p q) u n = cv p (cv q u) n := by
  induction p generalizing u n with
  | nil => simp [mul, cv]
  | cons a p ih =>
    simp only [mul, cv, cv_add, cv_smul, ih, Int.cast_zero, cv_sh]
    ring

/-- The filter looks only at the last values. -/
theorem cv_local (p : List ℤ) (u v : ℕ → R) (n : ℕ) (h : ∀ k, k ≤ n → n < k + p.length → u k = v k) : cv p u n = cv p v n := by
  induction p generalizing u v with
  | nil => rfl
  | cons a p ih =>
    simp only [cv]
    rw [h n le_rfl (by simp), ih (sh u) (sh v)]
    intro k hk hn
    cases k with
    | zero => rfl
    | succ k => exact h k (by omega) (by simp only [List.length_cons]; omega)

theorem cv_zero (p : List ℤ) (n : ℕ) : cv p (fun _ => (0 : R)) n = 0 := by
  have hs : sh (fun _ => (0 : R)) = fun _ => 0 := by
    funext n
    cases n <;> rfl
  induction p with
  | nil => rfl
  | cons a p ih => simp [cv, hs, ih]

theorem cv_sub (p : List ℤ) (u v : ℕ → R) (n : ℕ) : cv p (fun k => u k - v k) n = cv p u n - cv p v n := by
  induction p generalizing u v with
  | nil => simp [cv]
  | cons a p ih =>
    have hs : sh (fun k => u k - v k) = fun k => sh u k - sh v k := by
      funext k
      cases k <;> simp [sh]
    simp only [cv, hs, ih]
    ring

open QM.Filter Finset in
/-- The filter as a sum over the delayed samples. -/
theorem cv_delayed (p : List ℤ) (x : List R) (j n : ℕ) :
    cv p (fun n => delayed x n j) n = ∑ i ∈ range p.length, (p.getD i 0 : R) * delayed x n (i + j) := by
  induction p generalizing j with
  | nil => simp [cv]
  | cons a p ih =>
    have hs : sh (fun n => delayed x n j) = fun n => delayed x n (j + 1) := by
      funext k
      cases k with
      | zero => simp [sh, delayed]
      | succ k =>
        simp only [sh, delayed, Nat.add_le_add_iff_right, Nat.add_sub_add_right]
    simp only [cv, hs, ih, List.length_cons, sum_range_succ']
    simp only [List.getD_cons_zero, List.getD_cons_succ, Nat.zero_add, Nat.add_zero, add_comm, add_left_comm]

end

section
variable {F : Type} [Field F] [LinearOrder F] [IsStrictOrderedRing F]

theorem abs_cv_le (p : List ℤ) (u : ℕ → F) (n : ℕ) (M : F) (hM : 0 ≤ M) (h : ∀ k, k ≤ n → n < k + p.length → |u k| ≤ M) :
    |cv p u n| ≤ (l1 p : ℤ) * M := by
  induction p generalizing u with
  | nil => simp [cv, l1]
  | cons a p ih =>
    simp only [cv, l1, Int.cast_add, Int.cast_abs]
    refine (abs_add_le _ _).trans ?_
    rw [abs_mul, add_mul]
    refine add_le_add (mul_le_mul_of_nonneg_left (h n le_rfl (by simp)) (abs_nonneg _)) (ih (sh u) ?_)
    intro k hk hn
    cases k with
    | zero => simpa [sh] using hM
    | succ k => exact h k (by omega) (by simp only [List.length_cons]; omega)

/-- The response to a bounded input is bounded. -/
theorem bounded (a b q ps : List ℤ) (p0 : ℤ) (hp : mul q a = p0 :: ps) (hs : l1 ps < p0) (x y : ℕ → F) (N : ℕ)
    (h : ∀ n, n < N → cv a y n = cv b x n) (M : F) (hM : ∀ n, |x n| ≤ M) (n : ℕ) (hn : n < N) :
    ((p0 - l1 ps : ℤ) : F) * |y n| ≤ (l1 (mul q b) : ℤ) * M := by
  have hM0 : 0 ≤ M := (abs_nonneg _).trans (hM 0)
  have hd : (0 : F) < ((p0 - l1 ps : ℤ) : F) := by exact_mod_cast sub_pos.mpr hs
  have hp0 : (0 : F) < (p0 : F) := by exact_mod_cast (l1_nonneg ps).trans_lt hs
  have hps : (0 : F) ≤ (l1 ps : F) := by exact_mod_cast l1_nonneg ps
  have hqb : (0 : F) ≤ (l1 (mul q b) : F) := by exact_mod_cast l1_nonneg _
  set B : F := (l1 (mul q b) : ℤ) * M / ((p0 - l1 ps : ℤ) : F) with hB
  have hB0 : 0 ≤ B := div_nonneg (mul_nonneg hqb hM0) hd.le
  have hBe : ((p0 - l1 ps : ℤ) : F) * B = (l1 (mul q b) : ℤ) * M := by
    rw [hB]
    field_simp
  have key : |y n| ≤ B := by
    induction n using Nat.strong_induction_on with
    | _ n ih =>
      have e1 : cv q (cv a y) n = cv q (cv b x) n := cv_local _ _ _ _ (fun k hk _ => h k (by omega))
      rw [← cv_mul, ← cv_mul, hp] at e1
      simp only [cv] at e1
      have e2 : |cv ps (sh y) n| ≤ (l1 ps : ℤ) * B := by
        refine abs_cv_le ps _ n B hB0 (fun k hk _ => ?_)
        cases k with
        | zero => simpa [sh] using hB0
        | succ k => exact ih k (by omega) (by omega)
      have e3 : |cv (mul q b) x n| ≤ (l1 (mul q b) : ℤ) * M := abs_cv_le _ _ _ _ hM0 (fun k _ _ => hM k)
      have e4 : (p0 : F) * |y n| ≤ p0 * B := by
        rw [← abs_of_pos hp0, ← abs_mul, abs_of_pos hp0, show (p0 : F) * y n = cv (mul q b) x n - cv ps (sh y) n by rw [← e1]; ring]
        refine (abs_sub _ _).trans ((add_le_add e3 e2).trans (le_of_eq ?_))
        rw [← hBe]
        push_cast
        ring
      exact le_of_mul_le_mul_left e4 hp0
  rw [← hBe]
  exact mul_le_mul_of_nonneg_left key hd.le

/-- What is left of the past dies out geometrically. -/
theorem decay (a q ps : List ℤ) (p0 : ℤ) (hp : mul q a = p0 :: ps) (hs : l1 ps < p0) (θ : F) (hθ : (l1 ps : F) ≤ θ * p0) (hθ1 : θ ≤ 1) (e : ℕ → F)
    (N r T : ℕ) (hT : q.length + r ≤ T) (hT' : ps.length + 1 ≤ T) (h : ∀ n, r ≤ n → n < N → cv a e n = 0) (E : F) (hE : ∀ n, n < N → |e n| ≤ E) (n : ℕ)
    (hn : n < N) : |e n| ≤ E * θ ^ (n / T) := by
  have hp0 : (0 : F) < (p0 : F) := by exact_mod_cast (l1_nonneg ps).trans_lt hs
  have hps : (0 : F) ≤ (l1 ps : F) := by exact_mod_cast l1_nonneg ps
  have hθ0 : 0 ≤ θ := by
    by_contra hc
    have := mul_neg_of_neg_of_pos (not_le.mp hc) hp0
    linarith
  have hE0 : 0 ≤ E := (abs_nonneg _).trans (hE n hn)
  induction n using Nat.strong_induction_on with
  | _ n ih =>
    by_cases hnT : n < T
    · rw [Nat.div_eq_of_lt hnT, pow_zero, mul_one]
      exact hE n hn
    · have e1 : cv q (cv a e) n = cv q (fun _ => 0) n := cv_local _ _ _ _ (fun k hk hk2 => h k (by omega) (by omega))
      rw [cv_zero, ← cv_mul, hp] at e1
      simp only [cv] at e1
      have hdiv : n / T = (n - T) / T + 1 := by
        rw [← Nat.add_div_right _ (by omega), Nat.sub_add_cancel (by omega)]
      have e2 : |cv ps (sh e) n| ≤ (l1 ps : ℤ) * (E * θ ^ ((n - T) / T)) := by
        refine abs_cv_le ps _ n _ (mul_nonneg hE0 (pow_nonneg hθ0 _)) (fun k hk hk2 => ?_)
        cases k with
        | zero => simpa [sh] using mul_nonneg hE0 (pow_nonneg hθ0 _)
        | succ k =>
          refine (ih k (by omega) (by omega)).trans (mul_le_mul_of_nonneg_left ?_ hE0)
          exact pow_le_pow_of_le_one hθ0 hθ1 (Nat.div_le_div_right (by omega))
      have e4 : (p0 : F) * |e n| ≤ p0 * (E * θ ^ (n / T)) := by
        rw [← abs_of_pos hp0, ← abs_mul, abs_of_pos hp0, show (p0 : F) * e n = -cv ps (sh e) n by linear_combination e1, abs_neg]
        refine e2.trans ?_
        rw [hdiv, pow_succ]
        calc (l1 ps : F) * (E * θ ^ ((n - T) / T)) ≤ θ * p0 * (E * θ ^ ((n - T) / T)) :=
              mul_le_mul_of_nonneg_right hθ (mul_nonneg hE0 (pow_nonneg hθ0 _))
          _ = p0 * (E * (θ ^ ((n - T) / T) * θ)) := by ring
      exact le_of_mul_le_mul_left e4 hp0

end

/-- The filter applied to an oscillation. -/
theorem cv_osc (p : List ℤ) (u : ℕ → ℂ) (c z : ℂ) (hz : z ≠ 0) (m : ℕ) (hu : ∀ n, m ≤ n → u n = c * z ^ n) (n : ℕ) (hn : m + p.length ≤ n) :
    cv p u n = c * z ^ n * ev p z⁻¹ := by
  induction p generalizing u c m with
  | nil => simp [cv, ev]
  | cons a p ih =>
    simp only [List.length_cons] at hn
    have h1 := ih (sh u) (c * z⁻¹) (m + 1) (by
      intro n hn
      cases n with
      | zero => omega
      | succ n =>
        simp only [sh]
        rw [hu n (by omega), pow_succ]
        field_simp) (by omega)
    simp only [cv, ev]
    rw [h1, hu n (by omega)]
    ring

theorem cv_re (p : List ℤ) (u : ℕ → ℂ) (n : ℕ) : cv p (fun n => (u n).re) n = (cv p u n).re := by
  induction p generalizing u with
  | nil => simp [cv]
  | cons a p ih =>
    have hs : sh (fun n => (u n).re) = fun n => (sh u n).re := by
      funext k
      cases k <;> simp [sh]
    simp [cv, hs, ih]

theorem norm_ev_le (p : List ℤ) (z : ℂ) (hz : ‖z‖ = 1) : ‖ev p z‖ ≤ (l1 p : ℤ) := by
  induction p with
  | nil => simp [ev, l1]
  | cons a p ih =>
    simp only [ev, l1]
    refine (norm_add_le _ _).trans ?_
    rw [norm_mul, hz, one_mul]
    push_cast
    refine add_le_add (le_of_eq ?_) ih
    rw [Complex.norm_intCast]

/-- The denominator of a stable filter has no zero on the unit circle. -/
theorem ev_ne_zero (a q ps : List ℤ) (p0 : ℤ) (hp : mul q a = p0 :: ps) (hs : l1 ps < p0) (z : ℂ) (hz : ‖z‖ = 1) : ev a z ≠ 0 := by
  intro h0
  have h1 := ev_mul q a z
  rw [h0, mul_zero, hp] at h1
  simp only [ev] at h1
  have h2 := norm_ev_le ps z hz
  have h3 : ((p0 : ℤ) : ℂ) = -(z * ev ps z) := eq_neg_of_add_eq_zero_left h1
  have h4 : ‖((p0 : ℤ) : ℂ)‖ ≤ (l1 ps : ℤ) := by
    rw [h3, norm_neg, norm_mul, hz, one_mul]
    exact h2
  rw [Complex.norm_intCast] at h4
  have h5 : (l1 ps : ℝ) < |((p0 : ℤ) : ℝ)| := by
    rw [abs_of_pos (by exact_mod_cast (l1_nonneg ps).trans_lt hs)]
    exact_mod_cast hs
  linarith

/-- The gain of a filter at the frequency of `z` (on the unit circle). -/
noncomputable def gain (b a : List ℤ) (z : ℂ) : ℂ := ev b z⁻¹ / ev a z⁻¹

/-- The response to a real oscillation that starts at time 0 approaches the oscillation times the gain. -/
theorem oscillation (a b q ps : List ℤ) (p0 : ℤ) (hp : mul q a = p0 :: ps) (hs : l1 ps < p0) (θ : ℝ) (hθ : (l1 ps : ℝ) ≤ θ * p0) (hθ1 : θ ≤ 1)
    (G : ℝ) (hG : (l1 (mul q b) : ℝ) ≤ G * ((p0 - l1 ps : ℤ) : ℝ)) (c z : ℂ) (hz : ‖z‖ = 1) (x y : ℕ → ℝ) (N T : ℕ)
    (hT : q.length + max a.length b.length ≤ T) (hT' : ps.length + 1 ≤ T) (hx : ∀ n, n < N → x n = (c * z ^ n).re)
    (h : ∀ n, n < N → cv a y n = cv b x n) (n : ℕ) (hn : n < N) :
    |y n - (gain b a z * (c * z ^ n)).re| ≤ (G + ‖gain b a z‖) * ‖c‖ * θ ^ (n / T) := by
  have hz0 : z ≠ 0 := by
    rintro rfl
    simp at hz
  have hzi : ‖z⁻¹‖ = 1 := by rw [norm_inv, hz, inv_one]
  have ha := ev_ne_zero a q ps p0 hp hs z⁻¹ hzi
  have hd : (0 : ℝ) < ((p0 - l1 ps : ℤ) : ℝ) := by exact_mod_cast sub_pos.mpr hs
  set x' : ℕ → ℝ := fun n => (c * z ^ n).re with hx'
  have hxx : ∀ n, n < N → cv b x n = cv b x' n := fun n hn => cv_local _ _ _ _ (fun k hk _ => hx k (by omega))
  have hxb : ∀ n, |x' n| ≤ ‖c‖ := by
    intro n
    refine (Complex.abs_re_le_norm _).trans (le_of_eq ?_)
    rw [norm_mul, norm_pow, hz, one_pow, mul_one]
  have hyb : ∀ n, n < N → |y n| ≤ G * ‖c‖ := by
    intro n hn
    have h1 := bounded a b q ps p0 hp hs x' y N (fun n hn => (h n hn).trans (hxx n hn)) ‖c‖ hxb n hn
    have h2 := mul_le_mul_of_nonneg_right hG (norm_nonneg c)
    have h3 : ((p0 - l1 ps : ℤ) : ℝ) * |y n| ≤ ((p0 - l1 ps : ℤ) : ℝ) * (G * ‖c‖) := by
      refine (h1.trans h2).trans (le_of_eq ?_)
      ring
    exact le_of_mul_le_mul_left h3 hd
  refine decay a q ps p0 hp hs θ hθ hθ1 (fun n => y n - (gain b a z * (c * z ^ n)).re) N (max a.length b.length) T hT hT' ?_ _ ?_ n hn
  · intro n hr hn
    rw [cv_sub, h n hn, hxx n hn, cv_re, cv_re, ← Complex.sub_re,
      cv_osc b (fun n => c * z ^ n) c z hz0 0 (fun _ _ => rfl) n (by omega),
      cv_osc a (fun n => gain b a z * (c * z ^ n)) (gain b a z * c) z hz0 0 (fun _ _ => by ring) n (by omega)]
    have : c * z ^ n * ev b z⁻¹ - gain b a z * c * z ^ n * ev a z⁻¹ = 0 := by
      have hg : gain b a z * ev a z⁻¹ = ev b z⁻¹ := div_mul_cancel₀ _ ha
      linear_combination (-(c * z ^ n)) * hg
    rw [this]
    rfl
  · intro n hn
    refine (abs_sub _ _).trans ?_
    rw [add_mul]
    refine add_le_add (hyb n hn) ((Complex.abs_re_le_norm _).trans (le_of_eq ?_))
    rw [norm_mul, norm_mul, norm_pow, hz, one_pow, mul_one]

/-- A bound of the gain from the check of `IntPoly`. -/
theorem gain_le (b a : List ℤ) (z : ℂ) (hz : ‖z‖ = 1) (ha : ev a z⁻¹ ≠ 0) (k : ℤ) (m : ℤ) (hk : 0 < k) (hm : 0 ≤ m)
    (h : (0 : ℝ) ≤ ev (add (smul (m * m) (normPoly a)) (smul (-(k * k)) (normPoly b))) z.re) : ‖gain b a z‖ ≤ (m : ℝ) / k := by
  have hz' : Complex.normSq z⁻¹ = 1 := by
    rw [map_inv₀, Complex.normSq_eq_norm_sq, hz]
    norm_num
  have hre : z⁻¹.re = z.re := by
    rw [Complex.inv_re, Complex.normSq_eq_norm_sq, hz]
    norm_num
  rw [ev_add, ev_smul, ev_smul, ← hre, ← normPoly_sound _ _ hz', ← normPoly_sound _ _ hz', Complex.normSq_eq_norm_sq, Complex.normSq_eq_norm_sq] at h
  push_cast at h
  have hk' : (0 : ℝ) < k := by exact_mod_cast hk
  have hm' : (0 : ℝ) ≤ m := by exact_mod_cast hm
  have hA : 0 < ‖ev a z⁻¹‖ := norm_pos_iff.mpr ha
  unfold gain
  rw [norm_div, div_le_div_iff₀ hA hk']
  have : (‖ev b z⁻¹‖ * k) ^ 2 ≤ (m * ‖ev a z⁻¹‖) ^ 2 := by nlinarith
  exact le_of_sq_le_sq this (by positivity)

theorem le_gain (b a : List ℤ) (z : ℂ) (hz : ‖z‖ = 1) (ha : ev a z⁻¹ ≠ 0) (k : ℤ) (m : ℤ) (hk : 0 < k) (hm : 0 ≤ m)
    (h : (0 : ℝ) ≤ ev (add (smul (k * k) (normPoly b)) (smul (-(m * m)) (normPoly a))) z.re) : (m : ℝ) / k ≤ ‖gain b a z‖ := by
  have hz' : Complex.normSq z⁻¹ = 1 := by
    rw [map_inv₀, Complex.normSq_eq_norm_sq, hz]
    norm_num
  have hre : z⁻¹.re = z.re := by
    rw [Complex.inv_re, Complex.normSq_eq_norm_sq, hz]
    norm_num
  rw [ev_add, ev_smul, ev_smul, ← hre, ← normPoly_sound _ _ hz', ← normPoly_sound _ _ hz', Complex.normSq_eq_norm_sq, Complex.normSq_eq_norm_sq] at h
  push_cast at h
  have hk' : (0 : ℝ) < k := by exact_mod_cast hk
  have hm' : (0 : ℝ) ≤ m := by exact_mod_cast hm
  have hA : 0 < ‖ev a z⁻¹‖ := norm_pos_iff.mpr ha
  unfold gain
  rw [norm_div, div_le_div_iff₀ hk' hA]
  have : (m * ‖ev a z⁻¹‖) ^ 2 ≤ (‖ev b z⁻¹‖ * k) ^ 2 := by nlinarith
  exact le_of_sq_le_sq this (by positivity)

/-- `∑ a i * b i`. -/
def dot : List ℤ → List ℤ → ℤ
  | [], _ => 0
  | _, [] => 0
  | a :: p, b :: q => a * b + dot p q

/-- The first coefficients of `1 / (a0 + a)` (times a power of two), rounded, latest first. The comparison makes the kernel evaluate the value before it
goes on. -/
def recip (a0 : ℤ) (a : List ℤ) : Nat → List ℤ → List ℤ
  | 0, acc => acc
  | n + 1, acc => let x := (-(dot a acc)) / a0; bif decide (x < 2 ^ 80) then recip a0 a n (x :: acc) else []

/-- The check of a certificate: what is left of the past is divided by `k` in `T` steps, and no bounded input is enlarged more than `g` times. -/
def cert (a b q : List ℤ) (k g : ℤ) (T : ℕ) : Bool :=
  match mul q a with
  | [] => false
  | p0 :: ps => decide (0 < p0) && decide (k * l1 ps ≤ p0) && decide (l1 (mul q b) ≤ g * (p0 - l1 ps)) &&
      decide (q.length + max a.length b.length ≤ T) && decide (ps.length + 1 ≤ T)

theorem cert_sound (a b q : List ℤ) (k g : ℤ) (T : ℕ) (h : cert a b q k g T = true) (hk : 1 < k) : ∃ p0 ps, mul q a = p0 :: ps ∧ l1 ps < p0 ∧ k * l1 ps ≤ p0 ∧
    l1 (mul q b) ≤ g * (p0 - l1 ps) ∧ q.length + max a.length b.length ≤ T ∧ ps.length + 1 ≤ T := by
  unfold cert at h
  split at h
  · cases h
  · rename_i p0 ps hp
    simp only [Bool.and_eq_true, decide_eq_true_eq] at h
    obtain ⟨⟨⟨⟨h1, h2⟩, h3⟩, h4⟩, h5⟩ := h
    refine ⟨p0, ps, hp, ?_, h2, h3, h4, h5⟩
    have := l1_nonneg ps
    nlinarith

end QM.Stable
