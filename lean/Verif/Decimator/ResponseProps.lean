import Verif.Decimator.Certs
import Verif.Decimator.Props
import Mathlib.Algebra.BigOperators.Field
import Mathlib.Analysis.SpecialFunctions.Trigonometric.Basic
import Mathlib.Analysis.SpecialFunctions.Trigonometric.Bounds
import Mathlib.Analysis.SpecialFunctions.Complex.Log

/-!
# C78: the decimator is stable and keeps aliases out

For the factors 2, 4 and 8, in exact arithmetic with the decimal coefficients of the source.
-/

namespace QM.Decimator

open QM.IntPoly QM.Stable QM.Filter Finset

/-- The frequency response of the filter for factor `f` at `ω` radians per input sample: the numerator over the denominator at
`exp (i ω)`. -/
noncomputable def response (f : Nat) (ω : ℝ) : ℂ :=
  (∑ k ∈ range 8, ((((coeffs f).1.getD k 0 : ℚ) : ℂ)) * Complex.exp (-(k * (ω * Complex.I)))) /
    (∑ k ∈ range 8, ((((coeffs f).2.getD k 0 : ℚ) : ℂ)) * Complex.exp (-(k * (ω * Complex.I))))

theorem ev_sum (p : List ℤ) (x : ℂ) : ev p x = ∑ k ∈ range p.length, ((p.getD k 0 : ℤ) : ℂ) * x ^ k := by
  induction p with
  | nil => simp [ev]
  | cons a p ih =>
    rw [ev, ih, List.length_cons, sum_range_succ', mul_sum]
    simp only [List.getD_cons_succ, List.getD_cons_zero, pow_zero, mul_one, pow_succ]
    rw [add_comm]
    congr 1
    exact sum_congr rfl (fun k _ => by ring)

theorem int_length (f : Nat) (hf : f = 2 ∨ f = 4 ∨ f = 8) : (intA f).length = 8 ∧ (intB f).length = 8 := by
  rcases hf with rfl | rfl | rfl <;> exact ⟨rfl, rfl⟩

theorem getD_map_div (p : List ℤ) (k : Nat) : (p.map (fun k : ℤ => (k : ℚ) / 10 ^ 19)).getD k 0 = (p.getD k 0 : ℚ) / 10 ^ 19 := by
  rw [List.getD_eq_getElem?_getD, List.getD_eq_getElem?_getD, List.getElem?_map]
  cases p[k]? <;> simp

theorem response_gain (f : Nat) (hf : f = 2 ∨ f = 4 ∨ f = 8) (ω : ℝ) : response f ω = gain (intB f) (intA f) (Complex.exp (ω * Complex.I)) := by
  have hk : ∀ k : ℕ, Complex.exp (-(k * (ω * Complex.I))) = (Complex.exp (ω * Complex.I))⁻¹ ^ k := by
    intro k
    rw [← Complex.exp_neg, ← Complex.exp_nat_mul]
    congr 1
    ring
  have hp : ∀ p : List ℤ, p.length = 8 → (∑ k ∈ range 8, ((((p.map (fun k : ℤ => (k : ℚ) / 10 ^ 19)).getD k 0 : ℚ) : ℂ)) * Complex.exp (-(k * (ω * Complex.I)))) =
      ev p (Complex.exp (ω * Complex.I))⁻¹ / 10 ^ 19 := by
    intro p hp
    rw [ev_sum, hp, sum_div]
    refine sum_congr rfl (fun k _ => ?_)
    rw [hk, getD_map_div]
    push_cast
    ring
  obtain ⟨h1, h2⟩ := coeffs_int f hf
  obtain ⟨l1, l2⟩ := int_length f hf
  unfold response gain
  rw [h1, h2, hp _ l1, hp _ l2, div_div_div_cancel_right₀ (by norm_num)]

theorem cert_ok (f : Nat) (hf : f = 2 ∨ f = 4 ∨ f = 8) : cert (intA f) (intB f) (certQ f) 50 3 1250 = true := by
  rcases hf with rfl | rfl | rfl
  · exact cert2
  · exact cert4
  · exact cert8

theorem norm_exp_omega (ω : ℝ) : ‖Complex.exp (ω * Complex.I)‖ = 1 := Complex.norm_exp_ofReal_mul_I ω

theorem exp_omega_re (ω : ℝ) : (Complex.exp (ω * Complex.I)).re = Real.cos ω := Complex.exp_ofReal_mul_I_re ω

theorem den_ne_zero (f : Nat) (hf : f = 2 ∨ f = 4 ∨ f = 8) (ω : ℝ) : ev (intA f) (Complex.exp (ω * Complex.I))⁻¹ ≠ 0 := by
  obtain ⟨p0, ps, h1, h2, -⟩ := cert_sound _ _ _ _ _ _ (cert_ok f hf) (by norm_num)
  exact ev_ne_zero _ _ _ _ h1 h2 _ (by rw [norm_inv, norm_exp_omega, inv_one])

/-- **C78** No frequency is amplified: the gain is at most 1.0001 everywhere. -/
theorem C78_no_gain (f : Nat) (hf : f = 2 ∨ f = 4 ∨ f = 8) (ω : ℝ) : ‖response f ω‖ ≤ 1.0001 := by
  rw [response_gain f hf]
  refine (gain_le _ _ _ (norm_exp_omega ω) (den_ne_zero f hf ω) 10000 10001 (by norm_num) (by norm_num) ?_).trans (by norm_num)
  rw [exp_omega_re]
  have h1 := Real.neg_one_le_cos ω
  have h2 := Real.cos_le_one ω
  rcases hf with rfl | rfl | rfl
  · exact pos_scaled 1048576 (by norm_num) _ _ _ _ upper2 _ (by push_cast; linarith) (by push_cast; linarith)
  · exact pos_scaled 1048576 (by norm_num) _ _ _ _ upper4 _ (by push_cast; linarith) (by push_cast; linarith)
  · exact pos_scaled 1048576 (by norm_num) _ _ _ _ upper8 _ (by push_cast; linarith) (by push_cast; linarith)

theorem cos_stop4 : Real.cos (Real.pi / 4) ≤ 741475 / 1048576 := by
  rw [Real.cos_pi_div_four]
  have : Real.sqrt 2 ≤ 741475 / 1048576 * 2 := Real.sqrt_le_iff.mpr ⟨by norm_num, by norm_num⟩
  linarith

theorem cos_stop8 : Real.cos (Real.pi / 8) ≤ 968778 / 1048576 := by
  rw [Real.cos_pi_div_eight]
  have h2 : Real.sqrt 2 ≤ 14143 / 10000 := Real.sqrt_le_iff.mpr ⟨by norm_num, by norm_num⟩
  have : Real.sqrt (2 + Real.sqrt 2) ≤ 968778 / 1048576 * 2 := Real.sqrt_le_iff.mpr ⟨by norm_num, by norm_num; linarith⟩
  linarith

/-- **C78** Every frequency from the new Nyquist frequency up, which would be folded onto a lower one, is attenuated by 19.97 dB at least. -/
theorem C78_stopband (f : Nat) (hf : f = 2 ∨ f = 4 ∨ f = 8) (ω : ℝ) (h1 : Real.pi / f ≤ ω) (h2 : ω ≤ Real.pi) : ‖response f ω‖ ≤ 0.1003 := by
  rw [response_gain f hf]
  refine (gain_le _ _ _ (norm_exp_omega ω) (den_ne_zero f hf ω) 10000 1003 (by norm_num) (by norm_num) ?_).trans (by norm_num)
  rw [exp_omega_re]
  have h3 := Real.neg_one_le_cos ω
  have hpi := Real.pi_pos
  have h4 : Real.cos ω ≤ Real.cos (Real.pi / f) := Real.cos_le_cos_of_nonneg_of_le_pi (by positivity) h2 h1
  rcases hf with rfl | rfl | rfl
  · have h5 : Real.cos ω ≤ 0 := by
      push_cast at h4
      rwa [Real.cos_pi_div_two] at h4
    exact pos_scaled 1048576 (by norm_num) _ _ _ _ stop2 _ (by push_cast; linarith) (by push_cast; linarith)
  · have h5 := cos_stop4
    push_cast at h4
    exact pos_scaled 1048576 (by norm_num) _ _ _ _ stop4 _ (by push_cast; linarith) (by push_cast; linarith)
  · have h5 := cos_stop8
    push_cast at h4
    exact pos_scaled 1048576 (by norm_num) _ _ _ _ stop8 _ (by push_cast; linarith) (by push_cast; linarith)

theorem cos_pass4 : 848295 / 1048576 ≤ Real.cos (Real.pi / 5) := by
  rw [Real.cos_pi_div_five]
  have : (848295 / 1048576 * 4 - 1 : ℝ) ≤ Real.sqrt 5 := Real.le_sqrt_of_sq_le (by norm_num)
  linarith

theorem cos_pass2 : 324007 / 1048576 ≤ Real.cos (2 * (Real.pi / 5)) := by
  rw [Real.cos_two_mul, Real.cos_pi_div_five]
  have h5 : Real.sqrt 5 ^ 2 = 5 := Real.sq_sqrt (by norm_num)
  have : (324007 / 1048576 * 4 + 1 : ℝ) ≤ Real.sqrt 5 := Real.le_sqrt_of_sq_le (by norm_num)
  nlinarith

theorem cos_pass8 : 997235 / 1048576 ≤ Real.cos (Real.pi / 5 / 2) := by
  have hpi := Real.pi_pos
  rw [Real.cos_half (by linarith) (by linarith)]
  apply Real.le_sqrt_of_sq_le
  rw [Real.cos_pi_div_five]
  have : (22360 / 10000 : ℝ) ≤ Real.sqrt 5 := Real.le_sqrt_of_sq_le (by norm_num)
  norm_num
  linarith

/-- **C78** Every frequency up to four fifths of the new Nyquist frequency keeps its amplitude to within 0.02 %. -/
theorem C78_passband (f : Nat) (hf : f = 2 ∨ f = 4 ∨ f = 8) (ω : ℝ) (h0 : 0 ≤ ω) (h1 : ω ≤ 4 / 5 * (Real.pi / f)) :
    0.9998 ≤ ‖response f ω‖ ∧ ‖response f ω‖ ≤ 1.0001 := by
  refine ⟨?_, C78_no_gain f hf ω⟩
  rw [response_gain f hf]
  refine le_trans (by norm_num) (le_gain _ _ _ (norm_exp_omega ω) (den_ne_zero f hf ω) 10000 9998 (by norm_num) (by norm_num) ?_)
  rw [exp_omega_re]
  have h3 := Real.cos_le_one ω
  have hpi := Real.pi_pos
  have hf2 : (2 : ℝ) ≤ f := by
    rcases hf with rfl | rfl | rfl <;> norm_num
  have h4 : Real.cos (4 / 5 * (Real.pi / f)) ≤ Real.cos ω := by
    refine Real.cos_le_cos_of_nonneg_of_le_pi h0 ?_ h1
    have : Real.pi / f ≤ Real.pi := div_le_self hpi.le (by linarith)
    linarith
  rcases hf with rfl | rfl | rfl
  · have h5 := cos_pass2
    rw [show 4 / 5 * (Real.pi / ((2 : ℕ) : ℝ)) = 2 * (Real.pi / 5) by push_cast; ring] at h4
    exact pos_scaled 1048576 (by norm_num) _ _ _ _ pass2 _ (by push_cast; linarith) (by push_cast; linarith)
  · have h5 := cos_pass4
    rw [show 4 / 5 * (Real.pi / ((4 : ℕ) : ℝ)) = Real.pi / 5 by push_cast; ring] at h4
    exact pos_scaled 1048576 (by norm_num) _ _ _ _ pass4 _ (by push_cast; linarith) (by push_cast; linarith)
  · have h5 := cos_pass8
    rw [show 4 / 5 * (Real.pi / ((8 : ℕ) : ℝ)) = Real.pi / 5 / 2 by push_cast; ring] at h4
    exact pos_scaled 1048576 (by norm_num) _ _ _ _ pass8 _ (by push_cast; linarith) (by push_cast; linarith)

theorem delayed_zero {F : Type} [CommRing F] (x : List F) (n : ℕ) : delayed x n 0 = x.getD n 0 := by simp [delayed]

/-- The difference equation with integer coefficients over a common denominator. -/
theorem diffEq_cv {F : Type} [Field F] (b a : List ℤ) (d : ℤ) (hd : (d : F) ≠ 0) (ha : a.getD 0 0 = d) (hl : a ≠ []) (x y : List F)
    (h : DiffEq (b.map (fun k : ℤ => (k : F) / d)) (a.map (fun k : ℤ => (k : F) / d)) x y) (n : ℕ) (hn : n < x.length) :
    cv a (fun n => delayed y n 0) n = cv b (fun n => delayed x n 0) n := by
  have hg : ∀ (p : List ℤ) k, (p.map (fun k : ℤ => (k : F) / d)).getD k 0 = (p.getD k 0 : F) / d := by
    intro p k
    rw [List.getD_eq_getElem?_getD, List.getD_eq_getElem?_getD, List.getElem?_map]
    cases p[k]? <;> simp
  have e := h.2 n hn
  simp only [hg, List.length_map] at e
  rw [cv_delayed, cv_delayed]
  simp only [Nat.add_zero]
  obtain ⟨m, hm⟩ : ∃ m, a.length = m + 1 := ⟨a.length - 1, by have := List.length_pos_iff.mpr hl; omega⟩
  rw [hm, sum_range_succ', ha, delayed_zero, e]
  rw [hm, Nat.add_sub_cancel] at *
  have h1 : ∀ (p : ℕ → F) (q : ℕ → F) k, ∑ i ∈ range k, p i / d * q i = (∑ i ∈ range k, p i * q i) / d := by
    intro p q k
    rw [sum_div]
    exact sum_congr rfl (fun i _ => by ring)
  rw [h1 (fun i => ((b.getD i 0 : ℤ) : F)), h1 (fun i => ((a.getD (i + 1) 0 : ℤ) : F))]
  field_simp
  ring

theorem link (f : Nat) (hf : f = 2 ∨ f = 4 ∨ f = 8) (x y : List ℝ) (h : DiffEq (bOf f) (aOf f) x y) (n : ℕ) (hn : n < x.length) :
    cv (intA f) (fun n => delayed y n 0) n = cv (intB f) (fun n => delayed x n 0) n := by
  refine diffEq_cv (intB f) (intA f) (10 ^ 19) (by norm_num) ?_ ?_ x y ?_ n hn
  · rcases hf with rfl | rfl | rfl <;> rfl
  · rcases hf with rfl | rfl | rfl <;> simp [intA]
  · obtain ⟨h1, h2⟩ := coeffs_int f hf
    unfold bOf aOf at h
    rw [h1, h2, List.map_map, List.map_map] at h
    have hc : ((fun q : ℚ => (q : ℝ)) ∘ fun k : ℤ => (k : ℚ) / 10 ^ 19) = fun k : ℤ => (k : ℝ) / ((10 ^ 19 : ℤ) : ℝ) := by
      funext k
      simp only [Function.comp_apply, Rat.cast_div, Rat.cast_intCast, Rat.cast_pow, Rat.cast_ofNat]
      norm_num
    rwa [hc] at h

/-- **C78** The decimator is stable: however long the stream and however it is cut into blocks, input within `M` gives output within
`3 M`. -/
theorem C78_bounded (q f : Nat) (hf : f = 2 ∨ f = 4 ∨ f = 8) (hq : 0 < q) (s : State ℝ) (h : new (f * q) f = some s)
    (calls : List (List ℝ × List ℝ)) (hlen : ∀ c ∈ calls, c.1.length = f * q ∧ c.2.length = q) (M : ℝ) (hM : 0 ≤ M)
    (hx : ∀ c ∈ calls, ∀ v ∈ c.1, |v| ≤ M) :
    ∃ s' outs, run s calls = some (s', outs) ∧ outs.flatten.length = calls.length * q ∧ ∀ v ∈ outs.flatten, |v| ≤ 3 * M := by
  have hf0 : 0 < f := by rcases hf with rfl | rfl | rfl <;> norm_num
  have hf1 : f ≠ 1 := by rcases hf with rfl | rfl | rfl <;> norm_num
  obtain ⟨s', outs, y, e1, e2, -, e4, e5⟩ := C14_every_fth q f hf0 hq s h calls hlen
  refine ⟨s', outs, e1, e4, ?_⟩
  intro v hv
  obtain ⟨m, hm⟩ := List.getElem?_of_mem hv
  have hm' : m < calls.length * q := by
    rw [← e4]
    exact (List.getElem?_eq_some_iff.mp hm).1
  rw [e5 m hm'] at hm
  set x := (calls.map Prod.fst).flatten with hxd
  have hd := e2 hf1
  obtain ⟨p0, ps, c1, c2, c3, c4, -, -⟩ := cert_sound _ _ _ _ _ _ (cert_ok f hf) (by norm_num)
  have hlt : f * m < x.length := by
    rw [← hd.1]
    exact (List.getElem?_eq_some_iff.mp hm).1
  have hb := bounded (intA f) (intB f) (certQ f) ps p0 c1 c2 (fun n => delayed x n 0) (fun n => delayed y n 0) x.length
    (link f hf x y hd) M (by
      intro n
      beta_reduce
      rw [delayed_zero, List.getD_eq_getElem?_getD]
      cases hg : x[n]? with
      | none => simpa using hM
      | some w =>
        have hw := List.mem_of_getElem? hg
        rw [hxd, List.mem_flatten] at hw
        obtain ⟨l, hl, hwl⟩ := hw
        obtain ⟨c, hc, rfl⟩ := List.mem_map.mp hl
        exact hx c hc w hwl) (f * m) hlt
  beta_reduce at hb
  rw [delayed_zero, List.getD_eq_getElem?_getD, hm, Option.getD_some] at hb
  have hD : (0 : ℝ) < ((p0 - l1 ps : ℤ) : ℝ) := by exact_mod_cast sub_pos.mpr c2
  have hG : ((l1 (mul (certQ f) (intB f)) : ℤ) : ℝ) ≤ 3 * ((p0 - l1 ps : ℤ) : ℝ) := by exact_mod_cast c4
  have : ((p0 - l1 ps : ℤ) : ℝ) * |v| ≤ ((p0 - l1 ps : ℤ) : ℝ) * (3 * M) := by
    refine hb.trans ?_
    have := mul_le_mul_of_nonneg_right hG hM
    linarith
  exact le_of_mul_le_mul_left this hD

/-- **C78** A sinusoid in gives, after a transient that dies away geometrically, the sinusoid of the frequency response out, sampled
every `f` input samples. -/
theorem C78_sinusoid (q f : Nat) (hf : f = 2 ∨ f = 4 ∨ f = 8) (hq : 0 < q) (s : State ℝ) (h : new (f * q) f = some s)
    (calls : List (List ℝ × List ℝ)) (hlen : ∀ c ∈ calls, c.1.length = f * q ∧ c.2.length = q) (A ω φ : ℝ)
    (hx : ∀ (n : ℕ) v, (calls.map Prod.fst).flatten[n]? = some v → v = A * Real.cos (ω * n + φ)) :
    ∃ s' outs, run s calls = some (s', outs) ∧ outs.flatten.length = calls.length * q ∧
      ∀ m v, outs.flatten[m]? = some v →
        |v - A * ‖response f ω‖ * Real.cos (ω * (f * m : ℕ) + φ + (response f ω).arg)| ≤ 4.1 * |A| * (1 / 50) ^ (f * m / 1250) := by
  have hf0 : 0 < f := by rcases hf with rfl | rfl | rfl <;> norm_num
  have hf1 : f ≠ 1 := by rcases hf with rfl | rfl | rfl <;> norm_num
  obtain ⟨s', outs, y, e1, e2, -, e4, e5⟩ := C14_every_fth q f hf0 hq s h calls hlen
  refine ⟨s', outs, e1, e4, ?_⟩
  intro m v hm
  have hm' : m < calls.length * q := by
    rw [← e4]
    exact (List.getElem?_eq_some_iff.mp hm).1
  rw [e5 m hm'] at hm
  set x := (calls.map Prod.fst).flatten with hxd
  have hd := e2 hf1
  obtain ⟨p0, ps, c1, c2, c3, c4, c5, c6⟩ := cert_sound _ _ _ _ _ _ (cert_ok f hf) (by norm_num)
  have hlt : f * m < x.length := by
    rw [← hd.1]
    exact (List.getElem?_eq_some_iff.mp hm).1
  have hc3 : ((50 : ℤ) : ℝ) * (l1 ps : ℝ) ≤ p0 := by exact_mod_cast c3
  have hG : ((l1 (mul (certQ f) (intB f)) : ℤ) : ℝ) ≤ 3 * ((p0 - l1 ps : ℤ) : ℝ) := by exact_mod_cast c4
  have hz : ∀ n : ℕ, (A : ℂ) * Complex.exp (φ * Complex.I) * Complex.exp (ω * Complex.I) ^ n = (A : ℂ) * Complex.exp (((ω * n + φ : ℝ) : ℂ) * Complex.I) := by
    intro n
    rw [← Complex.exp_nat_mul, mul_assoc, ← Complex.exp_add]
    congr 2
    push_cast
    ring
  have ho := oscillation (intA f) (intB f) (certQ f) ps p0 c1 c2 (1 / 50) (by push_cast at hc3; linarith) (by norm_num) 3 hG
    ((A : ℂ) * Complex.exp (φ * Complex.I)) (Complex.exp (ω * Complex.I)) (norm_exp_omega ω) (fun n => delayed x n 0) (fun n => delayed y n 0) x.length 1250
    c5 c6 (by
      intro n hn
      beta_reduce
      rw [delayed_zero, List.getD_eq_getElem?_getD, List.getElem?_eq_getElem hn, Option.getD_some, hx n x[n] (List.getElem?_eq_getElem hn), hz,
        Complex.re_ofReal_mul, Complex.exp_ofReal_mul_I_re])
    (link f hf x y hd) (f * m) hlt
  beta_reduce at ho
  rw [delayed_zero, List.getD_eq_getElem?_getD, hm, Option.getD_some, ← response_gain f hf, hz] at ho
  have hr : (response f ω * ((A : ℂ) * Complex.exp (((ω * (f * m : ℕ) + φ : ℝ) : ℂ) * Complex.I))).re =
      A * ‖response f ω‖ * Real.cos (ω * (f * m : ℕ) + φ + (response f ω).arg) := by
    conv_lhs => rw [← Complex.norm_mul_exp_arg_mul_I (response f ω)]
    rw [show ((‖response f ω‖ : ℝ) : ℂ) * Complex.exp ((response f ω).arg * Complex.I) * ((A : ℂ) * Complex.exp (((ω * (f * m : ℕ) + φ : ℝ) : ℂ) * Complex.I)) =
      ((A * ‖response f ω‖ : ℝ) : ℂ) * (Complex.exp ((response f ω).arg * Complex.I) * Complex.exp (((ω * (f * m : ℕ) + φ : ℝ) : ℂ) * Complex.I)) by
        push_cast; ring, ← Complex.exp_add, ← add_mul, ← Complex.ofReal_add, Complex.re_ofReal_mul, Complex.exp_ofReal_mul_I_re, add_comm (Complex.arg _)]
  rw [hr] at ho
  refine ho.trans ?_
  have hn : ‖(A : ℂ) * Complex.exp (φ * Complex.I)‖ = |A| := by
    rw [norm_mul, Complex.norm_exp_ofReal_mul_I, mul_one, Complex.norm_real, Real.norm_eq_abs]
  rw [hn]
  have h9 := C78_no_gain f hf ω
  have : (3 + ‖response f ω‖) * |A| ≤ 4.1 * |A| := mul_le_mul_of_nonneg_right (by norm_num at h9 ⊢; linarith) (abs_nonneg A)
  exact mul_le_mul_of_nonneg_right this (by positivity)

/-- **C78** So a sinusoid above the new Nyquist frequency, which the decimation folds to a lower one, comes out at a tenth of its amplitude. -/
theorem C78_alias (q f : Nat) (hf : f = 2 ∨ f = 4 ∨ f = 8) (hq : 0 < q) (s : State ℝ) (h : new (f * q) f = some s)
    (calls : List (List ℝ × List ℝ)) (hlen : ∀ c ∈ calls, c.1.length = f * q ∧ c.2.length = q) (A ω φ : ℝ)
    (h1 : Real.pi / f ≤ ω) (h2 : ω ≤ Real.pi)
    (hx : ∀ (n : ℕ) v, (calls.map Prod.fst).flatten[n]? = some v → v = A * Real.cos (ω * n + φ)) :
    ∃ s' outs, run s calls = some (s', outs) ∧ outs.flatten.length = calls.length * q ∧
      ∀ m v, outs.flatten[m]? = some v → |v| ≤ 0.1003 * |A| + 4.1 * |A| * (1 / 50) ^ (f * m / 1250) := by
  obtain ⟨s', outs, e1, e2, e3⟩ := C78_sinusoid q f hf hq s h calls hlen A ω φ hx
  refine ⟨s', outs, e1, e2, ?_⟩
  intro m v hm
  have h3 := e3 m v hm
  have h4 := C78_stopband f hf ω h1 h2
  have h5 : |A * ‖response f ω‖ * Real.cos (ω * (f * m : ℕ) + φ + (response f ω).arg)| ≤ 0.1003 * |A| := by
    rw [abs_mul, abs_mul, abs_of_nonneg (norm_nonneg (response f ω))]
    have := Real.abs_cos_le_one (ω * (f * m : ℕ) + φ + (response f ω).arg)
    calc |A| * ‖response f ω‖ * _ ≤ |A| * ‖response f ω‖ * 1 := mul_le_mul_of_nonneg_left this (by positivity)
      _ = ‖response f ω‖ * |A| := by ring
      _ ≤ 0.1003 * |A| := mul_le_mul_of_nonneg_right h4 (abs_nonneg A)
  have h6 := abs_sub_abs_le_abs_sub v (A * ‖response f ω‖ * Real.cos (ω * (f * m : ℕ) + φ + (response f ω).arg))
  linarith

/-- A factor and block size that the constructor accepts, and blocks of the fastest oscillation. -/
example : ∃ s : State ℝ, new (2 * 2) 2 = some s ∧
    (∀ c ∈ [(([1, -1, 1, -1], [0, 0]) : List ℝ × List ℝ), ([1, -1, 1, -1], [0, 0])], c.1.length = 2 * 2 ∧ c.2.length = 2) ∧
    (∀ (n : ℕ) v, ([(([1, -1, 1, -1], [0, 0]) : List ℝ × List ℝ), ([1, -1, 1, -1], [0, 0])].map Prod.fst).flatten[n]? = some v →
      v = 1 * Real.cos (Real.pi * n + 0)) ∧ Real.pi / (2 : ℕ) ≤ Real.pi := by
  refine ⟨_, rfl, by simp, ?_, by have := Real.pi_pos; push_cast; linarith⟩
  intro n v h
  have hc : Real.cos (Real.pi * n) = (-1) ^ n := by rw [mul_comm]; exact Real.cos_nat_mul_pi n
  rw [add_zero, one_mul, hc]
  match n, h with
  | 0, h | 1, h | 2, h | 3, h | 4, h | 5, h | 6, h | 7, h => simp at h; subst h; norm_num
  | n + 8, h => simp at h

end QM.Decimator
