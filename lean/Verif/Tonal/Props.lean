import Verif.Tonal.Model
import Verif.Common.Sum
import Verif.PolyFit.Gauss
import Mathlib.Algebra.BigOperators.Field
import Mathlib.Analysis.SpecialFunctions.Complex.Circle
import Mathlib.Analysis.SpecialFunctions.Trigonometric.Deriv
import Mathlib.Tactic.FieldSimp
import Mathlib.Tactic.FinCases

/-!
# C62: tonal centroids
-/

namespace QM.Tonal

open Finset

/-- The centroid of a chroma vector on a circle on which one semitone is the angle `θ`. -/
noncomputable def centroid (θ : ℝ) (c : List ℝ) : ℂ :=
  ∑ p ∈ range 12, (c.getD p 0 : ℂ) * Complex.exp ((θ : ℂ) * Complex.I) ^ p

/-- One semitone on the circle of fifths: seven twelfths of a turn. -/
noncomputable def fifths : ℝ := 2 * Real.pi * 7 / 12
/-- One semitone on the circle of major thirds: four twelfths of a turn. -/
noncomputable def majorThirds : ℝ := 2 * Real.pi * 4 / 12
/-- One semitone on the circle of minor thirds: nine twelfths of a turn. -/
noncomputable def minorThirds : ℝ := 2 * Real.pi * 9 / 12

/-- The six coordinates of the three centroids, with radii 1, 0.6 and 1.1. -/
noncomputable def tcs (c : List ℝ) : List ℝ :=
  [(centroid fifths c).im, (centroid fifths c).re,
   6 / 10 * (centroid majorThirds c).im, 6 / 10 * (centroid majorThirds c).re,
   11 / 10 * (centroid minorThirds c).im, 11 / 10 * (centroid minorThirds c).re]

/-- The chroma vector one semitone higher. -/
noncomputable def transpose (c : List ℝ) : List ℝ :=
  (List.range 12).map (fun p : Nat => c.getD ((p + 11) % 12) 0)

theorem exp_pow_re (θ : ℝ) (p : Nat) : (Complex.exp ((θ : ℂ) * Complex.I) ^ p).re = Real.cos (θ * p) := by
  rw [← Complex.exp_nat_mul, show ((p : ℂ) * ((θ : ℂ) * Complex.I)) = ((θ * p : ℝ) : ℂ) * Complex.I by
    push_cast; ring, Complex.exp_ofReal_mul_I_re]

theorem exp_pow_im (θ : ℝ) (p : Nat) : (Complex.exp ((θ : ℂ) * Complex.I) ^ p).im = Real.sin (θ * p) := by
  rw [← Complex.exp_nat_mul, show ((p : ℂ) * ((θ : ℂ) * Complex.I)) = ((θ * p : ℝ) : ℂ) * Complex.I by
    push_cast; ring, Complex.exp_ofReal_mul_I_im]

theorem centroid_re (θ : ℝ) (c : List ℝ) :
    (centroid θ c).re = ∑ p ∈ range 12, Real.cos (θ * p) * c.getD p 0 := by
  unfold centroid
  rw [Complex.re_sum]
  refine sum_congr rfl fun p _ => ?_
  rw [Complex.re_ofReal_mul, exp_pow_re, mul_comm]

theorem centroid_im (θ : ℝ) (c : List ℝ) :
    (centroid θ c).im = ∑ p ∈ range 12, Real.sin (θ * p) * c.getD p 0 := by
  unfold centroid
  rw [Complex.im_sum]
  refine sum_congr rfl fun p _ => ?_
  rw [Complex.im_ofReal_mul, exp_pow_im, mul_comm]

theorem basis_holds (i : Nat) (hi : i < 6) : ∃ row, basis[i]? = some row ∧
    Holds 12 (fun p => row.getD p 0) row := by
  have hl : ∀ f : Nat → ℝ, Holds 12 (fun p => ((List.range 12).map f).getD p 0) ((List.range 12).map f) :=
    fun f => holds_of_length (by simp) 0
  match i, hi with
  | 0, _ => exact ⟨_, rfl, hl _⟩
  | 1, _ => exact ⟨_, rfl, hl _⟩
  | 2, _ => exact ⟨_, rfl, hl _⟩
  | 3, _ => exact ⟨_, rfl, hl _⟩
  | 4, _ => exact ⟨_, rfl, hl _⟩
  | 5, _ => exact ⟨_, rfl, hl _⟩

theorem row_sum (f : Nat → ℝ) (c : List ℝ) :
    ∑ p ∈ range 12, ((List.range 12).map f).getD p 0 * c.getD p 0 = ∑ p ∈ range 12, f p * c.getD p 0 := by
  refine sum_congr rfl fun p hp => ?_
  have hp := mem_range.mp hp
  simp only [List.getD_eq_getElem?_getD, List.getElem?_map, List.getElem?_range hp, Option.map_some,
    Option.getD_some]

theorem transform_sum (c : List ℝ) (hc : c.length = 12) :
    transform2TCS c = some ((List.range 6).map (fun i =>
      ∑ p ∈ range 12, ((basis.getD i []).getD p 0) * c.getD p 0)) := by
  obtain ⟨r, h1, h2⟩ := loop_inv 6 (fun i (r : List ℝ) => loop 12 (fun p (r : List ℝ) => do
    let row ← basis[i]?
    let w ← row[p]?
    let x ← c[p]?
    let t ← r[i]?
    wr r i (t + w * x)) r) (List.replicate 6 0)
    (fun k r => Part 6 k (fun i => ∑ p ∈ range 12, ((basis.getD i []).getD p 0) * c.getD p 0)
      (fun _ => 0) r)
    ((holds_replicate 6 (0 : ℝ)).part _) (by
      intro i r hi hr
      obtain ⟨row, e1, e2⟩ := basis_holds i hi
      have hrow : basis.getD i [] = row := by rw [List.getD_eq_getElem?_getD, e1]; rfl
      obtain ⟨r', f1, f2⟩ := loop_inv 12 (fun p (r : List ℝ) => do
        let row ← basis[i]?
        let w ← row[p]?
        let x ← c[p]?
        let t ← r[i]?
        wr r i (t + w * x)) r
        (fun k r' => r' = r.set i (∑ p ∈ range k, row.getD p 0 * c.getD p 0))
        (by
          rw [sum_range_zero]
          apply List.ext_getElem?
          intro j
          rw [List.getElem?_set]
          by_cases hij : i = j
          · subst hij; rw [if_pos rfl, if_pos (by rw [hr.1]; omega), hr.get hi]
          · rw [if_neg hij]) (by
          rintro p r' hp rfl
          refine ⟨_, ?_, rfl⟩
          rw [bind_ok e1, bind_ok (e2.2 p hp), bind_ok (get_getD c p 0 (by omega)),
            bind_ok (List.getElem?_set_self (by rw [hr.1]; omega)),
            wr_some _ (by rw [List.length_set, hr.1]; omega), List.set_set, sum_range_succ])
      refine ⟨r', f1, ?_⟩
      rw [f2]
      have := hr.step hi
      simp only [hrow] at this
      exact this)
  unfold transform2TCS
  rw [h1]
  congr 1
  refine h2.holds.ext ⟨by simp, fun j hj => ?_⟩
  simp [hj]

/-- C62. For every chroma vector of 12 elements the result of `transform2TCS` is the tonal centroid: the
coordinates of its centroids on the circles of fifths, major thirds and minor thirds. -/
theorem C62_transform (c : List ℝ) (hc : c.length = 12) : transform2TCS c = some (tcs c) := by
  rw [transform_sum c hc]
  congr 1
  have h6 : List.range 6 = [0, 1, 2, 3, 4, 5] := by decide
  rw [h6]
  simp only [List.map_cons, List.map_nil, basis, List.getD_cons_zero, List.getD_cons_succ, row_sum, tcs,
    centroid_re, centroid_im, mul_sum]
  have e1 : ∀ p : Nat, (7 / 6 : ℝ) * p * Real.pi = fifths * p := by intro p; unfold fifths; ring
  have e2 : ∀ p : Nat, (2 / 3 : ℝ) * p * Real.pi = majorThirds * p := by intro p; unfold majorThirds; ring
  have e3 : ∀ p : Nat, (3 / 2 : ℝ) * p * Real.pi = minorThirds * p := by intro p; unfold minorThirds; ring
  simp only [e1, e2, e3, mul_assoc]

/-- A chroma vector that is too short is read past its end. -/
theorem C62_short (c : List ℝ) (hc : c.length < 12) : transform2TCS c = none := by
  unfold transform2TCS
  refine PolyFit.loop_none_at 6 0 _ _ (by omega) fun r => ?_
  refine PolyFit.loop_none_at 12 c.length _ _ hc fun s => ?_
  cases h1 : basis[0]? with
  | none => rfl
  | some row =>
    rw [bind_ok rfl]
    cases h2 : row[c.length]? with
    | none => rfl
    | some w =>
      rw [bind_ok rfl, List.getElem?_eq_none (Nat.le_refl _)]
      rfl

theorem centroid_transpose (θ : ℝ) (hθ : ∃ k : Nat, θ * 12 = 2 * Real.pi * k) (c : List ℝ) :
    centroid θ (transpose c) = Complex.exp ((θ : ℂ) * Complex.I) * centroid θ c := by
  set w := Complex.exp ((θ : ℂ) * Complex.I) with hw
  have hw12 : w ^ 12 = 1 := by
    obtain ⟨k, hk⟩ := hθ
    rw [hw, ← Complex.exp_nat_mul, show (((12 : Nat) : ℂ) * ((θ : ℂ) * Complex.I)) = (k : ℂ) * (2 * Real.pi * Complex.I) by
      have : ((θ * 12 : ℝ) : ℂ) = ((2 * Real.pi * k : ℝ) : ℂ) := by rw [hk]
      push_cast at this ⊢
      linear_combination Complex.I * this]
    exact Complex.exp_nat_mul_two_pi_mul_I k
  unfold centroid
  rw [← hw, sum_range_succ' _ 11, sum_range_succ _ 11, mul_add, mul_sum]
  congr 1
  · refine sum_congr rfl fun p hp => ?_
    have hp := mem_range.mp hp
    have : (transpose c).getD (p + 1) 0 = c.getD p 0 := by
      unfold transpose
      simp only [List.getD_eq_getElem?_getD, List.getElem?_map, List.getElem?_range (show p + 1 < 12 by omega),
        Option.map_some, Option.getD_some]
      rw [show (p + 1 + 11) % 12 = p by omega]
    rw [this, pow_succ]
    ring
  · have : (transpose c).getD 0 0 = c.getD 11 0 := by
      unfold transpose
      simp [List.getD_eq_getElem?_getD]
    rw [this, pow_zero, mul_one, show w * ((c.getD 11 0 : ℂ) * w ^ 11) = (c.getD 11 0 : ℂ) * w ^ 12 by ring, hw12,
      mul_one]

theorem whole_fifths : ∃ k : Nat, fifths * 12 = 2 * Real.pi * k := ⟨7, by unfold fifths; push_cast; ring⟩
theorem whole_major : ∃ k : Nat, majorThirds * 12 = 2 * Real.pi * k := ⟨4, by unfold majorThirds; push_cast; ring⟩
theorem whole_minor : ∃ k : Nat, minorThirds * 12 = 2 * Real.pi * k := ⟨9, by unfold minorThirds; push_cast; ring⟩

/-- C62. Transposing the chroma vector up by any number of semitones turns each of the three centroids
about the centre of its circle, by that many steps. -/
theorem C62_transpose (n : Nat) (c : List ℝ) :
    centroid fifths (transpose^[n] c) = Complex.exp ((fifths : ℂ) * Complex.I) ^ n * centroid fifths c ∧
    centroid majorThirds (transpose^[n] c) =
      Complex.exp ((majorThirds : ℂ) * Complex.I) ^ n * centroid majorThirds c ∧
    centroid minorThirds (transpose^[n] c) =
      Complex.exp ((minorThirds : ℂ) * Complex.I) ^ n * centroid minorThirds c := by
  induction n with
  | zero => simp
  | succ n ih =>
    rw [Function.iterate_succ_apply', centroid_transpose _ whole_fifths, centroid_transpose _ whole_major,
      centroid_transpose _ whole_minor, ih.1, ih.2.1, ih.2.2]
    refine ⟨?_, ?_, ?_⟩ <;> ring

theorem magnitude_six (a b c d e f : ℝ) : magnitude [a, b, c, d, e, f] =
    some (Real.sqrt (a ^ 2 + b ^ 2 + c ^ 2 + d ^ 2 + e ^ 2 + f ^ 2)) := by
  unfold magnitude
  simp [loop]

theorem norm_sq_im_re (z : ℂ) : z.im ^ 2 + z.re ^ 2 = ‖z‖ ^ 2 := by
  rw [Complex.sq_norm, Complex.normSq_apply]; ring

theorem magnitude_tcs (c : List ℝ) : magnitude (tcs c) = some (Real.sqrt
    (‖centroid fifths c‖ ^ 2 + (6 / 10) ^ 2 * ‖centroid majorThirds c‖ ^ 2 +
      (11 / 10) ^ 2 * ‖centroid minorThirds c‖ ^ 2)) := by
  unfold tcs
  rw [magnitude_six, ← norm_sq_im_re, ← norm_sq_im_re, ← norm_sq_im_re]
  congr 2
  ring

theorem norm_turn (θ : ℝ) (n : Nat) (z : ℂ) : ‖Complex.exp ((θ : ℂ) * Complex.I) ^ n * z‖ = ‖z‖ := by
  rw [norm_mul, norm_pow, Complex.norm_exp_ofReal_mul_I, one_pow, one_mul]

/-- C62. The magnitude of the tonal centroid does not depend on the key: it is the same for every
transposition. -/
theorem C62_magnitude_transposition (n : Nat) (c : List ℝ) (hc : c.length = 12) :
    ∃ m, (transform2TCS c).bind magnitude = some m ∧
      (transform2TCS (transpose^[n] c)).bind magnitude = some m := by
  have hl : (transpose^[n] c).length = 12 := by
    induction n with
    | zero => exact hc
    | succ n ih => rw [Function.iterate_succ_apply']; simp [transpose]
  refine ⟨_, by rw [C62_transform c hc, Option.bind_some, magnitude_tcs], ?_⟩
  rw [C62_transform _ hl, Option.bind_some, magnitude_tcs, (C62_transpose n c).1, (C62_transpose n c).2.1,
    (C62_transpose n c).2.2, norm_turn, norm_turn, norm_turn]

/-- C62. The transform is linear. -/
theorem C62_linear (a b : ℝ) (c d : Nat → ℝ) (i : Nat) :
    (tcs ((List.range 12).map fun p => a * c p + b * d p)).getD i 0 =
      a * (tcs ((List.range 12).map c)).getD i 0 + b * (tcs ((List.range 12).map d)).getD i 0 := by
  have key : ∀ θ, centroid θ ((List.range 12).map fun p => a * c p + b * d p) =
      a * centroid θ ((List.range 12).map c) + b * centroid θ ((List.range 12).map d) := by
    intro θ
    unfold centroid
    rw [mul_sum, mul_sum, ← sum_add_distrib]
    refine sum_congr rfl fun p hp => ?_
    have hp := mem_range.mp hp
    simp only [List.getD_eq_getElem?_getD, List.getElem?_map, List.getElem?_range hp, Option.map_some,
      Option.getD_some]
    push_cast
    ring
  unfold tcs
  rw [key, key, key]
  match i with
  | 0 => simp
  | 1 => simp
  | 2 => simp; ring
  | 3 => simp; ring
  | 4 => simp; ring
  | 5 => simp; ring
  | n + 6 => simp

theorem norm_centroid_le (θ : ℝ) (c : List ℝ) : ‖centroid θ c‖ ≤ ∑ p ∈ range 12, |c.getD p 0| := by
  refine (norm_sum_le _ _).trans (sum_le_sum fun p _ => ?_)
  rw [norm_mul, norm_pow, Complex.norm_exp_ofReal_mul_I, one_pow, mul_one, Complex.norm_real, Real.norm_eq_abs]

/-- **C62** `clear` leaves twelve zeros, whatever was there. -/
theorem C62_clear (v : List ℝ) (hv : v.length = 12) : clearChroma v = some (List.replicate 12 0) := by
  match v, hv with
  | [a, b, c, d, e, f, g, h, i, j, k, l], _ => rfl

/-- A vector that is not zero. -/
example : clearChroma (List.replicate 12 7) = some (List.replicate 12 0) := C62_clear _ rfl

/-- C62. `normalizeL1` on 12 elements: the sum of the magnitudes becomes 1, or, if it was no more than
one in ten million, the vector becomes zero. -/
theorem C62_normalizeL1 (v : List ℝ) (hv : v.length = 12) :
    ∃ r, normalizeL1 v = some r ∧ r.length = 12 ∧
      (1 / 10 ^ 7 < ∑ p ∈ range 12, |v.getD p 0| →
        (∀ p, p < 12 → r.getD p 0 = v.getD p 0 / ∑ p ∈ range 12, |v.getD p 0|) ∧
        ∑ p ∈ range 12, |r.getD p 0| = 1) ∧
      (∑ p ∈ range 12, |v.getD p 0| ≤ 1 / 10 ^ 7 → ∀ p, p < 12 → r.getD p 0 = 0) := by
  have h1 : loop 12 (fun i s => do
    let x ← v[i]?
    some (s + |x|)) (0 : ℝ) = some (0 + ∑ p ∈ range 12, |v.getD p 0|) :=
    loop_sum 12 _ (fun p => |v.getD p 0|) 0 (by
      intro i acc hi
      rw [bind_ok (get_getD v i 0 (by omega))])
  rw [zero_add] at h1
  set S := ∑ p ∈ range 12, |v.getD p 0| with hS
  obtain ⟨r, e1, e2⟩ := fill_part (L := 12)
    (new := fun p => if S > 1 / 10 ^ 7 then v.getD p 0 / S else 0)
    (f := fun i (v : List ℝ) => do
      let x ← v[i]?
      wr v i (if S > 1 / 10 ^ 7 then x / S else 0)) (holds_of_length hv 0) (by
      intro i ys hi hp
      rw [bind_ok (hp.get hi)])
  have hr : ∀ p, p < 12 → r.getD p 0 = if S > 1 / 10 ^ 7 then v.getD p 0 / S else 0 := by
    intro p hp
    rw [List.getD_eq_getElem?_getD, e2.2 p hp]; rfl
  refine ⟨r, by unfold normalizeL1; rw [bind_ok h1, e1], e2.1, ?_, ?_⟩
  · intro hlt
    refine ⟨fun p hp => by rw [hr p hp, if_pos hlt], ?_⟩
    have hpos : 0 < S := lt_trans (by positivity) hlt
    calc ∑ p ∈ range 12, |r.getD p 0| = ∑ p ∈ range 12, |v.getD p 0| / S := by
          refine sum_congr rfl fun p hp => ?_
          rw [hr p (mem_range.mp hp), if_pos hlt, abs_div, abs_of_pos hpos]
      _ = 1 := by rw [← sum_div, ← hS, div_self hpos.ne']
  · intro hle p hp
    rw [hr p hp, if_neg (by exact not_lt.mpr hle)]

/-- C62. After `normalizeL1` the tonal centroid is no longer than the radii allow. -/
theorem C62_bounded (v : List ℝ) (hv : v.length = 12) :
    ∃ r m, normalizeL1 v = some r ∧ (transform2TCS r).bind magnitude = some m ∧
      m ≤ Real.sqrt (1 + (6 / 10) ^ 2 + (11 / 10) ^ 2) := by
  obtain ⟨r, h1, h2, h3, h4⟩ := C62_normalizeL1 v hv
  have hS : ∑ p ∈ range 12, |r.getD p 0| ≤ 1 := by
    by_cases h : 1 / 10 ^ 7 < ∑ p ∈ range 12, |v.getD p 0|
    · exact (h3 h).2.le
    · have : ∑ p ∈ range 12, |r.getD p 0| = 0 :=
        sum_eq_zero fun p hp => by rw [h4 (not_lt.mp h) p (mem_range.mp hp), abs_zero]
      rw [this]; exact zero_le_one
  refine ⟨r, _, h1, by rw [C62_transform r h2, Option.bind_some, magnitude_tcs], ?_⟩
  apply Real.sqrt_le_sqrt
  have b : ∀ θ, ‖centroid θ r‖ ^ 2 ≤ 1 := fun θ =>
    pow_le_one₀ (norm_nonneg _) ((norm_centroid_le θ r).trans hS)
  nlinarith [b fifths, b majorThirds, b minorThirds]

example : ([1, 0, 0, 0, 1, 0, 0, 1, 0, 0, 0, 0] : List ℝ).length = 12 := rfl

end QM.Tonal
