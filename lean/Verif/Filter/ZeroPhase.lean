import Verif.Filter.ZeroPhaseLemmas

/-!
# C89: zero-phase filtering

What `FiltFilt` with a non-recursive filter does to a signal: it delays nothing.
-/

namespace QM.Filter

variable {R : Type} [CommRing R]
open Finset

/-- **C89** Each output value is the symmetric weighting `b[j] b[k]` of the input values `j - k` away from it, whatever was processed before; the block is continued on
both sides by its point reflections. -/
theorem C89_kernel (b : List R) (s : State R) (h : new b [] = .ok s) (calls : List (List R)) (t : State R) (ht : runFF s calls = some t) (src : List R) :
    ∃ s' dst, filtfilt t src = some (s', dst) ∧ dst.length = src.length ∧ ∀ i, i < src.length →
      dst[i]? = some (∑ j ∈ range b.length, ∑ k ∈ range b.length, b.getD j 0 * b.getD k 0 * around src ((i : Int) + j - k)) :=
  fir_kernel b s h calls t ht src

/-- **C89** Away from the ends only the block itself is used. -/
theorem C89_interior (b : List R) (s : State R) (h : new b [] = .ok s) (calls : List (List R)) (t : State R) (ht : runFF s calls = some t) (src : List R) :
    ∃ s' dst, filtfilt t src = some (s', dst) ∧ dst.length = src.length ∧ ∀ i, b.length ≤ i + 1 → i + b.length ≤ src.length →
      dst[i]? = some (∑ j ∈ range b.length, ∑ k ∈ range b.length, b.getD j 0 * b.getD k 0 * src.getD (i + j - k) 0) := by
  have hpos := (new_inv b [] s h (by simp)).hpos
  obtain ⟨s', dst, h1, h2, h3⟩ := fir_kernel b s h calls t ht src
  refine ⟨s', dst, h1, h2, fun i a c => ?_⟩
  rw [h3 i (by omega)]
  refine congrArg some (sum_congr rfl fun j hj => sum_congr rfl fun k hk => ?_)
  rw [mem_range] at hj hk
  rw [around_inside _ _ (by omega) (by omega)]
  congr 2
  omega

/-- **C89** Time has no direction: the reversed block gives the reversed output. -/
theorem C89_reversed (b : List R) (s : State R) (h : new b [] = .ok s) (calls calls' : List (List R)) (t t' : State R) (ht : runFF s calls = some t)
    (ht' : runFF s calls' = some t') (src : List R) : ∃ s1 s2 dst, filtfilt t src = some (s1, dst) ∧ filtfilt t' src.reverse = some (s2, dst.reverse) := by
  obtain ⟨s1, dst, a1, a2, a3⟩ := fir_kernel b s h calls t ht src
  obtain ⟨s2, rst, b1, b2, b3⟩ := fir_kernel b s h calls' t' ht' src.reverse
  rw [List.length_reverse] at b2 b3
  refine ⟨s1, s2, dst, a1, ?_⟩
  rw [b1]
  congr 2
  apply List.ext_getElem?
  intro i
  by_cases hi : i < src.length
  · rw [b3 i hi, List.getElem?_reverse (by omega), a3 _ (by omega), sum_comm]
    refine congrArg some (sum_congr rfl fun j hj => sum_congr rfl fun k hk => ?_)
    rw [around_reverse, mul_comm (b.getD k 0)]
    congr 2
    omega
  · rw [List.getElem?_eq_none (by omega), List.getElem?_eq_none (by simp; omega)]

/-- **C89** Superposition. -/
theorem C89_superposition (b : List R) (s : State R) (h : new b [] = .ok s) (calls calls' calls'' : List (List R)) (t t' t'' : State R)
    (ht : runFF s calls = some t) (ht' : runFF s calls' = some t') (ht'' : runFF s calls'' = some t'') (c d : R) (x y : List R) (hl : x.length = y.length) :
    ∃ s1 s2 s3 u v, filtfilt t x = some (s1, u) ∧ filtfilt t' y = some (s2, v) ∧
      filtfilt t'' (List.zipWith (fun p q => c * p + d * q) x y) = some (s3, List.zipWith (fun p q => c * p + d * q) u v) := by
  obtain ⟨s1, u, a1, a2, a3⟩ := fir_kernel b s h calls t ht x
  obtain ⟨s2, v, b1, b2, b3⟩ := fir_kernel b s h calls' t' ht' y
  obtain ⟨s3, w, c1, c2, c3⟩ := fir_kernel b s h calls'' t'' ht'' (List.zipWith (fun p q => c * p + d * q) x y)
  refine ⟨s1, s2, s3, u, v, a1, b1, ?_⟩
  rw [c1]
  rw [List.length_zipWith, ← hl, Nat.min_self] at c2 c3
  congr 2
  apply List.ext_getElem?
  intro i
  by_cases hi : i < x.length
  · rw [c3 i hi, List.getElem?_zipWith, a3 i hi, b3 i (by omega)]
    refine congrArg some ?_
    simp only [mul_sum, ← sum_add_distrib]
    refine sum_congr rfl fun j _ => sum_congr rfl fun k _ => ?_
    rw [around_add c d x y hl]
    ring
  · rw [List.getElem?_eq_none (by omega), List.getElem?_eq_none (by simp; omega)]

/-- **C89** Straight lines (constants in particular) come out as straight lines with the square of the filter's gain at zero frequency, at the ends of the
block as well, if the block is at least as long as the filter. -/
theorem C89_lines (b : List R) (s : State R) (h : new b [] = .ok s) (calls : List (List R)) (t : State R) (ht : runFF s calls = some t) (p q : R)
    (n : Nat) (hn : b.length ≤ n) : ∃ s', filtfilt t ((List.range n).map (fun (k : Nat) => p + q * (k : R))) =
      some (s', (List.range n).map (fun (k : Nat) => (∑ j ∈ range b.length, b.getD j 0) ^ 2 * (p + q * (k : R)))) := by
  obtain ⟨s', dst, a1, a2, a3⟩ := fir_kernel b s h calls t ht ((List.range n).map (fun (k : Nat) => p + q * (k : R)))
  rw [List.length_map, List.length_range] at a2 a3
  refine ⟨s', ?_⟩
  rw [a1]
  congr 2
  apply List.ext_getElem?
  intro i
  by_cases hi : i < n
  · rw [a3 i hi, List.getElem?_map, List.getElem?_range hi]
    refine congrArg some ?_
    have e : ∀ j ∈ range b.length, ∀ k ∈ range b.length, b.getD j 0 * b.getD k 0 *
        around ((List.range n).map (fun (k : Nat) => p + q * (k : R))) ((i : Int) + j - k) =
        b.getD j 0 * b.getD k 0 * (p + q * i) + q * (b.getD j 0 * j * b.getD k 0 - b.getD j 0 * (b.getD k 0 * k)) := by
      intro j hj k hk
      rw [mem_range] at hj hk
      rw [around_line p q n _ (by omega) (by omega)]
      push_cast
      ring
    rw [sum_congr rfl fun j hj => sum_congr rfl (e j hj)]
    simp only [sum_add_distrib, sum_sub_distrib, ← mul_sum, ← sum_mul]
    ring
  · rw [List.getElem?_eq_none (by omega), List.getElem?_eq_none (by simp; omega)]

/-- **C89** A sinusoid of any frequency and phase comes out unshifted, with the squared gain of the filter at its frequency, away from the ends. -/
theorem C89_sinusoid (b : List ℝ) (s : State ℝ) (h : new b [] = .ok s) (calls : List (List ℝ)) (t : State ℝ) (ht : runFF s calls = some t)
    (a w φ : ℝ) (n : Nat) : ∃ s' dst, filtfilt t ((List.range n).map (fun (k : Nat) => a * Real.cos (w * k + φ))) = some (s', dst) ∧ dst.length = n ∧
      ∀ i, b.length ≤ i + 1 → i + b.length ≤ n → dst[i]? = some (‖firResponse b w‖ ^ 2 * (a * Real.cos (w * i + φ))) := by
  obtain ⟨s', dst, a1, a2, a3⟩ := C89_interior b s h calls t ht ((List.range n).map (fun (k : Nat) => a * Real.cos (w * k + φ)))
  rw [List.length_map, List.length_range] at a2 a3
  refine ⟨s', dst, a1, a2, fun i h1 h2 => ?_⟩
  rw [a3 i h1 h2]
  refine congrArg some ?_
  have hres : ((‖firResponse b w‖ ^ 2 : ℝ) : ℂ) = (∑ j ∈ range b.length, b.getD j 0 * Complex.exp (w * j * Complex.I)) * firResponse b w := by
    have : (∑ j ∈ range b.length, (b.getD j 0 : ℂ) * Complex.exp (w * j * Complex.I)) = (starRingEnd ℂ) (firResponse b w) := by
      unfold firResponse
      rw [map_sum]
      refine sum_congr rfl fun j _ => ?_
      rw [map_mul, Complex.conj_ofReal, ← Complex.exp_conj]
      congr 2
      simp
    rw [this, mul_comm, Complex.mul_conj, Complex.normSq_eq_norm_sq]
  have key : ((∑ j ∈ range b.length, ∑ k ∈ range b.length, (b.getD j 0 * b.getD k 0 : ℝ) * ((a : ℂ) * Complex.exp ((w * ((i + j - k : ℕ) : ℝ) + φ : ℝ) * Complex.I)))) =
      ((‖firResponse b w‖ ^ 2 : ℝ) : ℂ) * (a * Complex.exp ((w * i + φ : ℝ) * Complex.I)) := by
    rw [hres, firResponse, sum_mul_sum, sum_mul]
    refine sum_congr rfl fun j hj => ?_
    rw [sum_mul]
    refine sum_congr rfl fun k hk => ?_
    rw [mem_range] at hj hk
    have hc : ((i + j - k : ℕ) : ℝ) = (i : ℝ) + j - k := by
      rw [Nat.cast_sub (by omega)]
      push_cast
      ring
    rw [hc]
    have he : Complex.exp ((w * ((i : ℝ) + j - k) + φ : ℝ) * Complex.I) =
        Complex.exp (w * j * Complex.I) * Complex.exp (-(w * k) * Complex.I) * Complex.exp ((w * i + φ : ℝ) * Complex.I) := by
      rw [← Complex.exp_add, ← Complex.exp_add]
      congr 1
      push_cast
      ring
    rw [he]
    push_cast
    ring
  have hre := congrArg Complex.re key
  rw [Complex.re_sum] at hre
  simp only [Complex.re_sum, Complex.re_ofReal_mul, Complex.exp_ofReal_mul_I_re] at hre
  rw [← hre]
  refine sum_congr rfl fun j hj => sum_congr rfl fun k hk => ?_
  rw [mem_range] at hj hk
  congr 1
  rw [List.getD_eq_getElem?_getD, List.getElem?_map, List.getElem?_range (by omega)]
  rfl

/-! ## Examples -/

/-- A three point smoother, on an object used before: a ramp is kept exactly. -/
example : ∃ (s t s' : State ℚ), new [1 / 4, 1 / 2, 1 / 4] [] = .ok s ∧ runFF s [[5, 7], [9]] = some t ∧
    filtfilt t ((List.range 6).map (fun (k : Nat) => (3 : ℚ) + 2 * (k : ℚ))) = some (s', [3, 5, 7, 9, 11, 13]) := by
  obtain ⟨t, ht⟩ := Option.ne_none_iff_exists'.mp (C12_memory_safe [(1 / 4 : ℚ), 1 / 2, 1 / 4] [] _ rfl (by decide) [[5, 7], [9]])
  obtain ⟨s', hs⟩ := C89_lines [(1 / 4 : ℚ), 1 / 2, 1 / 4] _ rfl [[5, 7], [9]] t ht 3 2 6 (by decide)
  refine ⟨_, t, s', rfl, ht, ?_⟩
  rw [hs]
  congr 2
  decide +kernel

/-- An asymmetric filter: an impulse in the middle gives the symmetric `b * reversed b`. -/
example : ((new [1, 2, 3] ([] : List ℤ)).toOption.bind fun s => (filtfilt s [0, 0, 0, 1, 0, 0, 0]).map Prod.snd) = some [0, 3, 8, 14, 8, 3, 0] := by
  decide +kernel

end QM.Filter
