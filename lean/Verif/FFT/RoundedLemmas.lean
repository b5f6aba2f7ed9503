import Verif.FFT.Rounded
import Verif.FFT.Props
import Verif.Kiss.RoundedLen
import Verif.Kiss.RoundedProps

/-!
# Lemmas for C83 and C84
-/

namespace QM.FFT

open Complex QM.DFT QM.Kiss QM.Double

/-- The size of an input of `n` numbers; the tiny summands stand for underflow. -/
noncomputable def total (n : Nat) (x : Nat → ℂ) : ℝ := ∑ j ∈ Finset.range n, (‖x j‖ + 1 / 2 ^ 1022)

/-- The sum of the radices of the plan for size `n`. -/
def radixSum (n : Nat) : Nat := (((factor n).getD []).map (·.1)).sum

theorem radixSum_eq {n : Nat} {fac : List (Nat × Nat)} (h : factor n = some fac) : radixSum n = radices fac := by
  simp [radixSum, radices, h]

theorem radices_pos {n : Nat} {fac : List (Nat × Nat)} (h : Chain n fac) : 1 ≤ radices fac := by
  cases fac with
  | nil => exact h.elim
  | cons pm rest =>
    obtain ⟨p, m⟩ := pm
    obtain ⟨_, h2, _, _⟩ := h
    have : radices ((p, m) :: rest) = p + radices rest := by simp [radices]
    omega

theorem sum_le_total (n : Nat) (x : Nat → ℂ) : ∑ j ∈ Finset.range n, ‖x j‖ ≤ total n x := by
  unfold total
  refine Finset.sum_le_sum fun j _ => ?_
  have : (0 : ℝ) ≤ 1 / 2 ^ 1022 := by positivity
  linarith

theorem count_le_total (n : Nat) (x : Nat → ℂ) : n * ((1 : ℝ) / 2 ^ 1022) ≤ total n x := by
  unfold total
  calc n * ((1 : ℝ) / 2 ^ 1022) = ∑ j ∈ Finset.range n, ((1 : ℝ) / 2 ^ 1022) := by simp
    _ ≤ _ := Finset.sum_le_sum fun j _ => by have := norm_nonneg (x j); linarith

theorem total_nonneg (n : Nat) (x : Nat → ℂ) : 0 ≤ total n x :=
  Finset.sum_nonneg fun _ _ => add_nonneg (norm_nonneg _) (by positivity)

theorem total_congr {n : Nat} {x y : Nat → ℂ} (h : ∀ j, j < n → x j = y j) : total n x = total n y :=
  Finset.sum_congr rfl fun j hj => by rw [h j (Finset.mem_range.mp hj)]

theorem dft_congr (inv : Bool) {n : Nat} {x y : Nat → ℂ} (h : ∀ j, j < n → x j = y j) (k : Nat) :
    dft inv n x k = dft inv n y k := by
  unfold dft
  exact Finset.sum_congr rfl fun j hj => by rw [h j (Finset.mem_range.mp hj)]

theorem norm_dft_le (inv : Bool) (n : Nat) (x : Nat → ℂ) (k : Nat) : ‖dft inv n x k‖ ≤ ∑ j ∈ Finset.range n, ‖x j‖ := by
  rw [dft_eq]
  refine (norm_sum_le _ _).trans (Finset.sum_le_sum fun j _ => ?_)
  rw [norm_mul, norm_root_pow, mul_one]

theorem dft_sub_le (inv : Bool) (n : Nat) (x y : Nat → ℂ) (e : ℝ) (h : ∀ j, j < n → ‖x j - y j‖ ≤ e) (k : Nat) :
    ‖dft inv n x k - dft inv n y k‖ ≤ n * e := by
  have : dft inv n x k - dft inv n y k = dft inv n (fun j => x j - y j) k := by
    rw [dft_eq, dft_eq, dft_eq, ← Finset.sum_sub_distrib]
    exact Finset.sum_congr rfl fun j _ => by ring
  rw [this]
  refine (norm_dft_le inv n _ k).trans ?_
  calc ∑ j ∈ Finset.range n, ‖x j - y j‖ ≤ ∑ j ∈ Finset.range n, e :=
        Finset.sum_le_sum fun j hj => h j (Finset.mem_range.mp hj)
    _ = n * e := by simp

theorem dft_smul (inv : Bool) (n : Nat) (c : ℂ) (x : Nat → ℂ) (k : Nat) :
    dft inv n (fun j => c * x j) k = c * dft inv n x k := by
  rw [dft_eq, dft_eq, Finset.mul_sum]
  exact Finset.sum_congr rfl fun j _ => by ring

theorem norm_le_parts (z : ℂ) (a b : ℝ) (ha : |z.re| ≤ a) (hb : |z.im| ≤ b) : ‖z‖ ≤ a + b :=
  (Complex.norm_le_abs_re_add_abs_im z).trans (add_le_add ha hb)

theorem eta_eq : (1 : ℝ) / 2 ^ 1075 = 1 / 2 ^ 1022 * (1 / 2 ^ 53) := by
  rw [show 1075 = 1022 + 53 from rfl, pow_add, one_div_mul_one_div]

/-- The factor `1/n`. -/
theorem scale_near {fl : ℝ → ℝ} (hfl : Rounds fl) (n : Nat) (h1 : 1 ≤ n) (h2 : n ≤ 2147483647) :
    |fl (1 / n) - 1 / n| ≤ 1.001 * (1 / n * (1 / 2 ^ 53)) := by
  have hn1 : (1 : ℝ) ≤ n := by exact_mod_cast h1
  have hn2 : (n : ℝ) ≤ 2147483647 := by
    have : (n : ℝ) ≤ ((2147483647 : ℕ) : ℝ) := Nat.cast_le.mpr h2
    simpa using this
  have hc1 : (1 : ℝ) / n ≤ 1 := by rw [div_le_one (by linarith)]; exact hn1
  have hc2 : (1 : ℝ) / 2147483647 ≤ 1 / n := one_div_le_one_div_of_le (by linarith) hn2
  have hc0 : (0 : ℝ) ≤ 1 / n := by positivity
  have h := hfl (1 / n) (by rw [abs_of_nonneg hc0]; exact hc1.trans (le_trans (by norm_num) huge))
  rw [abs_of_nonneg hc0] at h
  have h3 : (1 : ℝ) / 2 ^ 1075 ≤ 1 / 2 ^ 200 :=
    one_div_le_one_div_of_le (by positivity) (pow_le_pow_right₀ (by norm_num) (by norm_num))
  have h4 : (1 : ℝ) / 2 ^ 200 ≤ 0.001 * (1 / 2147483647 * (1 / 2 ^ 53)) := by norm_num
  have h5 : (0.001 : ℝ) * (1 / 2147483647 * (1 / 2 ^ 53)) ≤ 0.001 * (1 / n * (1 / 2 ^ 53)) := by
    refine mul_le_mul_of_nonneg_left (mul_le_mul_of_nonneg_right hc2 (by norm_num)) (by norm_num)
  calc |fl (1 / n) - 1 / n| ≤ 1 / n / 2 ^ 53 + 1 / 2 ^ 1075 := h
    _ ≤ 1 / n / 2 ^ 53 + 0.001 * (1 / n * (1 / 2 ^ 53)) := by linarith
    _ = 1.001 * (1 / n * (1 / 2 ^ 53)) := by ring

/-- Scaling a transform by `1/n`. -/
theorem scaled_near {fl : ℝ → ℝ} (hfl : Rounds fl) (n : Nat) (h1 : 1 ≤ n) (h2 : n ≤ 2147483647) (v X : ℂ) (S A : ℝ)
    (hv : ‖v - X‖ ≤ A / 2 ^ 53 * S) (hX : ‖X‖ ≤ S) (hA : A ≤ 2 ^ 46) (hS1 : n * ((1 : ℝ) / 2 ^ 1022) ≤ S) (hS2 : S ≤ 2 ^ 1001) :
    ‖(⟨fl (v.re * fl (1 / n)), fl (v.im * fl (1 / n))⟩ : ℂ) - ((1 / n : ℝ) : ℂ) * X‖ ≤ (A + 6) / 2 ^ 53 * (1 / n * S) := by
  have hs := scale_near hfl n h1 h2
  have hn1 : (1 : ℝ) ≤ n := by exact_mod_cast h1
  have hS0 : 0 ≤ S := le_trans (by positivity) hS1
  have hc0 : (0 : ℝ) < 1 / n := by positivity
  have hc1 : (1 : ℝ) / n ≤ 1 := by rw [div_le_one (by linarith)]; exact hn1
  have heta : (1 : ℝ) / 2 ^ 1075 ≤ 1 / n * S * (1 / 2 ^ 53) := by
    rw [eta_eq]
    refine mul_le_mul_of_nonneg_right ?_ (by norm_num)
    rw [one_div_mul_eq_div, le_div_iff₀ (by linarith), mul_comm]
    exact hS1
  generalize hĉ : fl (1 / n) = s at *
  generalize (1 : ℝ) / n = c at *
  obtain ⟨u, hu⟩ : ∃ u : ℝ, u = 1 / 2 ^ 53 := ⟨_, rfl⟩
  have hu0 : 0 < u := by rw [hu]; norm_num
  have hu1 : u * 2 ^ 53 = 1 := by rw [hu]; norm_num
  rw [← hu] at hs heta
  rw [show A / 2 ^ 53 * S = A * (u * S) by rw [hu]; ring] at hv
  rw [show (A + 6) / 2 ^ 53 * (c * S) = (A + 6) * (c * S * u) by rw [hu]; ring]
  have hcS : 0 ≤ c * S := mul_nonneg hc0.le hS0
  have hAu : A * u ≤ 1 / 2 ^ 7 := by
    calc A * u ≤ 2 ^ 46 * u := mul_le_mul_of_nonneg_right hA hu0.le
      _ = 1 / 2 ^ 7 := by rw [hu]; norm_num
  have hvn : ‖v‖ ≤ 1.01 * S := by
    have h3 : ‖v‖ ≤ ‖v - X‖ + ‖X‖ := by
      have := norm_add_le (v - X) X
      rwa [sub_add_cancel] at this
    have h4 : A * (u * S) ≤ 1 / 2 ^ 7 * S := by
      rw [← mul_assoc]; exact mul_le_mul_of_nonneg_right hAu hS0
    norm_num at h4 ⊢
    linarith
  have hsn : |s| ≤ 1.002 * c := by
    have h3 := abs_le_of_sub s c _ _ hs (le_of_eq (abs_of_pos hc0))
    have h4 : u ≤ 1 / 1002 := by rw [hu]; norm_num
    have h5 : c * u ≤ c * (1 / 1002) := mul_le_mul_of_nonneg_left h4 hc0.le
    norm_num at h3 h5 ⊢
    linarith
  have hparts : ∀ t : ℝ, |t| ≤ ‖v‖ → |fl (t * s) - t * s| ≤ 2.03 * (c * S * u) := by
    intro t ht
    have h3 : |t * s| ≤ 1.03 * (c * S) := by
      rw [abs_mul]
      calc |t| * |s| ≤ 1.01 * S * (1.002 * c) := mul_le_mul (ht.trans hvn) hsn (abs_nonneg _) (by positivity)
        _ = 1.01202 * (c * S) := by ring
        _ ≤ 1.03 * (c * S) := mul_le_mul_of_nonneg_right (by norm_num) hcS
    have h4 : |t * s| ≤ 2 ^ 1023 := by
      have h5 : c * S ≤ S := by
        calc c * S ≤ 1 * S := mul_le_mul_of_nonneg_right hc1 hS0
          _ = S := one_mul S
      have h6 : (2 : ℝ) * 2 ^ 1001 ≤ 2 ^ 1023 := by
        rw [← pow_succ']; exact pow_le_pow_right₀ (by norm_num) (by norm_num)
      clear hfl
      generalize (2 : ℝ) ^ 1001 = E at *
      generalize (2 : ℝ) ^ 1023 = G at *
      linarith
    have h7 := hfl _ h4
    have h8 : |t * s| / 2 ^ 53 ≤ 1.03 * (c * S) * u := by
      rw [div_eq_mul_one_div, ← hu]; exact mul_le_mul_of_nonneg_right h3 hu0.le
    linarith
  have e1 := norm_le_parts ((⟨fl (v.re * s), fl (v.im * s)⟩ : ℂ) - (s : ℂ) * v) _ _
    (by
      have := hparts v.re (Complex.abs_re_le_norm v)
      simpa [mul_comm] using this)
    (by
      have := hparts v.im (Complex.abs_im_le_norm v)
      simpa [mul_comm] using this)
  have e2 : ‖(s : ℂ) * v - (c : ℂ) * X‖ ≤ 1.02 * (c * S * u) + A * (c * S * u) := by
    have : (s : ℂ) * v - (c : ℂ) * X = ((s - c : ℝ) : ℂ) * v + (c : ℂ) * (v - X) := by push_cast; ring
    rw [this]
    refine (norm_add_le _ _).trans (add_le_add ?_ ?_)
    · rw [norm_mul, Complex.norm_real, Real.norm_eq_abs]
      calc |s - c| * ‖v‖ ≤ 1.001 * (c * u) * (1.01 * S) := mul_le_mul hs hvn (norm_nonneg _) (by positivity)
        _ = 1.01101 * (c * S * u) := by ring
        _ ≤ _ := mul_le_mul_of_nonneg_right (by norm_num) (mul_nonneg hcS hu0.le)
    · rw [norm_mul, Complex.norm_real, Real.norm_eq_abs, abs_of_pos hc0]
      calc c * ‖v - X‖ ≤ c * (A * (u * S)) := mul_le_mul_of_nonneg_left hv hc0.le
        _ = _ := by ring
  have e3 := norm_sub_le_norm_sub_add_norm_sub (⟨fl (v.re * s), fl (v.im * s)⟩ : ℂ) ((s : ℂ) * v) ((c : ℂ) * X)
  have h9 : 0 ≤ c * S * u := mul_nonneg hcS hu0.le
  linarith

end QM.FFT
