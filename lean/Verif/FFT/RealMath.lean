import Verif.FFT.Model
import Verif.Kiss.Work

namespace QM.FFT

open Complex QM.DFT QM.Kiss

/-- Conjugate symmetry of the transform of real data. -/
theorem dft_real_conj (inv : Bool) {n : Nat} (hn : n ≠ 0) (y : Nat → ℝ) (k : Nat) (hk : k ≤ n) :
    (starRingEnd ℂ) (dft inv n (fun j => (y j : ℂ)) k) = dft inv n (fun j => (y j : ℂ)) (n - k) := by
  rw [dft_eq, dft_eq, map_sum]
  refine Finset.sum_congr rfl fun j _ => ?_
  rw [map_mul, Complex.conj_ofReal, map_pow, conj_root, inv_pow]
  congr 1
  symm
  apply eq_inv_of_mul_eq_one_left
  rw [← pow_add, ← Nat.mul_add, Nat.sub_add_cancel hk, Nat.mul_comm, pow_mul, root_pow_self inv hn, one_pow]

/-- Splitting a transform of even length into even and odd samples. -/
theorem dft_even_odd (inv : Bool) {nc : Nat} (hn : nc ≠ 0) (x : Nat → ℂ) (k : Nat) :
    dft inv (2 * nc) x k = dft inv nc (fun j => x (2 * j)) k +
      root inv (2 * nc) ^ k * dft inv nc (fun j => x (2 * j + 1)) k := by
  rw [dft_eq, dft_eq, dft_eq, sum_split 2 nc, Finset.sum_range_succ, Finset.sum_range_one, Finset.mul_sum]
  have hr : root inv nc = root inv (2 * nc) ^ 2 := (root_pow_mul inv (by norm_num) hn).symm
  congr 1
  · refine Finset.sum_congr rfl fun j _ => ?_
    rw [hr, ← pow_mul, show j * 2 + 0 = 2 * j by ring]
    congr 2; ring
  · refine Finset.sum_congr rfl fun j _ => ?_
    rw [hr, ← pow_mul, show j * 2 + 1 = 2 * j + 1 by ring, show (2 * j + 1) * k = k + 2 * (j * k) by ring, pow_add]
    ring

theorem root_half (inv : Bool) {nc : Nat} (hn : nc ≠ 0) : root inv (2 * nc) ^ nc = -1 := by
  rw [Nat.mul_comm, root_pow_mul inv hn (by norm_num), root_two]

theorem root_half_sub (inv : Bool) {nc k : Nat} (hn : nc ≠ 0) (hk : k ≤ nc) :
    root inv (2 * nc) ^ (nc - k) = -(starRingEnd ℂ) (root inv (2 * nc) ^ k) := by
  rw [map_pow, conj_root, inv_pow]
  have h0 : root inv (2 * nc) ^ k ≠ 0 := pow_ne_zero _ (root_ne_zero inv _)
  have h1 : root inv (2 * nc) ^ (nc - k) * root inv (2 * nc) ^ k = -1 := by
    rw [← pow_add, Nat.sub_add_cancel hk, root_half inv hn]
  field_simp
  exact h1

theorem superTw_eq (nc : Nat) (hn : nc ≠ 0) (inv : Bool) (i : Nat) :
    kfCexp (superPhase nc inv i) = (if inv then I else -I) * root inv (2 * nc) ^ (i + 1) := by
  rw [kfCexp_eq, root, ← Complex.exp_nat_mul]
  have hnc : (nc : ℂ) ≠ 0 := by exact_mod_cast hn
  cases inv
  · have h1 : (if false = true then I else -I) = Complex.exp (-(Real.pi / 2 * I)) := by
      rw [Complex.exp_neg, Complex.exp_pi_div_two_mul_I]; simp
    rw [h1, ← Complex.exp_add]
    congr 1
    simp [superPhase]
    field_simp
    ring
  · have h1 : (if true = true then I else -I) = Complex.exp (Real.pi / 2 * I) := by
      rw [Complex.exp_pi_div_two_mul_I]; simp
    rw [h1, ← Complex.exp_add]
    congr 1
    simp [superPhase]
    field_simp
    ring

/-- The transform of the samples packed in pairs. -/
theorem dft_packed (nc : Nat) (x : Nat → ℝ) (k : Nat) :
    dft false nc (fun j => (⟨x (2 * j), x (2 * j + 1)⟩ : ℂ)) k =
      dft false nc (fun j => (x (2 * j) : ℂ)) k + I * dft false nc (fun j => (x (2 * j + 1) : ℂ)) k := by
  rw [dft, dft, dft, Finset.mul_sum, ← Finset.sum_add_distrib]
  refine Finset.sum_congr rfl fun j _ => ?_
  have : (⟨x (2 * j), x (2 * j + 1)⟩ : ℂ) = (x (2 * j) : ℂ) + I * (x (2 * j + 1) : ℂ) := by
    apply Complex.ext <;> simp
  rw [this]
  ring

/-- The un-mixing step of `kiss_fftr`, first output. -/
theorem unmix_a {nc k : Nat} (hn : nc ≠ 0) (hk : k ≤ nc) (x : Nat → ℝ) (T : Nat → ℂ)
    (hT : T = dft false nc (fun j => (⟨x (2 * j), x (2 * j + 1)⟩ : ℂ))) :
    ((T k + (starRingEnd ℂ) (T (nc - k))) + (T k - (starRingEnd ℂ) (T (nc - k))) * (-I * root false (2 * nc) ^ k)) * (1 / 2) =
      dft false (2 * nc) (fun j => (x j : ℂ)) k := by
  rw [dft_even_odd false hn, hT, dft_packed, dft_packed, map_add, map_mul, Complex.conj_I]
  rw [dft_real_conj false hn _ _ (Nat.sub_le nc k), dft_real_conj false hn _ _ (Nat.sub_le nc k),
    show nc - (nc - k) = k by omega]
  have h := I_mul_I
  linear_combination (dft false nc (fun j => (x (2 * j + 1) : ℂ)) k) * (-root false (2 * nc) ^ k) * h

/-- The un-mixing step of `kiss_fftr`, second output. -/
theorem unmix_b {nc k : Nat} (hn : nc ≠ 0) (hk : k ≤ nc) (x : Nat → ℝ) (T : Nat → ℂ)
    (hT : T = dft false nc (fun j => (⟨x (2 * j), x (2 * j + 1)⟩ : ℂ))) :
    (starRingEnd ℂ) (((T k + (starRingEnd ℂ) (T (nc - k))) -
        (T k - (starRingEnd ℂ) (T (nc - k))) * (-I * root false (2 * nc) ^ k)) * (1 / 2)) =
      dft false (2 * nc) (fun j => (x j : ℂ)) (nc - k) := by
  rw [dft_even_odd false hn, hT, dft_packed, dft_packed]
  have e1 : ((dft false nc (fun j => (x (2 * j) : ℂ)) k + I * dft false nc (fun j => (x (2 * j + 1) : ℂ)) k +
      (starRingEnd ℂ) (dft false nc (fun j => (x (2 * j) : ℂ)) (nc - k) +
        I * dft false nc (fun j => (x (2 * j + 1) : ℂ)) (nc - k))) -
      (dft false nc (fun j => (x (2 * j) : ℂ)) k + I * dft false nc (fun j => (x (2 * j + 1) : ℂ)) k -
      (starRingEnd ℂ) (dft false nc (fun j => (x (2 * j) : ℂ)) (nc - k) +
        I * dft false nc (fun j => (x (2 * j + 1) : ℂ)) (nc - k))) * (-I * root false (2 * nc) ^ k)) * (1 / 2) =
      dft false nc (fun j => (x (2 * j) : ℂ)) k -
        root false (2 * nc) ^ k * dft false nc (fun j => (x (2 * j + 1) : ℂ)) k := by
    rw [map_add, map_mul, Complex.conj_I, dft_real_conj false hn _ _ (Nat.sub_le nc k),
      dft_real_conj false hn _ _ (Nat.sub_le nc k), show nc - (nc - k) = k by omega]
    have h := I_mul_I
    linear_combination (dft false nc (fun j => (x (2 * j + 1) : ℂ)) k) * (root false (2 * nc) ^ k) * h
  rw [e1, map_sub, map_mul, dft_real_conj false hn _ _ hk, dft_real_conj false hn _ _ hk, root_half_sub false hn hk]
  ring

/-! ### The inverse -/

/-- The conjugate-symmetric spectrum of length `2 nc` given by bins `0 … nc`, with the imaginary parts of bins 0 and `nc`
ignored. -/
noncomputable def herm (nc : Nat) (c : Nat → ℂ) (k : Nat) : ℂ :=
  if k = 0 then ((c 0).re : ℂ) else if k < nc then c k else if k = nc then ((c nc).re : ℂ)
  else (starRingEnd ℂ) (c (2 * nc - k))

theorem herm_conj {nc : Nat} (hn : nc ≠ 0) (c : Nat → ℂ) (k : Nat) (h1 : 0 < k) (h2 : k < 2 * nc) :
    herm nc c (2 * nc - k) = (starRingEnd ℂ) (herm nc c k) := by
  unfold herm
  rcases Nat.lt_trichotomy k nc with h | h | h
  · rw [if_neg (by omega), if_neg (by omega), if_neg (by omega), if_neg (by omega), if_pos h,
      show 2 * nc - (2 * nc - k) = k by omega]
  · subst h
    rw [if_neg (by omega), if_neg (by omega), if_pos (by omega), if_neg (by omega), if_neg (by omega), if_pos rfl]
    simp
  · rw [if_neg (by omega), if_pos (by omega), if_neg (by omega), if_neg (by omega), if_neg (by omega)]
    simp

theorem herm_zero_conj (nc : Nat) (c : Nat → ℂ) : (starRingEnd ℂ) (herm nc c 0) = herm nc c 0 := by
  simp [herm]

/-- The inverse transform of a conjugate-symmetric spectrum is real. -/
theorem dft_herm_real {nc : Nat} (hn : nc ≠ 0) (c : Nat → ℂ) (l : Nat) :
    (starRingEnd ℂ) (dft true (2 * nc) (herm nc c) l) = dft true (2 * nc) (herm nc c) l := by
  have h2 : 2 * nc ≠ 0 := by omega
  rw [dft_eq, map_sum]
  obtain ⟨N, hN⟩ : ∃ N, 2 * nc = N + 1 := ⟨2 * nc - 1, by omega⟩
  have hw := root_pow_self true h2
  have hw0 := root_ne_zero true (2 * nc)
  have hconj := conj_root true (2 * nc)
  generalize root true (2 * nc) = w at *
  rw [hN, Finset.sum_range_succ', Finset.sum_range_succ']
  congr 1
  · rw [← Finset.sum_range_reflect]
    refine Finset.sum_congr rfl fun k hk => ?_
    rw [Finset.mem_range] at hk
    rw [map_mul, map_pow, hconj]
    have e : N - 1 - k + 1 = 2 * nc - (k + 1) := by omega
    rw [e, herm_conj hn c (k + 1) (by omega) (by omega), Complex.conj_conj, inv_pow]
    congr 1
    have : w ^ ((k + 1) * l) * w ^ ((2 * nc - (k + 1)) * l) = 1 := by
      rw [← pow_add, ← Nat.add_mul, show k + 1 + (2 * nc - (k + 1)) = 2 * nc by omega, pow_mul, hw, one_pow]
    exact (eq_inv_of_mul_eq_one_left this).symm
  · rw [map_mul, herm_zero_conj]; simp

/-- The spectrum prepared by `kiss_fftri`. -/
noncomputable def mixed (nc : Nat) (c : Nat → ℂ) (k : Nat) : ℂ :=
  (herm nc c k + (starRingEnd ℂ) (herm nc c (nc - k))) +
    (herm nc c k - (starRingEnd ℂ) (herm nc c (nc - k))) * (I * root true (2 * nc) ^ k)

theorem dft_mixed {nc : Nat} (hn : nc ≠ 0) (c : Nat → ℂ) (j : Nat) :
    dft true nc (mixed nc c) j =
      dft true (2 * nc) (herm nc c) (2 * j) + I * dft true (2 * nc) (herm nc c) (2 * j + 1) := by
  have hr : root true nc = root true (2 * nc) ^ 2 := (root_pow_mul true (by norm_num) hn).symm
  have hh := root_half true hn
  have hG : ∀ k, k < nc → herm nc c (nc + k) = (starRingEnd ℂ) (herm nc c (nc - k)) := by
    intro k hk
    by_cases h0 : k = 0
    · subst h0; simp [herm, hn]
    · have := herm_conj hn c (nc - k) (by omega) (by omega)
      rw [show 2 * nc - (nc - k) = nc + k by omega] at this
      exact this
  rw [dft_eq, dft_eq, dft_eq, show 2 * nc = nc + nc by ring, Finset.sum_range_add, Finset.sum_range_add, ← show 2 * nc = nc + nc by ring,
    mul_add, Finset.mul_sum, Finset.mul_sum, ← Finset.sum_add_distrib, ← Finset.sum_add_distrib, ← Finset.sum_add_distrib]
  refine Finset.sum_congr rfl fun k hk => ?_
  rw [Finset.mem_range] at hk
  rw [hG k hk, hr, mixed]
  generalize root true (2 * nc) = w at *
  have e1 : w ^ ((nc + k) * (2 * j)) = (w ^ 2) ^ (k * j) := by
    rw [show (nc + k) * (2 * j) = nc * (2 * j) + 2 * (k * j) by ring, pow_add, pow_mul, hh, pow_mul w 2]; simp
  have e2 : w ^ (k * (2 * j)) = (w ^ 2) ^ (k * j) := by rw [← pow_mul]; congr 1; ring
  have e3 : w ^ ((nc + k) * (2 * j + 1)) = -(w ^ k * (w ^ 2) ^ (k * j)) := by
    rw [show (nc + k) * (2 * j + 1) = nc * (2 * j + 1) + (k + 2 * (k * j)) by ring, pow_add, pow_mul, hh,
      Odd.neg_one_pow ⟨j, rfl⟩, pow_add w k, pow_mul w 2]
    ring
  have e4 : w ^ (k * (2 * j + 1)) = w ^ k * (w ^ 2) ^ (k * j) := by
    rw [show k * (2 * j + 1) = k + 2 * (k * j) by ring, pow_add, pow_mul w 2]
  rw [e1, e2, e3, e4]
  ring

/-- The second output of the mixing step of `kiss_fftri`. -/
theorem mixed_b {nc k : Nat} (hn : nc ≠ 0) (hk : k ≤ nc) (c : Nat → ℂ) :
    mixed nc c (nc - k) = (starRingEnd ℂ) ((herm nc c k + (starRingEnd ℂ) (herm nc c (nc - k))) -
      (herm nc c k - (starRingEnd ℂ) (herm nc c (nc - k))) * (I * root true (2 * nc) ^ k)) := by
  unfold mixed
  rw [show nc - (nc - k) = k by omega, root_half_sub true hn hk]
  simp only [map_sub, map_add, map_mul, Complex.conj_conj, Complex.conj_I]
  ring

end QM.FFT
