import Verif.DetectionFunction.Noise

/-!
# Theorems about small changes of the input of a detection function (property C105)
-/

namespace QM.DetectionFunction

theorem abs_sum_sub_le {n : Nat} {f g B : Nat → ℝ} (h : ∀ k, k ≤ n → |f k - g k| ≤ B k) :
    |∑ k ∈ Finset.range (n + 1), f k - ∑ k ∈ Finset.range (n + 1), g k| ≤ ∑ k ∈ Finset.range (n + 1), B k := by
  rw [← Finset.sum_sub_distrib]
  exact (Finset.abs_sum_le_sum_abs _ _).trans (Finset.sum_le_sum fun k hk => h k (by have := Finset.mem_range.mp hk; omega))

theorem abs_sum_sub_le_const {n : Nat} {f g : Nat → ℝ} {B : ℝ} (h : ∀ k, k ≤ n → |f k - g k| ≤ B) :
    |∑ k ∈ Finset.range (n + 1), f k - ∑ k ∈ Finset.range (n + 1), g k| ≤ (n + 1) * B := by
  refine (abs_sum_sub_le (B := fun _ => B) h).trans (le_of_eq ?_)
  rw [Finset.sum_const, Finset.card_range, nsmul_eq_mul]
  push_cast
  ring

/-- **C105** Samples that differ by at most `δ` have spectra that differ by at most the frame length times `δ`. -/
theorem C105_samples {n : Nat} {x y : List ℝ} {δ : ℝ} (h : ∀ j, j < n → |x.getD j 0 - y.getD j 0| ≤ δ) (k : Nat) :
    ‖ofFrame n x k - ofFrame n y k‖ ≤ n * δ := by
  unfold ofFrame
  rw [← mul_sub, norm_mul, norm_pow, norm_neg, norm_one, one_pow, one_mul, DFT.dft_eq, DFT.dft_eq, ← Finset.sum_sub_distrib]
  refine (norm_sum_le _ _).trans ((Finset.sum_le_sum (g := fun _ => δ) fun j hj => ?_).trans (le_of_eq ?_))
  · have hj := Finset.mem_range.mp hj
    rw [← sub_mul, norm_mul, Kiss.norm_root_pow, mul_one, ← Complex.ofReal_sub, Complex.norm_real, Real.norm_eq_abs, ← mul_sub, abs_mul]
    obtain ⟨l, e1, e2, e3⟩ := Window.C50_window_shape .hanning n
    obtain ⟨b1, b2, _⟩ := Window.C50_window_bounded .hanning n l e1 _ (List.mem_of_getElem? (e3 j hj))
    rw [abs_of_nonneg b1]
    have := h j hj
    nlinarith [abs_nonneg (x.getD j 0 - y.getD j 0)]
  · rw [Finset.sum_const, Finset.card_range, nsmul_eq_mul]

/-- **C105** High-frequency content: noise of at most `ε` in every bin, over any history, with or without whitening, changes the value by at most
`ε` (whitened: `2 ε` over the floor) times the sum of the weights. -/
theorem C105_hfc {c : Config} (hc : Valid c) (hty : c.ty = .hfc) (hr : c.whiten = true → c.relax ≤ 1) {ε : ℝ} (hε : 0 ≤ ε) {h h' : List (Nat → ℂ)}
    (hcl : Close (c.frame / 2) ε h h') {v w : ℝ} (hv : Gives c h v) (hw : Gives c h' w) :
    |v - w| ≤ magTol c ε * ∑ k ∈ Finset.range (c.frame / 2 + 1), ((k : ℝ) + 1) := by
  have e1 := gives_value hc hv
  have e2 := gives_value hc hw
  unfold IsValue at e1 e2
  rw [hty] at e1 e2
  simp only at e1 e2
  rw [e1, e2, Finset.mul_sum]
  refine abs_sum_sub_le (fun k hk => ?_)
  rw [← mul_sub, abs_mul, abs_of_nonneg (by positivity : (0 : ℝ) ≤ (k : ℝ) + 1), mul_comm]
  exact mul_le_mul_of_nonneg_right (mag_close hc hr hk hε hcl) (by positivity)

/-- **C105** Spectral difference: if no magnitude in use exceeds `M`, noise changes the value by at most `2 √(M ε)` a bin. -/
theorem C105_specDiff {c : Config} (hc : Valid c) (hty : c.ty = .specDiff) (hr : c.whiten = true → c.relax ≤ 1) {ε M : ℝ} (hε : 0 ≤ ε) {h h' : List (Nat → ℂ)}
    (hcl : Close (c.frame / 2) ε h h') (hM : ∀ k, k ≤ c.frame / 2 → mag c k h ≤ M ∧ mag c k h.tail ≤ M ∧ mag c k h' ≤ M ∧ mag c k h'.tail ≤ M) {v w : ℝ}
    (hv : Gives c h v) (hw : Gives c h' w) : |v - w| ≤ ((c.frame / 2 : Nat) + 1) * (2 * Real.sqrt (M * magTol c ε)) := by
  have e1 := gives_value hc hv
  have e2 := gives_value hc hw
  unfold IsValue at e1 e2
  rw [hty] at e1 e2
  simp only at e1 e2
  rw [e1, e2]
  refine abs_sum_sub_le_const (fun k hk => (abs_sqrt_sub_sqrt_le (abs_nonneg _) (abs_nonneg _)).trans ?_)
  have hcl' : Close (c.frame / 2) ε h.tail h'.tail := by
    cases hcl with
    | nil => exact .nil
    | cons _ h2 => exact h2
  have a1 := mag_close hc hr hk hε hcl
  have a2 := mag_close hc hr hk hε hcl'
  obtain ⟨m1, m2, m3, m4⟩ := hM k hk
  have n1 := mag_nonneg hc.safe k h
  have n2 := mag_nonneg hc.safe k h.tail
  have n3 := mag_nonneg hc.safe k h'
  have n4 := mag_nonneg hc.safe k h'.tail
  rw [show 2 * Real.sqrt (M * magTol c ε) = Real.sqrt (2 ^ 2 * (M * magTol c ε)) by
    rw [Real.sqrt_mul (by norm_num) (M * magTol c ε), Real.sqrt_sq (by norm_num)]]
  refine Real.sqrt_le_sqrt ((abs_abs_sub_abs_le_abs_sub _ _).trans ?_)
  rw [show mag c k h ^ 2 - mag c k h.tail ^ 2 - (mag c k h' ^ 2 - mag c k h'.tail ^ 2) =
    (mag c k h - mag c k h') * (mag c k h + mag c k h') - (mag c k h.tail - mag c k h'.tail) * (mag c k h.tail + mag c k h'.tail) by ring]
  refine (abs_sub _ _).trans ?_
  rw [abs_mul, abs_mul, abs_of_nonneg (add_nonneg n1 n3), abs_of_nonneg (add_nonneg n2 n4)]
  have b1 := mul_le_mul a1 (add_le_add m1 m3) (add_nonneg n1 n3) ((abs_nonneg _).trans a1)
  have b2 := mul_le_mul a2 (add_le_add m2 m4) (add_nonneg n2 n4) ((abs_nonneg _).trans a2)
  linarith

/-- **C105, partial** Complex spectral difference without whitening: as long as both previous spectra have at least magnitude `r` in every bin, noise
changes the value by at most `2 ε + 6 M ε / r` a bin. (Missing: bins that were silent; see `C105_complex_violation`.) -/
theorem C105_complex_partial {c : Config} (hc : Valid c) (hty : c.ty = .complexSD) (hwh : c.whiten = false) {ε M r : ℝ} (hr : 0 < r)
    {z z1 z2 w w1 w2 : Nat → ℂ} {zs ws : List (Nat → ℂ)}
    (hcl : ∀ k, k ≤ c.frame / 2 → ‖z k - w k‖ ≤ ε ∧ ‖z1 k - w1 k‖ ≤ ε ∧ ‖z2 k - w2 k‖ ≤ ε) (hM : ∀ k, k ≤ c.frame / 2 → ‖w k‖ ≤ M)
    (hb : ∀ k, k ≤ c.frame / 2 → r ≤ ‖z1 k‖ ∧ r ≤ ‖z2 k‖) {v u : ℝ} (hv : Gives c (z :: z1 :: z2 :: zs) v) (hu : Gives c (w :: w1 :: w2 :: ws) u) :
    |v - u| ≤ ((c.frame / 2 : Nat) + 1) * (2 * ε + 6 * M * ε / r) := by
  have e1 := gives_value hc hv
  have e2 := gives_value hc hu
  unfold IsValue at e1 e2
  rw [hty] at e1 e2
  simp only [List.tail_cons] at e1 e2
  obtain ⟨d, d1, rfl⟩ := e1
  obtain ⟨e, d2, rfl⟩ := e2
  refine abs_sum_sub_le_const (fun k hk => (abs_norm_sub_norm_le _ _).trans ?_)
  obtain ⟨c0, c1, c2⟩ := hcl k hk
  obtain ⟨b1, b2⟩ := hb k hk
  have hm : ∀ (y : Nat → ℂ) ys, mag c k (y :: ys) = ‖y k‖ := fun y ys => by simp [mag, hwh]
  rw [hm, hm, hm, hm, exp_dev (d1 k hk), exp_dev (d2 k hk), ← mul_assoc, ← mul_assoc, ← mul_assoc, ← mul_assoc, norm_mul_dir, norm_mul_dir]
  rw [show ((‖z1 k‖ : ℝ) : ℂ) - z k * (starRingEnd ℂ) (dir (z1 k)) ^ 2 * dir (z2 k) - (((‖w1 k‖ : ℝ) : ℂ) - w k * (starRingEnd ℂ) (dir (w1 k)) ^ 2 * dir (w2 k)) =
    ((‖z1 k‖ - ‖w1 k‖ : ℝ) : ℂ) - (z k * (starRingEnd ℂ) (dir (z1 k)) ^ 2 * dir (z2 k) - w k * (starRingEnd ℂ) (dir (w1 k)) ^ 2 * dir (w2 k)) by push_cast; ring]
  refine (norm_sub_le _ _).trans ?_
  rw [Complex.norm_real, Real.norm_eq_abs]
  have p := norm_prod_sub (a := z k) (a' := w k) (b := starRingEnd ℂ (dir (z1 k))) (b' := starRingEnd ℂ (dir (w1 k))) (c := dir (z2 k)) (c' := dir (w2 k))
    (by rw [Complex.norm_conj, norm_dir]) (by rw [Complex.norm_conj, norm_dir]) (norm_dir _)
  rw [conj_sub_norm] at p
  have q1 := dir_close hr b1 c1
  have q2 := dir_close hr b2 c2
  have q3 := (abs_norm_sub_norm_le (z1 k) (w1 k)).trans c1
  have hε : 0 ≤ ε := (norm_nonneg _).trans c0
  have q4 : ‖w k‖ * (2 * ‖dir (z1 k) - dir (w1 k)‖ + ‖dir (z2 k) - dir (w2 k)‖) ≤ M * (2 * (2 * ε / r) + 2 * ε / r) :=
    mul_le_mul (hM k hk) (by linarith) (by positivity) ((norm_nonneg _).trans (hM k hk))
  have q5 : M * (2 * (2 * ε / r) + 2 * ε / r) = 6 * M * ε / r := by ring
  linarith

/-- **C105, partial** Phase deviation: as long as the spectra have at least magnitude `r` in every bin, noise changes the value by at most
`4 π ε / r` a bin. (Missing: silent bins; see `C105_phase_violation`.) -/
theorem C105_phase_partial {c : Config} (hc : Valid c) (hty : c.ty = .phaseDev) {ε r : ℝ} (hr : 0 < r)
    {z z1 z2 w w1 w2 : Nat → ℂ} {zs ws : List (Nat → ℂ)}
    (hcl : ∀ k, k ≤ c.frame / 2 → ‖z k - w k‖ ≤ ε ∧ ‖z1 k - w1 k‖ ≤ ε ∧ ‖z2 k - w2 k‖ ≤ ε)
    (hb : ∀ k, k ≤ c.frame / 2 → r ≤ ‖z k‖ ∧ r ≤ ‖z1 k‖ ∧ r ≤ ‖z2 k‖) {v u : ℝ} (hv : Gives c (z :: z1 :: z2 :: zs) v) (hu : Gives c (w :: w1 :: w2 :: ws) u) :
    |v - u| ≤ ((c.frame / 2 : Nat) + 1) * (4 * Real.pi * ε / r) := by
  have e1 := gives_value hc hv
  have e2 := gives_value hc hu
  unfold IsValue at e1 e2
  rw [hty] at e1 e2
  simp only at e1 e2
  obtain ⟨d, d1, rfl⟩ := e1
  obtain ⟨e, d2, rfl⟩ := e2
  refine abs_sum_sub_le_const (fun k hk => (abs_dev_close (d1 k hk).1 (d1 k hk).2.1 (d2 k hk).1 (d2 k hk).2.1).trans ?_)
  obtain ⟨c0, c1, c2⟩ := hcl k hk
  obtain ⟨b0, b1, b2⟩ := hb k hk
  rw [exp_dev (d1 k hk), exp_dev (d2 k hk)]
  have p := norm_prod_sub (a := dir (z k)) (a' := dir (w k)) (b := starRingEnd ℂ (dir (z1 k))) (b' := starRingEnd ℂ (dir (w1 k))) (c := dir (z2 k)) (c' := dir (w2 k))
    (by rw [Complex.norm_conj, norm_dir]) (by rw [Complex.norm_conj, norm_dir]) (norm_dir _)
  rw [conj_sub_norm, norm_dir, one_mul] at p
  have q0 := dir_close hr b0 c0
  have q1 := dir_close hr b1 c1
  have q2 := dir_close hr b2 c2
  have hpi := Real.pi_pos
  have : Real.pi / 2 * (2 * ε / r + (2 * (2 * ε / r) + 2 * ε / r)) = 4 * Real.pi * ε / r := by ring
  rw [← this]
  gcongr
  linarith

/-! ## Where the claim fails -/

/-- A spectrum with the same real value in every bin, and the lists that hold it. -/
noncomputable def flat (c : Config) (a : ℝ) : List ℝ × List ℝ := (List.replicate (c.frame / 2 + 1) a, List.replicate (c.frame / 2 + 1) 0)

theorem ofSplit_flat {c : Config} {a : ℝ} {k : Nat} (hk : k ≤ c.frame / 2) : ofSplit (flat c a).1 (flat c a).2 k = (a : ℂ) := by
  unfold ofSplit flat
  have h : k < c.frame / 2 + 1 := by omega
  simp only [List.getD_replicate _ h]
  exact Complex.ext rfl rfl

/-- The history of flat spectra with the given values, most recent first. -/
noncomputable def flats (c : Config) (l : List ℝ) : List (Nat → ℂ) := l.map fun a => ofSplit (flat c a).1 (flat c a).2

theorem flats_gives {c : Config} (hc : Valid c) (a : ℝ) (l : List ℝ) : ∃ v, Gives c (flats c (a :: l)) v := by
  have := gives_exists hc (flat c a) (l.map (flat c)) (fun q hq => by
    rw [← List.map_cons] at hq
    obtain ⟨b, _, rfl⟩ := List.mem_map.mp hq
    simp [flat])
  rwa [← List.map_cons, List.map_map] at this

theorem flats_close {c : Config} {ε : ℝ} : ∀ {l m : List ℝ}, List.Forall₂ (fun a b => |a - b| ≤ ε) l m → Close (c.frame / 2) ε (flats c l) (flats c m)
  | _, _, .nil => .nil
  | _, _, .cons h hs => .cons (fun k hk => by
    show ‖ofSplit (flat c _).1 (flat c _).2 k - ofSplit (flat c _).1 (flat c _).2 k‖ ≤ ε
    rw [ofSplit_flat hk, ofSplit_flat hk, ← Complex.ofReal_sub, Complex.norm_real]; exact h) (flats_close hs)

theorem dev_unique {k : Nat} {h : List (Nat → ℂ)} {d e : ℝ} (hd : IsDev k h d) (he : -Real.pi < e ∧ e ≤ Real.pi)
    (hp : phase k h - 2 * phase k h.tail + phase k h.tail.tail = e) : d = e := by
  obtain ⟨h1, h2, j, hj⟩ := hd
  have hpi := Real.pi_pos
  have b1 : j < 1 := by
    by_contra hc
    have : (1 : ℝ) ≤ (j : ℝ) := by exact_mod_cast not_lt.mp hc
    nlinarith [he.1, he.2]
  have b2 : -1 < j := by
    by_contra hc
    have : (j : ℝ) ≤ -1 := by exact_mod_cast not_lt.mp hc
    nlinarith [he.1, he.2]
  obtain rfl : j = 0 := by omega
  rw [hp] at hj
  simpa using hj.symm

/-- **C105 violated.** Phase deviation of silence is 0; with noise of any size, however small, in one frame it is the largest value there is, π in every bin. -/
theorem C105_phase_violation {c : Config} (hc : Valid c) (hty : c.ty = .phaseDev) {ε : ℝ} (hε : 0 < ε) :
    ∃ h h' v u, Close (c.frame / 2) ε h h' ∧ Gives c h v ∧ Gives c h' u ∧ v = 0 ∧ u = ((c.frame / 2 : Nat) + 1) * Real.pi := by
  have hpi := Real.pi_pos
  obtain ⟨v, hv⟩ := flats_gives hc 0 [0, 0]
  obtain ⟨u, hu⟩ := flats_gives hc (-ε) [0, 0]
  refine ⟨_, _, v, u, flats_close (.cons (by rw [zero_sub, neg_neg, abs_of_pos hε]) (.cons (by simpa using hε.le) (.cons (by simpa using hε.le) .nil))), hv, hu, ?_, ?_⟩
  · have e1 := gives_value hc hv
    unfold IsValue at e1
    rw [hty] at e1
    simp only at e1
    obtain ⟨d, d1, rfl⟩ := e1
    refine Finset.sum_eq_zero (fun k hk => ?_)
    have hk' : k ≤ c.frame / 2 := by have := Finset.mem_range.mp hk; omega
    rw [dev_unique (d1 k hk') (e := 0) ⟨by linarith, by linarith⟩ (by
      simp only [flats, List.map_cons, List.tail_cons, phase, ofSplit_flat hk', Complex.ofReal_zero, Complex.arg_zero]; ring), abs_zero]
  · have e1 := gives_value hc hu
    unfold IsValue at e1
    rw [hty] at e1
    simp only at e1
    obtain ⟨d, d1, rfl⟩ := e1
    rw [Finset.sum_congr rfl (g := fun _ => Real.pi), Finset.sum_const, Finset.card_range, nsmul_eq_mul]
    · push_cast; ring
    intro k hk
    have hk' : k ≤ c.frame / 2 := by have := Finset.mem_range.mp hk; omega
    rw [dev_unique (d1 k hk') (e := Real.pi) ⟨by linarith, le_rfl⟩ (by
      simp only [flats, List.map_cons, List.tail_cons, phase, ofSplit_flat hk', Complex.ofReal_zero, Complex.arg_zero]
      rw [Complex.arg_ofReal_of_neg (by linarith)]; ring), abs_of_pos hpi]

/-- **C105 violated.** Complex spectral difference, two frames after silence: for a steady sound of any level `M` the value is 0 if the silence was exact,
and the largest there is, twice the level in every bin, with noise of any size in it. -/
theorem C105_complex_violation {c : Config} (hc : Valid c) (hty : c.ty = .complexSD) (hwh : c.whiten = false) {ε M : ℝ} (hε : 0 < ε) (hM : 0 ≤ M) :
    ∃ h h' v u, Close (c.frame / 2) ε h h' ∧ Gives c h v ∧ Gives c h' u ∧ v = 0 ∧ u = ((c.frame / 2 : Nat) + 1) * (2 * M) := by
  have hpi := Real.pi_pos
  have hm : ∀ k, k ≤ c.frame / 2 → ∀ a l, 0 ≤ a → mag c k (flats c (a :: l)) = a := fun k hk a l ha => by
    show (if c.whiten then _ else ‖ofSplit (flat c a).1 (flat c a).2 k‖) = a
    rw [hwh, if_neg (by decide), ofSplit_flat hk, Complex.norm_real, Real.norm_eq_abs, abs_of_nonneg ha]
  obtain ⟨v, hv⟩ := flats_gives hc M [M, 0]
  obtain ⟨u, hu⟩ := flats_gives hc M [M, -ε]
  refine ⟨_, _, v, u, flats_close (.cons (by simpa using hε.le) (.cons (by simpa using hε.le) (.cons (by rw [zero_sub, neg_neg, abs_of_pos hε]) .nil))), hv, hu, ?_, ?_⟩
  · have e1 := gives_value hc hv
    unfold IsValue at e1
    rw [hty] at e1
    simp only at e1
    obtain ⟨d, d1, rfl⟩ := e1
    refine Finset.sum_eq_zero (fun k hk => ?_)
    have hk' : k ≤ c.frame / 2 := by have := Finset.mem_range.mp hk; omega
    rw [dev_unique (d1 k hk') (e := 0) ⟨by linarith, by linarith⟩ (by
      simp only [flats, List.map_cons, List.tail_cons, phase, ofSplit_flat hk', Complex.ofReal_zero, Complex.arg_zero, Complex.arg_ofReal_of_nonneg hM]; ring),
      hm k hk' _ _ hM, show (flats c [M, M, 0]).tail = flats c [M, 0] from rfl, hm k hk' _ _ hM]
    simp
  · have e1 := gives_value hc hu
    unfold IsValue at e1
    rw [hty] at e1
    simp only at e1
    obtain ⟨d, d1, rfl⟩ := e1
    rw [Finset.sum_congr rfl (g := fun _ => 2 * M), Finset.sum_const, Finset.card_range, nsmul_eq_mul]
    · push_cast; ring
    intro k hk
    have hk' : k ≤ c.frame / 2 := by have := Finset.mem_range.mp hk; omega
    rw [dev_unique (d1 k hk') (e := Real.pi) ⟨by linarith, le_rfl⟩ (by
      simp only [flats, List.map_cons, List.tail_cons, phase, ofSplit_flat hk', Complex.arg_ofReal_of_nonneg hM]
      rw [Complex.arg_ofReal_of_neg (by linarith)]; ring),
      hm k hk' _ _ hM, show (flats c [M, M, -ε]).tail = flats c [M, -ε] from rfl, hm k hk' _ _ hM, Complex.exp_pi_mul_I,
      show (M : ℂ) - M * -1 = ((2 * M : ℝ) : ℂ) by push_cast; ring, Complex.norm_real, Real.norm_eq_abs, abs_of_nonneg (by linarith)]

/-- **C105 violated.** Broadband rise: an attack of any level `M` after exact silence is not seen at all (value 0); with noise of any small enough size in
the silence, it is seen in every bin. -/
theorem C105_broadband_violation {c : Config} (hc : Valid c) (hty : c.ty = .broadband) (hwh : c.whiten = false) {M : ℝ} (hM : 0 < M) :
    ∃ ε₀ > 0, ∀ ε, 0 < ε → ε < ε₀ →
      ∃ h h' v u, Close (c.frame / 2) ε h h' ∧ Gives c h v ∧ Gives c h' u ∧ v = 0 ∧ u = (c.frame / 2 : Nat) + 1 := by
  classical
  have hm : ∀ k, k ≤ c.frame / 2 → ∀ a l, 0 ≤ a → mag c k (flats c (a :: l)) = a := fun k hk a l ha => by
    show (if c.whiten then _ else ‖ofSplit (flat c a).1 (flat c a).2 k‖) = a
    rw [hwh, if_neg (by decide), ofSplit_flat hk, Complex.norm_real, Real.norm_eq_abs, abs_of_nonneg ha]
  have hp : (0 : ℝ) < 10 ^ (c.dbRise / 20) := Real.rpow_pos_of_pos (by norm_num) _
  refine ⟨M / 10 ^ (c.dbRise / 20), by positivity, fun ε hε hs => ?_⟩
  obtain ⟨v, hv⟩ := flats_gives hc M [0]
  obtain ⟨u, hu⟩ := flats_gives hc M [ε]
  refine ⟨_, _, v, u, flats_close (.cons (by simpa using hε.le) (.cons (by rw [zero_sub, abs_neg, abs_of_pos hε]) .nil)), hv, hu, ?_, ?_⟩
  · have e1 := gives_value hc hv
    unfold IsValue at e1
    rw [hty] at e1
    simp only at e1
    rw [e1, Nat.cast_eq_zero, Finset.card_eq_zero]
    refine Finset.filter_eq_empty_iff.mpr (fun k hk hr => hr.1 ?_)
    exact hm k (by have := Finset.mem_range.mp hk; omega) 0 [] le_rfl
  · have e1 := gives_value hc hu
    unfold IsValue at e1
    rw [hty] at e1
    simp only at e1
    rw [e1, Finset.filter_true_of_mem, Finset.card_range]
    · push_cast; ring
    intro k hk
    have hk' : k ≤ c.frame / 2 := by have := Finset.mem_range.mp hk; omega
    have m1 := hm k hk' M [ε] hM.le
    have m2 : mag c k (flats c [M, ε]).tail = ε := hm k hk' ε [] hε.le
    unfold Rose
    rw [m1, m2]
    refine ⟨hε.ne', hM.ne', ?_⟩
    rw [lt_div_iff₀ hp] at hs
    have h1 : (10 : ℝ) ^ (c.dbRise / 20) < M / ε := by rw [lt_div_iff₀ hε]; linarith
    have h2 : c.dbRise / 20 < Real.logb 10 (M / ε) := (Real.lt_logb_iff_rpow_lt (by norm_num) (by positivity)).mpr h1
    rw [← div_pow, Real.logb_pow]
    push_cast
    linarith

/-! Non-vacuity: frames of 4 samples, any type. -/

noncomputable def plain (ty : DFType) : Config := ⟨2, 4, ty, 3, false, -1, -1⟩

theorem plain_valid (ty : DFType) : Valid (plain ty) := ⟨by norm_num [plain], by norm_num [plain], by norm_num [plain], fun h => by cases h⟩

example : ∃ h h' v u, Close 2 (1 / 1000000) h h' ∧ Gives (plain .complexSD) h v ∧ Gives (plain .complexSD) h' u ∧ v = 0 ∧ u = ((2 : Nat) + 1) * (2 * 100) :=
  C105_complex_violation (plain_valid _) rfl rfl (by norm_num) (by norm_num)

/-- The assumptions of the bounds are met, by spectra at levels 3 and 4, for complex spectral difference. -/
example : ∃ v u, Gives (plain .complexSD) (flats (plain .complexSD) [3, 3, 3]) v ∧ Gives (plain .complexSD) (flats (plain .complexSD) [4, 3, 3]) u ∧
    |v - u| ≤ ((2 : Nat) + 1) * (2 * 1 + 6 * 4 * 1 / 3) := by
  obtain ⟨v, hv⟩ := flats_gives (plain_valid .complexSD) 3 [3, 3]
  obtain ⟨u, hu⟩ := flats_gives (plain_valid .complexSD) 4 [3, 3]
  refine ⟨v, u, hv, hu, C105_complex_partial (plain_valid .complexSD) rfl rfl (by norm_num) (fun k hk => ?_) (fun k hk => ?_) (fun k hk => ?_) hv hu⟩
  · simp only [ofSplit_flat hk]
    refine ⟨?_, ?_, ?_⟩ <;> rw [← Complex.ofReal_sub, Complex.norm_real] <;> norm_num
  · simp only [ofSplit_flat hk, Complex.norm_real]
    norm_num
  · simp only [ofSplit_flat hk, Complex.norm_real]
    norm_num

/-- High-frequency content with whitening (the configuration of the examples of C28). -/
example : ∃ v u, Gives exampleConfig (flats exampleConfig [3, 3]) v ∧ Gives exampleConfig (flats exampleConfig [4, 3]) u ∧
    |v - u| ≤ magTol exampleConfig 1 * ∑ k ∈ Finset.range (4 / 2 + 1), ((k : ℝ) + 1) := by
  obtain ⟨v, hv⟩ := flats_gives exampleConfig_valid 3 [3]
  obtain ⟨u, hu⟩ := flats_gives exampleConfig_valid 4 [3]
  refine ⟨v, u, hv, hu, C105_hfc exampleConfig_valid rfl (fun _ => ?_) zero_le_one (flats_close (.cons ?_ (.cons ?_ .nil))) hv hu⟩
  · norm_num [exampleConfig, Config.relax]
  all_goals norm_num

end QM.DetectionFunction
