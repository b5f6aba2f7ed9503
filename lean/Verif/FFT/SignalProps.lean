import Verif.FFT.SignalLemmas
import Verif.FFT.Props

/-!
# C132: what the Fourier transforms do to energies, rotations, convolutions and tones
-/

namespace QM.FFT

open Complex QM.DFT QM.Kiss Finset

/-- **C132** `FFT::process` keeps energy: that of the output is `n` times that of the input, for the inverse one `n`-th of it. -/
theorem C132_energy (n : Nat) (h1 : 1 ≤ n) (h2 : n ≤ 2147483647) {d : D} (hd : Reach n d) (inverse : Bool) (ri ii ro io : List ℝ)
    (hri : n ≤ ri.length) (hii : n ≤ ii.length) (hro : n ≤ ro.length) (hio : n ≤ io.length) :
    ∃ d' ro' io', d.process inverse ri (some ii) ro io = some (d', ro', io') ∧
      ∑ k ∈ range n, (ro'.getD k 0 ^ 2 + io'.getD k 0 ^ 2) = (if inverse then 1 / (n : ℝ) else n) * ∑ j ∈ range n, (ri.getD j 0 ^ 2 + ii.getD j 0 ^ 2) := by
  obtain ⟨d', ro', io', e1, _, _, _, e2, _⟩ := C22_process n h1 h2 hd inverse ri (some ii) ro io hri (by rintro l ⟨⟩; exact hii) hro hio
  refine ⟨d', ro', io', e1, ?_⟩
  have hn : (n : ℝ) ≠ 0 := by exact_mod_cast (show n ≠ 0 by omega)
  have hsq : ∀ a b : ℝ, a ^ 2 + b ^ 2 = ‖(⟨a, b⟩ : ℂ)‖ ^ 2 := fun a b => by rw [Complex.sq_norm, Complex.normSq_mk]; ring
  have hl : ∀ k ∈ range n, ro'.getD k 0 ^ 2 + io'.getD k 0 ^ 2 = (if inverse then 1 / (n : ℝ) else 1) ^ 2 * ‖dft inverse n (inputOf ri (some ii)) k‖ ^ 2 := by
    intro k hk
    obtain ⟨a, b, ha, hb, hab⟩ := e2 k (mem_range.mp hk)
    rw [List.getD_eq_getElem?_getD, ha, List.getD_eq_getElem?_getD, hb, Option.getD_some, Option.getD_some, hsq, hab, norm_mul, mul_pow]
    cases inverse <;> simp
  rw [sum_congr rfl hl, ← mul_sum, dft_energy]
  have hr : ∑ j ∈ range n, ‖inputOf ri (some ii) j‖ ^ 2 = ∑ j ∈ range n, (ri.getD j 0 ^ 2 + ii.getD j 0 ^ 2) := sum_congr rfl fun j _ => (hsq _ _).symm
  rw [hr]
  cases inverse
  · simp
  · simp only [if_true]; field_simp

/-- **C132** The magnitudes of `FFTReal::forwardMagnitude` have `n` times the energy of the frame; the first and the middle bin count once, those in between
twice. -/
theorem C132_magnitudes (n : Nat) (h0 : n % 2 = 0) (h1 : 2 ≤ n) (h2 : n ≤ 2147483647) {d : RD} (hd : RReach n d) (ri mo : List ℝ) (u : ℝ)
    (hri : n ≤ ri.length) (hmo : n ≤ mo.length) :
    ∃ d' mo', d.forwardMagnitude ri mo u = some (d', mo') ∧ ∑ k ∈ range n, mo'.getD k 0 ^ 2 = n * ∑ j ∈ range n, ri.getD j 0 ^ 2 ∧
      mo'.getD 0 0 ^ 2 + 2 * ∑ k ∈ range (n / 2 - 1), mo'.getD (k + 1) 0 ^ 2 + mo'.getD (n / 2) 0 ^ 2 = n * ∑ j ∈ range n, ri.getD j 0 ^ 2 := by
  obtain ⟨d', mo', e1, _, _, e2, _⟩ := C24_magnitude n h0 h1 h2 hd ri mo u hri hmo
  have hv : ∀ k, k < n → mo'.getD k 0 = ‖dft false n (fun j => ((ri.getD j 0 : ℝ) : ℂ)) k‖ := fun k hk => by
    rw [List.getD_eq_getElem?_getD, e2 k hk, Option.getD_some]
  have hE : ∑ k ∈ range n, ‖dft false n (fun j => ((ri.getD j 0 : ℝ) : ℂ)) k‖ ^ 2 = n * ∑ j ∈ range n, ri.getD j 0 ^ 2 := by
    rw [dft_energy]
    congr 1
    exact sum_congr rfl fun j _ => by rw [Complex.norm_real, Real.norm_eq_abs, sq_abs]
  refine ⟨d', mo', e1, ?_, ?_⟩
  · rw [← hE]
    exact sum_congr rfl fun k hk => by rw [hv k (mem_range.mp hk)]
  · obtain ⟨nc, rfl⟩ : ∃ nc, n = 2 * nc := ⟨n / 2, by omega⟩
    rw [← hE, sum_half (show 0 < nc by omega) (fun k => ‖dft false (2 * nc) (fun j => ((ri.getD j 0 : ℝ) : ℂ)) k‖ ^ 2), show 2 * nc / 2 = nc by omega, hv 0 (by omega), hv nc (by omega)]
    · congr 3
      refine sum_congr rfl fun k hk => ?_
      have hk := mem_range.mp hk
      rw [hv (k + 1) (by omega)]
    · intro k hk
      rw [← dft_real_conj false (by omega) _ k hk, RCLike.norm_conj]

/-- **C132** Rotating a frame by any number of samples does not change its magnitudes. -/
theorem C132_rotation (n : Nat) (h0 : n % 2 = 0) (h1 : 2 ≤ n) (h2 : n ≤ 2147483647) {d e : RD} (hd : RReach n d) (he : RReach n e) (x y mo po : List ℝ) (u v : ℝ)
    (hx : n ≤ x.length) (hy : n ≤ y.length) (hmo : n ≤ mo.length) (hpo : n ≤ po.length) (s : Nat) (hs : ∀ j, j < n → y.getD j 0 = x.getD ((j + s) % n) 0) :
    ∃ d' mo' e' po', d.forwardMagnitude x mo u = some (d', mo') ∧ e.forwardMagnitude y po v = some (e', po') ∧ ∀ k, k < n → po'[k]? = mo'[k]? := by
  obtain ⟨d', mo', a1, _, _, a2, _⟩ := C24_magnitude n h0 h1 h2 hd x mo u hx hmo
  obtain ⟨e', po', b1, _, _, b2, _⟩ := C24_magnitude n h0 h1 h2 he y po v hy hpo
  refine ⟨d', mo', e', po', a1, b1, fun k hk => ?_⟩
  rw [a2 k hk, b2 k hk, ← dft_rotate false (by omega) (fun j => ((x.getD j 0 : ℝ) : ℂ)) s k, norm_mul, norm_pow]
  have hr : ‖root false n‖ = 1 := (root_primitive false (show n ≠ 0 by omega)).norm'_eq_one (by omega)
  rw [hr, one_pow, one_mul]
  congr 2
  unfold dft
  refine sum_congr rfl fun j hj => ?_
  dsimp only
  rw [hs j (mem_range.mp hj)]

/-- **C132** Fast convolution: two frames are transformed, the spectra multiplied bin by bin and the product transformed back; the result is the circular
convolution of the frames. The three calls may be made on one object or on different ones. -/
theorem C132_convolution (n : Nat) (h1 : 1 ≤ n) (h2 : n ≤ 2147483647) {d e f : D} (hd : Reach n d) (he : Reach n e) (hf : Reach n f)
    (xr xi yr yi ro io ro2 io2 ro3 io3 : List ℝ) (a1 : n ≤ xr.length) (a2 : n ≤ xi.length) (a3 : n ≤ yr.length) (a4 : n ≤ yi.length) (b1 : n ≤ ro.length)
    (b2 : n ≤ io.length) (b3 : n ≤ ro2.length) (b4 : n ≤ io2.length) (b5 : n ≤ ro3.length) (b6 : n ≤ io3.length) :
    ∃ d' pr pi e' qr qi, d.process false xr (some xi) ro io = some (d', pr, pi) ∧ e.process false yr (some yi) ro2 io2 = some (e', qr, qi) ∧
      ∀ zr zi : List ℝ, n ≤ zr.length → n ≤ zi.length →
        (∀ k, k < n → (⟨zr.getD k 0, zi.getD k 0⟩ : ℂ) = ⟨pr.getD k 0, pi.getD k 0⟩ * ⟨qr.getD k 0, qi.getD k 0⟩) →
        ∃ f' cr ci, f.process true zr (some zi) ro3 io3 = some (f', cr, ci) ∧ ∀ l, l < n → (⟨cr.getD l 0, ci.getD l 0⟩ : ℂ) =
          ∑ j ∈ range n, (⟨xr.getD j 0, xi.getD j 0⟩ : ℂ) * ⟨yr.getD ((l + (n - j)) % n) 0, yi.getD ((l + (n - j)) % n) 0⟩ := by
  obtain ⟨d', pr, pi, p1, _, _, _, p2, _⟩ := C22_process n h1 h2 hd false xr (some xi) ro io a1 (by rintro l ⟨⟩; exact a2) b1 b2
  obtain ⟨e', qr, qi, q1, _, _, _, q2, _⟩ := C22_process n h1 h2 he false yr (some yi) ro2 io2 a3 (by rintro l ⟨⟩; exact a4) b3 b4
  refine ⟨d', pr, pi, e', qr, qi, p1, q1, fun zr zi hzr hzi hz => ?_⟩
  obtain ⟨f', cr, ci, c1, _, _, _, c2, _⟩ := C22_process n h1 h2 hf true zr (some zi) ro3 io3 hzr (by rintro l ⟨⟩; exact hzi) b5 b6
  refine ⟨f', cr, ci, c1, fun l hl => ?_⟩
  have hn : n ≠ 0 := by omega
  have hn' : (n : ℂ) ≠ 0 := by exact_mod_cast hn
  have hP : ∀ k, k < n → (⟨pr.getD k 0, pi.getD k 0⟩ : ℂ) = dft false n (inputOf xr (some xi)) k := fun k hk => by
    obtain ⟨a, b, ha, hb, hab⟩ := p2 k hk
    simp only [List.getD_eq_getElem?_getD, ha, hb, Option.getD_some, hab]
    simp
  have hQ : ∀ k, k < n → (⟨qr.getD k 0, qi.getD k 0⟩ : ℂ) = dft false n (inputOf yr (some yi)) k := fun k hk => by
    obtain ⟨a, b, ha, hb, hab⟩ := q2 k hk
    simp only [List.getD_eq_getElem?_getD, ha, hb, Option.getD_some, hab]
    simp
  obtain ⟨a, b, ha, hb, hab⟩ := c2 l hl
  have hz' : dft true n (inputOf zr (some zi)) l = n * circular n (inputOf xr (some xi)) (inputOf yr (some yi)) l := by
    rw [← dft_dft false _ l hl]
    unfold dft
    refine sum_congr rfl fun k hk => ?_
    have hk := mem_range.mp hk
    have e : inputOf zr (some zi) k = dft false n (circular n (inputOf xr (some xi)) (inputOf yr (some yi))) k := by
      rw [dft_circular false hn, ← hP k hk, ← hQ k hk, ← hz k hk]
      rfl
    rw [e]
    rfl
  simp only [List.getD_eq_getElem?_getD, ha, hb, Option.getD_some]
  rw [hab, hz', if_pos rfl]
  unfold circular inputOf
  field_simp
  simp only [List.getD_eq_getElem?_getD]

/-- **C132** A tone of `m` whole periods in the frame has magnitude `|A| n / 2` in bin `m` and in its mirror image, and nothing anywhere else, at any phase. -/
theorem C132_tone (n : Nat) (h0 : n % 2 = 0) (h1 : 2 ≤ n) (h2 : n ≤ 2147483647) {d : RD} (hd : RReach n d) (ri mo : List ℝ) (u : ℝ)
    (hri : n ≤ ri.length) (hmo : n ≤ mo.length) (m : Nat) (hm : 0 < m) (hm2 : 2 * m < n) (A φ : ℝ)
    (hx : ∀ j, j < n → ri.getD j 0 = A * Real.cos (2 * Real.pi * m * j / n + φ)) :
    ∃ d' mo', d.forwardMagnitude ri mo u = some (d', mo') ∧ ∀ k, k < n → mo'[k]? = some (if k = m ∨ k = n - m then |A| * n / 2 else 0) := by
  obtain ⟨d', mo', e1, _, _, e2, _⟩ := C24_magnitude n h0 h1 h2 hd ri mo u hri hmo
  refine ⟨d', mo', e1, fun k hk => ?_⟩
  have h3 : dft false n (fun j => ((ri.getD j 0 : ℝ) : ℂ)) k = dft false n (fun j => ((A * Real.cos (2 * Real.pi * m * j / n + φ) : ℝ) : ℂ)) k := by
    unfold dft
    refine sum_congr rfl fun j hj => ?_
    dsimp only
    rw [hx j (mem_range.mp hj)]
  have g1 : ‖Complex.exp (φ * I)‖ = 1 := Complex.norm_exp_ofReal_mul_I φ
  have g2 : ‖Complex.exp (-(φ * I))‖ = 1 := by rw [Complex.exp_neg, norm_inv, g1, inv_one]
  rw [e2 k hk, h3, dft_tone hm hm2 hk]
  congr 1
  by_cases a : k = m
  · rw [if_pos a, if_pos (Or.inl a), norm_mul, g1]
    simp
  · rw [if_neg a]
    by_cases b : k = n - m
    · rw [if_pos b, if_pos (Or.inr b), norm_mul, g2]
      simp
    · rw [if_neg b, if_neg (by tauto), norm_zero]

/-- The hypotheses are met: a tone of two periods in a frame of eight samples, and the same tone a sample later. -/
example : ∃ d d' mo, RD.make 8 0 = some d ∧
    d.forwardMagnitude ((List.range 8).map fun j : Nat => 3 * Real.cos (2 * Real.pi * (2 : Nat) * j / (8 : Nat) + 0)) (List.replicate 8 0) 0 = some (d', mo) ∧ mo[2]? = some 12 ∧ mo[3]? = some 0 := by
  obtain ⟨d, h, hr⟩ := C24_even_accepted 8 0 (by norm_num) (by norm_num) (by norm_num)
  obtain ⟨d', mo, e1, e2⟩ := C132_tone 8 (by norm_num) (by norm_num) (by norm_num) hr ((List.range 8).map fun j : Nat => 3 * Real.cos (2 * Real.pi * (2 : Nat) * j / (8 : Nat) + 0))
    (List.replicate 8 0) 0 (by simp) (by simp) 2 (by norm_num) (by norm_num) 3 0 (fun j hj => by simp [List.getD, List.getElem?_map, List.getElem?_range hj])
  refine ⟨d, d', mo, h, e1, ?_, ?_⟩
  · rw [e2 2 (by norm_num)]; norm_num
  · rw [e2 3 (by norm_num)]; norm_num

example : ∃ d d' mo e' po, RD.make 4 0 = some d ∧ d.forwardMagnitude [1, 2, 3, 5] (List.replicate 4 0) 0 = some (d', mo) ∧
    d.forwardMagnitude [3, 5, 1, 2] (List.replicate 4 0) 0 = some (e', po) ∧ po[1]? = mo[1]? := by
  obtain ⟨d, h, hr⟩ := C24_even_accepted 4 0 (by norm_num) (by norm_num) (by norm_num)
  obtain ⟨d', mo, e', po, a, b, c⟩ := C132_rotation 4 (by norm_num) (by norm_num) (by norm_num) hr hr [1, 2, 3, 5] [3, 5, 1, 2] (List.replicate 4 0) (List.replicate 4 0) 0 0
    (by simp) (by simp) (by simp) (by simp) 2 (fun j hj => by interval_cases j <;> rfl)
  exact ⟨d, d', mo, e', po, h, a, b, c 1 (by norm_num)⟩

example : ∃ d d' ro io, D.make 3 0 0 = some d ∧ d.process false [1, 2, 2] (some [0, 0, 1]) (List.replicate 3 0) (List.replicate 3 0) = some (d', ro, io) ∧
    ∑ k ∈ range 3, (ro.getD k 0 ^ 2 + io.getD k 0 ^ 2) = 30 := by
  obtain ⟨d, h, hr⟩ := C22_construct 3 (by norm_num) (by norm_num) 0 0
  obtain ⟨d', ro, io, e1, e2⟩ := C132_energy 3 (by norm_num) (by norm_num) hr false [1, 2, 2] [0, 0, 1] (List.replicate 3 0) (List.replicate 3 0) (by simp) (by simp) (by simp) (by simp)
  refine ⟨d, d', ro, io, h, e1, ?_⟩
  rw [e2]
  norm_num [sum_range_succ]

end QM.FFT
