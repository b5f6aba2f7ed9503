import Verif.FFT.RoundedRealInv
import Verif.FFT.RealProps

/-!
# C84: `FFTReal` in double precision
-/

namespace QM.FFT

open Complex QM.DFT QM.Kiss QM.Double

variable {fl cosF sinF : ℝ → ℝ}

/-- The `FFTReal` objects a program can have: constructed with size `n`, then used for any sequence of calls with any
input, however large. -/
inductive RReachF (fl cosF sinF : ℝ → ℝ) (n : Nat) : RD → Prop
  | make {u d} : RD.makeF fl cosF sinF n u = some d → RReachF fl cosF sinF n d
  | forward {d d' ri ro io ro' io'} : RReachF fl cosF sinF n d →
      d.forwardF fl ri ro io = some (d', ro', io') → RReachF fl cosF sinF n d'
  | magnitude {d d' ri mo mo' u} : RReachF fl cosF sinF n d →
      d.forwardMagnitudeF fl ri mo u = some (d', mo') → RReachF fl cosF sinF n d'
  | inverse {d d' ri ii ro ro'} : RReachF fl cosF sinF n d →
      d.inverseF fl ri ii ro = some (d', ro') → RReachF fl cosF sinF n d'

/-- What an `FFTReal` object contains, up to rounding. -/
structure RDNear (fl cosF sinF : ℝ → ℝ) (d : RD) (nc : Nat) : Prop where
  n : d.n = 2 * nc
  planf : RPlanNear fl cosF sinF d.planf nc false
  plani : RPlanNear fl cosF sinF d.plani nc true
  c : d.c.length = 2 * nc

theorem forwardF_keeps {nc : Nat} {d d' : RD} {ri ro io ro' io' : List ℝ} (hd : RDNear fl cosF sinF d nc)
    (h : d.forwardF fl ri ro io = some (d', ro', io')) : RDNear fl cosF sinF d' nc := by
  unfold RD.forwardF at h
  simp only [Option.bind_eq_bind, Option.bind_eq_some_iff] at h
  obtain ⟨⟨pf, c⟩, e1, p1, _, p2, _, e4⟩ := h
  cases e4
  obtain ⟨k1, k2, k3, k4⟩ := fftrF_keeps e1
  exact ⟨hd.n, ⟨by simp only; rw [k1]; exact hd.planf.sub, by simp only; rw [k3]; exact hd.planf.tmp,
    by simp only; rw [k2]; exact hd.planf.super⟩, hd.plani, by simp only; rw [k4]; exact hd.c⟩

theorem magnitudeF_keeps {nc : Nat} {d d' : RD} {ri mo mo' : List ℝ} {u : ℝ} (hd : RDNear fl cosF sinF d nc)
    (h : d.forwardMagnitudeF fl ri mo u = some (d', mo')) : RDNear fl cosF sinF d' nc := by
  unfold RD.forwardMagnitudeF at h
  simp only [Option.bind_eq_bind, Option.bind_eq_some_iff] at h
  obtain ⟨⟨d1, r1, i1⟩, e1, m, _, e4⟩ := h
  cases e4
  exact forwardF_keeps hd e1

theorem inverseF_keeps {nc : Nat} {d d' : RD} {ri ii ro ro' : List ℝ} (hd : RDNear fl cosF sinF d nc)
    (h : d.inverseF fl ri ii ro = some (d', ro')) : RDNear fl cosF sinF d' nc := by
  unfold RD.inverseF at h
  simp only [Option.bind_eq_bind, Option.bind_eq_some_iff] at h
  obtain ⟨c, e1, ⟨pi, r1⟩, e2, r2, _, e4⟩ := h
  cases e4
  obtain ⟨k1, k2, k3⟩ := fftriF_keeps e2
  have hl : c.length = 2 * nc := len_loop (n := 2 * nc)
    (fun i s hs => len_bind fun _ => len_bind fun _ => len_wr _ _ hs) _ hd.c c e1
  exact ⟨hd.n, hd.planf, ⟨by simp only; rw [k1]; exact hd.plani.sub, by simp only; rw [k3]; exact hd.plani.tmp,
    by simp only; rw [k2]; exact hd.plani.super⟩, hl⟩

section

variable (hfl : Rounds fl) (hlib : Libm cosF sinF)

include hfl hlib in
theorem rdF_make {nc : Nat} (h1 : 1 ≤ nc) (h2 : 2 * nc ≤ 2147483647) (u : ℂ) :
    ∃ d, RD.makeF fl cosF sinF (2 * nc) u = some d ∧ RDNear fl cosF sinF d nc := by
  obtain ⟨pf, e1, e2⟩ := rallocF_ok hfl hlib nc false u h1 (by omega)
  obtain ⟨pi, f1, f2⟩ := rallocF_ok hfl hlib nc true u h1 (by omega)
  refine ⟨⟨2 * nc, pf, pi, List.replicate (2 * nc) u⟩, ?_, ⟨rfl, e2, f2, by simp⟩⟩
  unfold RD.makeF
  rw [if_neg (by omega)]
  simp [e1, f1]

include hfl hlib in
theorem reachF_ok {n : Nat} (h0 : n % 2 = 0) (h1 : 2 ≤ n) (h2 : n ≤ 2147483647) {d : RD} (h : RReachF fl cosF sinF n d) :
    RDNear fl cosF sinF d (n / 2) := by
  obtain ⟨nc, rfl⟩ : ∃ nc, n = 2 * nc := ⟨n / 2, by omega⟩
  rw [show 2 * nc / 2 = nc by omega]
  induction h with
  | make hm =>
    rename_i u d
    obtain ⟨d', e1, e2⟩ := rdF_make hfl hlib (nc := nc) (by omega) h2 u
    rw [e1] at hm; cases hm; exact e2
  | forward hr hf ih => exact forwardF_keeps ih hf
  | magnitude hr hf ih => exact magnitudeF_keeps ih hf
  | inverse hr hf ih => exact inverseF_keeps ih hf

include hfl hlib in
theorem rdF_forward {nc : Nat} (h1 : 1 ≤ nc) (h2 : 2 * nc ≤ 2147483647) {d : RD} (hd : RDNear fl cosF sinF d nc) (ri ro io : List ℝ)
    (hri : 2 * nc ≤ ri.length) (hro : 2 * nc ≤ ro.length) (hio : 2 * nc ≤ io.length)
    (hS : total (2 * nc) (fun j => ((ri.getD j 0 : ℝ) : ℂ)) ≤ 2 ^ 1000) :
    ∃ d' ro' io', ∃ V : Nat → ℂ, d.forwardF fl ri ro io = some (d', ro', io') ∧ ro'.length = ro.length ∧ io'.length = io.length ∧
      (∀ k, k < 2 * nc → ro'[k]? = some (V k).re ∧ io'[k]? = some (V k).im ∧
        ‖V k - dft false (2 * nc) (fun j => ((ri.getD j 0 : ℝ) : ℂ)) k‖ ≤
          1800 * radixSum nc / 2 ^ 53 * total (2 * nc) (fun j => ((ri.getD j 0 : ℝ) : ℂ))) ∧
      (V 0).im = 0 ∧ (V nc).im = 0 ∧ (∀ k, 0 < k → k < 2 * nc → V (2 * nc - k) = (starRingEnd ℂ) (V k)) ∧
      (∀ k, 2 * nc ≤ k → ro'[k]? = ro[k]? ∧ io'[k]? = io[k]?) := by
  obtain ⟨pf, c, e1, e4⟩ := fftrF_ok hfl hlib h1 (by omega) hd.planf ri d.c hri (by rw [hd.c]; omega) hS
  obtain ⟨X, hX⟩ : ∃ X : Nat → ℂ, X = dft false (2 * nc) (fun j => ((ri.getD j 0 : ℝ) : ℂ)) := ⟨_, rfl⟩
  rw [← hX] at e4 ⊢
  generalize 1800 * (radixSum nc : ℝ) / 2 ^ 53 * total (2 * nc) (fun j => ((ri.getD j 0 : ℝ) : ℂ)) = B at *
  have hXc : ∀ k, k ≤ 2 * nc → (starRingEnd ℂ) (X k) = X (2 * nc - k) := by
    intro k hk
    rw [hX]; exact dft_real_conj false (by omega) _ k hk
  obtain ⟨V, hV⟩ : ∃ V : Nat → ℂ, V = fun k => if k ≤ nc then c.getD k 0 else (starRingEnd ℂ) (c.getD (2 * nc - k) 0) := ⟨_, rfl⟩
  have hVlow : ∀ k, k ≤ nc → c[k]? = some (V k) ∧ ‖V k - X k‖ ≤ B ∧ (k = 0 ∨ k = nc → (V k).im = 0) := by
    intro k hk
    obtain ⟨v, a1, a2, a3⟩ := e4 k hk
    have : V k = v := by rw [hV]; simp [hk, List.getD, a1]
    rw [this]; exact ⟨a1, a2, a3⟩
  have hVhigh : ∀ k, nc < k → V k = (starRingEnd ℂ) (V (2 * nc - k)) := by
    intro k hk
    rw [hV]
    beta_reduce
    rw [if_neg (by omega), if_pos (by omega)]
  have hVc : ∀ k, 0 < k → k < 2 * nc → V (2 * nc - k) = (starRingEnd ℂ) (V k) := by
    intro k h0 hk
    rcases Nat.lt_trichotomy k nc with h | h | h
    · rw [hVhigh (2 * nc - k) (by omega), show 2 * nc - (2 * nc - k) = k by omega]
    · subst h
      rw [show 2 * k - k = k by omega]
      have := (hVlow k (le_refl k)).2.2 (Or.inr rfl)
      exact (Complex.conj_eq_iff_im.mpr this).symm
    · rw [hVhigh k h, Complex.conj_conj]
  have hVn : ∀ k, k < 2 * nc → ‖V k - X k‖ ≤ B := by
    intro k hk
    by_cases h : k ≤ nc
    · exact (hVlow k h).2.1
    · have h3 := (hVlow (2 * nc - k) (by omega)).2.1
      rw [hVhigh k (by omega), show X k = (starRingEnd ℂ) (X (2 * nc - k)) by
        rw [hXc (2 * nc - k) (by omega), show 2 * nc - (2 * nc - k) = k by omega], ← map_sub, Complex.norm_conj]
      exact h3
  obtain ⟨r1, i1, a1, a2, a3, a4, a5⟩ := fill2_ok (nc + 1) (fun i (p : List ℝ × List ℝ) => do
      let v ← c[i]?
      let ro ← wr p.1 i v.re
      let io ← wr p.2 i v.im
      pure (ro, io)) (fun k => (V k).re) (fun k => (V k).im) ro io (by omega) (by omega)
    (by
      intro i x y hi hx hy
      simp only [(hVlow i (by omega)).1, Option.bind_eq_bind, Option.bind_some]
      rw [wr_some _ (by omega)]
      simp only [Option.bind_some]
      rw [wr_some _ (by omega)]
      rfl)
  obtain ⟨⟨r2, i2⟩, b1, b2, b3, b4, b5⟩ := loop_inv (n := nc - 1) (s := (r1, i1)) (f := fun i (p : List ℝ × List ℝ) => do
      let r ← p.1[i + 1]?
      let ro ← wr p.1 (2 * nc - i - 1) r
      let im ← p.2[i + 1]?
      let io ← wr p.2 (2 * nc - i - 1) (-im)
      pure (ro, io))
    (P := fun i p => p.1.length = ro.length ∧ p.2.length = io.length ∧
      (∀ k, k < 2 * nc → (k ≤ nc ∨ 2 * nc - i ≤ k) → p.1[k]? = some (V k).re ∧ p.2[k]? = some (V k).im) ∧
      (∀ k, 2 * nc ≤ k → p.1[k]? = ro[k]? ∧ p.2[k]? = io[k]?))
    ⟨a2, a3, fun k hk hk' => a4 k (by omega), fun k hk => a5 k (by omega)⟩
    (by
      rintro i ⟨r, im⟩ hi ⟨hl, hl', hv, ho⟩
      dsimp only at hl hl' hv ho
      have hc := hVc (i + 1) (by omega) (by omega)
      have hre : (V (2 * nc - i - 1)).re = (V (i + 1)).re := by
        rw [show 2 * nc - i - 1 = 2 * nc - (i + 1) by omega, hc]; simp
      have him : (V (2 * nc - i - 1)).im = -(V (i + 1)).im := by
        rw [show 2 * nc - i - 1 = 2 * nc - (i + 1) by omega, hc]; simp
      refine ⟨(r.set (2 * nc - i - 1) (V (i + 1)).re, im.set (2 * nc - i - 1) (-(V (i + 1)).im)), ?_, by simp [hl], by simp [hl'], ?_, ?_⟩
      · simp only [(hv (i + 1) (by omega) (by omega)).1, (hv (i + 1) (by omega) (by omega)).2, Option.bind_eq_bind,
          Option.bind_some]
        rw [wr_some _ (by omega)]
        simp only [Option.bind_some]
        rw [wr_some _ (by omega)]
        rfl
      · intro k hk hk'
        simp only
        by_cases h : k = 2 * nc - i - 1
        · subst h
          rw [List.getElem?_set_self (by omega), List.getElem?_set_self (by omega), hre, him]
          exact ⟨rfl, rfl⟩
        · have hne : 2 * nc - i - 1 ≠ k := fun he => h he.symm
          rw [List.getElem?_set_ne hne, List.getElem?_set_ne hne]
          exact hv k hk (by omega)
      · intro k hk
        simp only
        rw [List.getElem?_set_ne (by omega), List.getElem?_set_ne (by omega)]
        exact ho k hk)
  refine ⟨{ d with planf := pf, c := c }, r2, i2, V, ?_, b2, b3,
    fun k hk => ⟨(b4 k hk (by omega)).1, (b4 k hk (by omega)).2, hVn k hk⟩, (hVlow 0 (by omega)).2.2 (Or.inl rfl),
    (hVlow nc le_rfl).2.2 (Or.inr rfl), hVc, b5⟩
  unfold RD.forwardF
  simp only [Option.bind_eq_bind] at a1 b1
  simp only [e1, hd.n, show 2 * nc / 2 = nc by omega, Option.bind_eq_bind, Option.bind_some]
  rw [a1]
  simp only [Option.bind_some]
  rw [b1]
  rfl

/-! ## C84 -/

include hfl hlib in
/-- **C84**: in double precision too, every even size from 2 to `INT_MAX` is accepted. -/
theorem C84_construct (n : Nat) (u : ℂ) (h0 : n % 2 = 0) (h1 : 2 ≤ n) (h2 : n ≤ 2147483647) :
    ∃ d, RD.makeF fl cosF sinF n u = some d ∧ RReachF fl cosF sinF n d := by
  obtain ⟨nc, rfl⟩ : ∃ nc, n = 2 * nc := ⟨n / 2, by omega⟩
  obtain ⟨d, e1, _⟩ := rdF_make hfl hlib (nc := nc) (by omega) h2 u
  exact ⟨d, e1, RReachF.make e1⟩

/-- **C84**: every odd size is refused, as in exact arithmetic. -/
theorem C84_odd (n : Nat) (u : ℂ) (h : n % 2 = 1) : RD.makeF fl cosF sinF n u = none := by
  unfold RD.makeF
  rw [if_pos h]

include hfl hlib in
/-- **C84**: on an object of any even size with any history, `FFTReal::forward` in double precision fills all `n` output bins with the
discrete Fourier transform of the real input, each off by at most `1800 · r · 2^-53` times the size of the input, `r` being the
sum of the radices of `n/2`. Bin `n - k` is exactly the conjugate of bin `k`, and bins 0 and `n/2` are exactly real. -/
theorem C84_forward (n : Nat) (h0 : n % 2 = 0) (h1 : 2 ≤ n) (h2 : n ≤ 2147483647) {d : RD} (hd : RReachF fl cosF sinF n d)
    (ri ro io : List ℝ) (hri : n ≤ ri.length) (hro : n ≤ ro.length) (hio : n ≤ io.length)
    (hS : total n (fun j => ((ri.getD j 0 : ℝ) : ℂ)) ≤ 2 ^ 1000) :
    ∃ d' ro' io', d.forwardF fl ri ro io = some (d', ro', io') ∧ RReachF fl cosF sinF n d' ∧
      ro'.length = ro.length ∧ io'.length = io.length ∧
      (∀ k, k < n → ∃ a b, ro'[k]? = some a ∧ io'[k]? = some b ∧
        ‖(⟨a, b⟩ : ℂ) - dft false n (fun j => ((ri.getD j 0 : ℝ) : ℂ)) k‖ ≤
          1800 * radixSum (n / 2) / 2 ^ 53 * total n (fun j => ((ri.getD j 0 : ℝ) : ℂ))) ∧
      (∀ k a b, 0 < k → k < n → ro'[k]? = some a → io'[k]? = some b → ro'[n - k]? = some a ∧ io'[n - k]? = some (-b)) ∧
      io'[0]? = some 0 ∧ io'[n / 2]? = some 0 ∧
      (∀ k, n ≤ k → ro'[k]? = ro[k]? ∧ io'[k]? = io[k]?) := by
  have hok := reachF_ok hfl hlib h0 h1 h2 hd
  obtain ⟨nc, rfl⟩ : ∃ nc, n = 2 * nc := ⟨n / 2, by omega⟩
  rw [show 2 * nc / 2 = nc by omega] at hok ⊢
  obtain ⟨d', ro', io', V, e1, e3, e4, e5, e6, e7, e8, e9⟩ := rdF_forward hfl hlib (by omega) h2 hok ri ro io hri hro hio hS
  refine ⟨d', ro', io', e1, RReachF.forward hd e1, e3, e4, ?_, ?_, ?_, ?_, e9⟩
  · intro k hk
    exact ⟨_, _, (e5 k hk).1, (e5 k hk).2.1, (e5 k hk).2.2⟩
  · intro k a b hk0 hk ha hb
    rw [(e5 k hk).1] at ha
    rw [(e5 k hk).2.1] at hb
    cases ha; cases hb
    rw [(e5 (2 * nc - k) (by omega)).1, (e5 (2 * nc - k) (by omega)).2.1, e8 k hk0 hk]
    simp
  · rw [(e5 0 (by omega)).2.1, e6]
  · rw [(e5 nc (by omega)).2.1, e7]

include hfl in
/-- A modulus in floating point. -/
theorem mag_near (hpos : ∀ x, 0 ≤ x → 0 ≤ fl x) (z : ℂ) (hz : ‖z‖ ≤ 2 ^ 505) :
    0 ≤ fl (fl (z.re * z.re) + fl (z.im * z.im)) ∧
    |fl (Real.sqrt (fl (fl (z.re * z.re) + fl (z.im * z.im)))) - ‖z‖| ≤ 4 / 2 ^ 53 * ‖z‖ + 1 / 2 ^ 530 := by
  have hm : ‖z‖ * ‖z‖ = z.re * z.re + z.im * z.im := by
    rw [← Complex.normSq_apply, Complex.normSq_eq_norm_sq]; ring
  have hr := mul_self_nonneg z.re
  have hi := mul_self_nonneg z.im
  generalize z.re * z.re = A at *
  generalize z.im * z.im = B at *
  have hm0 : 0 ≤ ‖z‖ := norm_nonneg z
  generalize ‖z‖ = m at *
  have hm2 : m * m ≤ 2 ^ 1010 := by
    calc m * m ≤ 2 ^ 505 * 2 ^ 505 := mul_le_mul hz hz hm0 (by positivity)
      _ = 2 ^ 1010 := by rw [← pow_add]
  have hbig : (2 : ℝ) ^ 1023 = 2 ^ 13 * 2 ^ 1010 := by rw [← pow_add]
  obtain ⟨u, hu⟩ : ∃ u : ℝ, u = 1 / 2 ^ 53 := ⟨_, rfl⟩
  have hu0 : 0 < u := by rw [hu]; norm_num
  have hu1 : u ≤ 0.001 := by rw [hu]; norm_num
  obtain ⟨η, hη⟩ : ∃ η : ℝ, η = 1 / 2 ^ 1075 := ⟨_, rfl⟩
  have hη0 : 0 < η := by rw [hη]; positivity
  obtain ⟨δ, hδ⟩ : ∃ δ : ℝ, δ = 1 / 2 ^ 531 := ⟨_, rfl⟩
  have hδ0 : 0 < δ := by rw [hδ]; positivity
  have hηδ : 4 * η ≤ δ * δ := by
    rw [hη, hδ, one_div_mul_one_div, ← pow_add, mul_one_div, div_le_div_iff₀ (by positivity) (by positivity), one_mul,
      show 1075 = (531 + 531) + 13 from rfl, pow_add 2 (531 + 531) 13]
    have : (0 : ℝ) < 2 ^ (531 + 531) := by positivity
    generalize (2 : ℝ) ^ (531 + 531) = E at *
    norm_num
    linarith
  have hη1 : η ≤ 0.001 * δ := by
    have h3 : δ ≤ 0.004 := by
      rw [hδ]
      calc (1 : ℝ) / 2 ^ 531 ≤ 1 / 2 ^ 8 :=
            one_div_le_one_div_of_le (by positivity) (pow_le_pow_right₀ (by norm_num) (by norm_num))
        _ ≤ 0.004 := by norm_num
    have h4 : δ * δ ≤ 0.004 * δ := mul_le_mul_of_nonneg_right h3 hδ0.le
    linarith
  have hfl' : ∀ x, 0 ≤ x → x ≤ 4 * 2 ^ 1010 → |fl x - x| ≤ x * u + η := by
    intro x hx0 hx
    have h3 : |x| ≤ 2 ^ 1023 := by
      rw [abs_of_nonneg hx0, hbig]
      refine hx.trans ?_
      exact mul_le_mul_of_nonneg_right (by norm_num) (by positivity)
    have h4 := hfl x h3
    rw [abs_of_nonneg hx0, div_eq_mul_one_div, ← hu, ← hη] at h4
    exact h4
  have hE0 : (1 : ℝ) ≤ 2 ^ 1010 := one_le_pow₀ (by norm_num)
  have hδE : δ ≤ 1 := by
    rw [hδ, div_le_one (by positivity)]; exact one_le_pow₀ (by norm_num)
  clear hbig hz
  generalize (2 : ℝ) ^ 1010 = E at *
  have a1 := hfl' A hr (by linarith)
  have a2 := hfl' B hi (by linarith)
  have p1 := hpos A hr
  have p2 := hpos B hi
  have hAu : A * u ≤ 0.001 * A := by rw [mul_comm]; exact mul_le_mul_of_nonneg_right hu1 hr
  have hBu : B * u ≤ 0.001 * B := by rw [mul_comm]; exact mul_le_mul_of_nonneg_right hu1 hi
  generalize fl A = A' at *
  generalize fl B = B' at *
  rw [abs_le] at a1 a2
  have a3 := hfl' (A' + B') (by linarith) (by linarith)
  have p3 := hpos (A' + B') (by linarith)
  generalize fl (A' + B') = a at *
  refine ⟨p3, ?_⟩
  rw [abs_le] at a3
  -- the argument of the square root
  have hsu : (A' + B') * u ≤ (A + B + (A + B) * u + 2 * η) * u := mul_le_mul_of_nonneg_right (by linarith) hu0.le
  have hsu2 : (A + B + (A + B) * u + 2 * η) * u ≤ (A + B) * u + 0.001 * ((A + B) * u) + 0.002 * η := by
    have h3 : (A + B) * u * u ≤ 0.001 * ((A + B) * u) := by
      rw [mul_comm]; exact mul_le_mul_of_nonneg_right hu1 (mul_nonneg (by linarith) hu0.le)
    have h4 : η * u ≤ 0.001 * η := by rw [mul_comm]; exact mul_le_mul_of_nonneg_right hu1 hη0.le
    linarith
  have hm2u : 0 ≤ (A + B) * u := mul_nonneg (by linarith) hu0.le
  have hd1 : a ≤ m * m + 2.01 * (m * m * u) + 4 * η := by rw [hm]; linarith
  have hd2 : m * m - 2.01 * (m * m * u) - 4 * η ≤ a := by rw [hm]; linarith
  clear a1 a2 a3 hsu hsu2
  obtain ⟨T, hT⟩ : ∃ T : ℝ, T = 2.01 * (m * u) + δ := ⟨_, rfl⟩
  have hmu : 0 ≤ m * u := mul_nonneg hm0 hu0.le
  have hT0 : δ ≤ T := by rw [hT]; linarith
  have hs1 : Real.sqrt a ≤ m + T := by
    rw [Real.sqrt_le_left (by linarith)]
    refine hd1.trans ?_
    have h3 : (m + T) ^ 2 = m * m + 2 * (m * T) + T * T := by ring
    have h4 : δ * δ ≤ T * T := mul_le_mul hT0 hT0 hδ0.le (by linarith)
    have h5 : m * T = 2.01 * (m * m * u) + m * δ := by rw [hT]; ring
    have h6 : 0 ≤ m * m * u := by rw [mul_assoc]; exact mul_nonneg hm0 hmu
    have h7 : 0 ≤ m * δ := mul_nonneg hm0 hδ0.le
    rw [h3, h5]
    linarith
  have hs2 : m - T ≤ Real.sqrt a := by
    by_cases hmT : m ≤ T
    · exact le_trans (by linarith) (Real.sqrt_nonneg a)
    · refine Real.le_sqrt_of_sq_le ?_
      refine le_trans ?_ hd2
      have h3 : (m - T) ^ 2 = m * m - 2 * (m * T) + T * T := by ring
      have h4 : T * T ≤ m * T := mul_le_mul_of_nonneg_right (by linarith) (by linarith)
      have h5 : m * T = 2.01 * (m * m * u) + m * δ := by rw [hT]; ring
      have h6 : δ * δ ≤ m * δ := mul_le_mul_of_nonneg_right (by linarith) hδ0.le
      linarith
  have hsq : |Real.sqrt a - m| ≤ T := by rw [abs_le]; constructor <;> linarith
  have hsq0 := Real.sqrt_nonneg a
  have hmE : m ≤ E := by
    by_contra h
    push Not at h
    have : E * E < m * m := mul_lt_mul'' h h (by linarith) (by linarith)
    nlinarith
  generalize Real.sqrt a = q at *
  have hmu2 : m * u ≤ 0.001 * m := by rw [mul_comm]; exact mul_le_mul_of_nonneg_right hu1 hm0
  have b1 := hfl' q hsq0 (by linarith)
  have hqu : q * u ≤ (m + T) * u := mul_le_mul_of_nonneg_right hs1 hu0.le
  have hTu : T * u ≤ 0.001 * T := by rw [mul_comm]; exact mul_le_mul_of_nonneg_right hu1 (by linarith)
  have h9 := abs_sub_le (fl q) q m
  have h10 : 4 / 2 ^ 53 * m = 4 * (m * u) := by rw [hu]; ring
  have h11 : (1 : ℝ) / 2 ^ 530 = 2 * δ := by
    rw [hδ, show 531 = 530 + 1 from rfl, pow_succ, mul_one_div, eq_div_iff (by positivity), one_div]
    have : (2 : ℝ) ^ 530 ≠ 0 := by positivity
    generalize (2 : ℝ) ^ 530 = G at *
    field_simp
  rw [h10, h11]
  have h12 : (m + T) * u = m * u + T * u := by ring
  linarith

include hfl hlib in
/-- **C84**: `forwardMagnitude` gives the moduli of all `n` bins, each off by at most `1810 · r · 2^-53` times the size of the input
plus `2^-530`; the square root is never taken of a negative number. -/
theorem C84_magnitude (hpos : ∀ x, 0 ≤ x → 0 ≤ fl x) (n : Nat) (h0 : n % 2 = 0) (h1 : 2 ≤ n) (h2 : n ≤ 2147483647) {d : RD}
    (hd : RReachF fl cosF sinF n d) (ri mo : List ℝ) (u : ℝ) (hri : n ≤ ri.length) (hmo : n ≤ mo.length)
    (hS : total n (fun j => ((ri.getD j 0 : ℝ) : ℂ)) ≤ 2 ^ 500) :
    ∃ d' mo', d.forwardMagnitudeF fl ri mo u = some (d', mo') ∧ RReachF fl cosF sinF n d' ∧ mo'.length = mo.length ∧
      (∀ k, k < n → ∃ a, mo'[k]? = some a ∧
        |a - ‖dft false n (fun j => ((ri.getD j 0 : ℝ) : ℂ)) k‖| ≤
          1810 * radixSum (n / 2) / 2 ^ 53 * total n (fun j => ((ri.getD j 0 : ℝ) : ℂ)) + 1 / 2 ^ 530) ∧
      (∀ k, n ≤ k → mo'[k]? = mo[k]?) := by
  have hok := reachF_ok hfl hlib h0 h1 h2 hd
  obtain ⟨nc, rfl⟩ : ∃ nc, n = 2 * nc := ⟨n / 2, by omega⟩
  rw [show 2 * nc / 2 = nc by omega] at hok ⊢
  have hle : (2 : ℝ) ^ 500 ≤ 2 ^ 1000 := pow_le_pow_right₀ (by norm_num) (by norm_num)
  obtain ⟨d', ro, io, V, e1, e3, e4, e5, _, _, _, e9⟩ := rdF_forward hfl hlib (by omega) h2 hok ri mo (List.replicate (2 * nc) u)
    hri hmo (by simp) (hS.trans hle)
  obtain ⟨q1, q2, q3, q4, q5, q6⟩ := allocF_facts nc false hfl hlib (by omega) (by omega) _ hok.planf.sub
  have hR1 : (1 : ℝ) ≤ radixSum nc := by exact_mod_cast q5
  have hR2 : (500 : ℝ) * radixSum nc ≤ 2 ^ 44 := by exact_mod_cast q6
  have hXle : ∀ k, ‖dft false (2 * nc) (fun j => ((ri.getD j 0 : ℝ) : ℂ)) k‖ ≤ total (2 * nc) (fun j => ((ri.getD j 0 : ℝ) : ℂ)) :=
    fun k => (norm_dft_le _ _ _ _).trans (sum_le_total _ _)
  have hS0 := total_nonneg (2 * nc) (fun j => ((ri.getD j 0 : ℝ) : ℂ))
  generalize total (2 * nc) (fun j => ((ri.getD j 0 : ℝ) : ℂ)) = S at *
  generalize dft false (2 * nc) (fun j => ((ri.getD j 0 : ℝ) : ℂ)) = X at *
  generalize (radixSum nc : ℝ) = R at *
  have hB : 1800 * R / 2 ^ 53 * S ≤ 0.01 * S := by
    refine mul_le_mul_of_nonneg_right ?_ hS0
    rw [div_le_iff₀ (by norm_num)]; norm_num at hR2 ⊢; linarith
  have hVle : ∀ k, k < 2 * nc → ‖V k‖ ≤ 1.01 * S := by
    intro k hk
    have h3 := norm_add_le (V k - X k) (X k)
    rw [sub_add_cancel] at h3
    have h4 := (e5 k hk).2.2
    have h5 := hXle k
    linarith
  have hVbig : ∀ k, k < 2 * nc → ‖V k‖ ≤ 2 ^ 505 := by
    intro k hk
    have h3 := hVle k hk
    rw [show (2 : ℝ) ^ 505 = 2 ^ 5 * 2 ^ 500 by rw [← pow_add]]
    generalize (2 : ℝ) ^ 500 = E at *
    norm_num
    linarith
  obtain ⟨mo', f1, f2, f3, f4⟩ := fill_ok (2 * nc) (fun i mo => (mo[i]?).bind fun r => (io[i]?).bind fun im =>
      if fl (fl (r * r) + fl (im * im)) < 0 then none
      else wr mo i (fl (Real.sqrt (fl (fl (r * r) + fl (im * im))))))
    (fun k => fl (Real.sqrt (fl (fl ((V k).re * (V k).re) + fl ((V k).im * (V k).im))))) ro (by omega)
    (by
      intro i b hi hl hs _
      simp only [hs i (le_refl i), (e5 i hi).1, (e5 i hi).2.1, Option.bind_some]
      rw [if_neg (not_lt.mpr (mag_near hfl hpos (V i) (hVbig i hi)).1), wr_some _ (by omega)])
  have hres : d.forwardMagnitudeF fl ri mo u = some (d', mo') := by
    unfold RD.forwardMagnitudeF
    simp only [hok.n, e1, Option.bind_eq_bind, Option.bind_some]
    rw [f1]
    rfl
  refine ⟨d', mo', hres, RReachF.magnitude hd hres, by omega, fun k hk => ⟨_, f3 k hk, ?_⟩,
    fun k hk => by rw [f4 k hk, (e9 k hk).1]⟩
  have g1 := (mag_near hfl hpos (V k) (hVbig k hk)).2
  generalize fl (Real.sqrt (fl (fl ((V k).re * (V k).re) + fl ((V k).im * (V k).im)))) = a at *
  have g2 := abs_norm_sub_norm_le (V k) (X k)
  have g3 := (e5 k hk).2.2
  have g4 := abs_sub_le a ‖V k‖ ‖X k‖
  have g5 : 4 / 2 ^ 53 * ‖V k‖ ≤ 4 / 2 ^ 53 * (1.01 * S) := mul_le_mul_of_nonneg_left (hVle k hk) (by norm_num)
  have g6 : 4 / 2 ^ 53 * (1.01 * S) = 4.04 * (S / 2 ^ 53) := by ring
  have g7 : 1800 * R / 2 ^ 53 * S = 1800 * (R * (S / 2 ^ 53)) := by ring
  have g8 : 1810 * R / 2 ^ 53 * S = 1810 * (R * (S / 2 ^ 53)) := by ring
  have g9 : S / 2 ^ 53 ≤ R * (S / 2 ^ 53) := by
    calc S / 2 ^ 53 = 1 * (S / 2 ^ 53) := (one_mul _).symm
      _ ≤ _ := mul_le_mul_of_nonneg_right hR1 (by positivity)
  have g10 : 0 ≤ S / 2 ^ 53 := by positivity
  rw [g8]
  rw [g7] at g3
  rw [g6] at g5
  clear hfl hpos hVbig hle hS
  generalize (1 : ℝ) / 2 ^ 530 = ζ at *
  linarith

include hfl hlib in
/-- **C84**: `FFTReal::inverse` in double precision computes the inverse transform of the conjugate-symmetric extension of bins
`0 … n/2` of its input, each sample off by at most `1310 · r · 2^-53` times the mean size of these bins. -/
theorem C84_inverse (n : Nat) (h0 : n % 2 = 0) (h1 : 2 ≤ n) (h2 : n ≤ 2147483647) {d : RD} (hd : RReachF fl cosF sinF n d)
    (ri ii ro : List ℝ) (hri : n / 2 + 1 ≤ ri.length) (hii : n / 2 + 1 ≤ ii.length) (hro : n ≤ ro.length)
    (hS : total n (herm (n / 2) (fun k => ⟨ri.getD k 0, ii.getD k 0⟩)) ≤ 2 ^ 990) :
    ∃ d' ro', d.inverseF fl ri ii ro = some (d', ro') ∧ RReachF fl cosF sinF n d' ∧ ro'.length = ro.length ∧
      (∀ l, l < n → ∃ v : ℝ, ro'[l]? = some v ∧
        ‖(v : ℂ) - 1 / n * dft true n (herm (n / 2) (fun k => ⟨ri.getD k 0, ii.getD k 0⟩)) l‖ ≤
          1310 * radixSum (n / 2) / 2 ^ 53 * (1 / n * total n (herm (n / 2) (fun k => ⟨ri.getD k 0, ii.getD k 0⟩)))) ∧
      (∀ l, n ≤ l → ro'[l]? = ro[l]?) := by
  have hok := reachF_ok hfl hlib h0 h1 h2 hd
  obtain ⟨nc, rfl⟩ : ∃ nc, n = 2 * nc := ⟨n / 2, by omega⟩
  rw [show 2 * nc / 2 = nc by omega] at hok hri hii hS ⊢
  obtain ⟨c, a1, a2, a3, _⟩ := fill_ok (nc + 1) (fun i c => do
      let r ← ri[i]?
      let im ← ii[i]?
      wr c i ⟨r, im⟩) (fun k => (⟨ri.getD k 0, ii.getD k 0⟩ : ℂ)) d.c (by rw [hok.c]; omega)
    (by
      intro i b hi hl _ _
      have e1 : ri[i]? = some (ri.getD i 0) := by simp [List.getElem?_eq_getElem (show i < ri.length by omega)]
      have e2 : ii[i]? = some (ii.getD i 0) := by simp [List.getElem?_eq_getElem (show i < ii.length by omega)]
      simp only [e1, e2, Option.bind_eq_bind, Option.bind_some]
      rw [wr_some _ (by rw [hl, hok.c]; omega)])
  have hherm : ∀ k, k < 2 * nc → herm nc (fun k => c.getD k 0) k = herm nc (fun k => ⟨ri.getD k 0, ii.getD k 0⟩) k := by
    intro k hk
    have hg : ∀ j, j ≤ nc → c.getD j 0 = ⟨ri.getD j 0, ii.getD j 0⟩ := by
      intro j hj
      simp only [List.getD, a3 j (by omega), Option.getD_some]
    unfold herm
    beta_reduce
    split_ifs with x1 x2 x3
    · rw [hg 0 (by omega)]
    · rw [hg k (by omega)]
    · rw [hg nc (by omega)]
    · rw [hg (2 * nc - k) (by omega)]
  have htc := total_congr hherm
  obtain ⟨pi, t, b1, b3, b4, b5⟩ := fftriF_ok hfl hlib (by omega) (by omega) hok.plani c ro hro (by rw [a2, hok.c]; omega)
    (by rw [htc]; exact hS)
  rw [htc] at b4
  obtain ⟨ro', f1, f2, f3, f4⟩ := fill_ok (2 * nc) (fun i ro => do
      let v ← ro[i]?
      wr ro i (fl (v * fl (1 / ((2 * nc : ℕ) : ℝ))))) (fun l => fl (t.getD l 0 * fl (1 / ((2 * nc : ℕ) : ℝ)))) t (by omega)
    (by
      intro i b hi hl hs _
      have : t[i]? = some (t.getD i 0) := by simp [List.getElem?_eq_getElem (show i < t.length by omega)]
      simp only [hs i (le_refl i), this, Option.bind_eq_bind, Option.bind_some]
      rw [wr_some _ (by omega)])
  have hres : d.inverseF fl ri ii ro = some ({ d with plani := pi, c := c }, ro') := by
    unfold RD.inverseF
    simp only [Option.bind_eq_bind] at a1 f1
    simp only [hok.n, show 2 * nc / 2 = nc by omega, Option.bind_eq_bind]
    rw [a1]
    simp only [Option.bind_some, b1]
    rw [f1]
    rfl
  refine ⟨_, ro', hres, RReachF.inverse hd hres, by omega, ?_, fun l hl => by rw [f4 l hl, b5 l hl]⟩
  intro l hl
  obtain ⟨v, hv, hv'⟩ := b4 l hl
  rw [dft_congr true hherm] at hv'
  refine ⟨_, f3 l hl, ?_⟩
  have hvt : t.getD l 0 = v := by simp [List.getD, hv]
  rw [hvt]
  obtain ⟨q1, q2, q3, q4, q5, q6⟩ := allocF_facts nc true hfl hlib (by omega) (by omega) _ hok.plani.sub
  have hR1 : (1 : ℝ) ≤ radixSum nc := by exact_mod_cast q5
  have hR2 : (500 : ℝ) * radixSum nc ≤ 2 ^ 44 := by exact_mod_cast q6
  have hXle : ‖dft true (2 * nc) (herm nc (fun k => ⟨ri.getD k 0, ii.getD k 0⟩)) l‖ ≤
      total (2 * nc) (herm nc (fun k => ⟨ri.getD k 0, ii.getD k 0⟩)) := (norm_dft_le _ _ _ _).trans (sum_le_total _ _)
  have hcnt := count_le_total (2 * nc) (herm nc (fun k => ⟨ri.getD k 0, ii.getD k 0⟩))
  have hS0 := total_nonneg (2 * nc) (herm nc (fun k => ⟨ri.getD k 0, ii.getD k 0⟩))
  have hXim : (dft true (2 * nc) (herm nc (fun k => ⟨ri.getD k 0, ii.getD k 0⟩)) l).im = 0 :=
    Complex.conj_eq_iff_im.mp (dft_herm_real (by omega) _ l)
  generalize dft true (2 * nc) (herm nc (fun k => ⟨ri.getD k 0, ii.getD k 0⟩)) l = X at *
  generalize total (2 * nc) (herm nc (fun k => ⟨ri.getD k 0, ii.getD k 0⟩)) = S at *
  have hbig : (2 : ℝ) ^ 990 ≤ 2 ^ 1001 := pow_le_pow_right₀ (by norm_num) (by norm_num)
  have g1 := scaled_near hfl (2 * nc) (by omega) h2 (v : ℂ) X S (1300 * radixSum nc) hv' hXle (by norm_num at hR2 ⊢; linarith) hcnt
    (hS.trans hbig)
  have g2 := re_le _ g1
  have hc0 : 0 ≤ 1 / ((2 * nc : ℕ) : ℝ) * S := mul_nonneg (by positivity) hS0
  have g3 : (fl (v * fl (1 / ((2 * nc : ℕ) : ℝ))) : ℂ) - 1 / ((2 * nc : ℕ) : ℂ) * X =
      ((fl (v * fl (1 / ((2 * nc : ℕ) : ℝ))) - 1 / ((2 * nc : ℕ) : ℝ) * X.re : ℝ) : ℂ) := by
    have hX : X = ((X.re : ℝ) : ℂ) := by apply Complex.ext <;> simp [hXim]
    rw [hX]
    push_cast
    simp
  rw [g3, Complex.norm_real, Real.norm_eq_abs]
  rw [sub_re, re_ofReal_mul] at g2
  refine le_trans g2 (mul_le_mul_of_nonneg_right ?_ hc0)
  refine div_le_div_of_nonneg_right ?_ (by norm_num)
  linarith

include hfl hlib in
/-- **C84**: `inverse` after `forward` returns the input, each sample off by at most `4500 · r · 2^-53` times the size of the input. -/
theorem C84_round_trip (n : Nat) (h0 : n % 2 = 0) (h1 : 2 ≤ n) (h2 : n ≤ 2147483647) {d : RD} (hd : RReachF fl cosF sinF n d)
    (ri ro io out : List ℝ) (hri : n ≤ ri.length) (hro : n ≤ ro.length) (hio : n ≤ io.length) (hout : n ≤ out.length)
    (hS : total n (fun j => ((ri.getD j 0 : ℝ) : ℂ)) ≤ 2 ^ 950) :
    ∃ d' ro' io' d'' out', d.forwardF fl ri ro io = some (d', ro', io') ∧ d'.inverseF fl ro' io' out = some (d'', out') ∧
      (∀ l, l < n → ∃ v, out'[l]? = some v ∧
        |v - ri.getD l 0| ≤ 4500 * radixSum (n / 2) / 2 ^ 53 * total n (fun j => ((ri.getD j 0 : ℝ) : ℂ))) := by
  have hle : (2 : ℝ) ^ 950 ≤ 2 ^ 1000 := pow_le_pow_right₀ (by norm_num) (by norm_num)
  obtain ⟨d', ro', io', e1, e2, e3, e4, e5, e6, e7, e8, _⟩ := C84_forward hfl hlib n h0 h1 h2 hd ri ro io hri hro hio (hS.trans hle)
  have hok := reachF_ok hfl hlib h0 h1 h2 hd
  obtain ⟨q1, q2, q3, q4, q5, q6⟩ := allocF_facts (n / 2) false hfl hlib (by omega) (by omega) _ hok.planf.sub
  have hR1 : (1 : ℝ) ≤ radixSum (n / 2) := by exact_mod_cast q5
  have hR2 : (500 : ℝ) * radixSum (n / 2) ≤ 2 ^ 44 := by exact_mod_cast q6
  obtain ⟨x, hx⟩ : ∃ x : Nat → ℂ, x = fun j => ((ri.getD j 0 : ℝ) : ℂ) := ⟨_, rfl⟩
  obtain ⟨H, hH⟩ : ∃ H, H = herm (n / 2) (fun k => (⟨ro'.getD k 0, io'.getD k 0⟩ : ℂ)) := ⟨_, rfl⟩
  obtain ⟨S, hSd⟩ : ∃ S, S = total n x := ⟨_, rfl⟩
  rw [← hx, ← hSd] at e5 hS ⊢
  have hS0 : 0 ≤ S := by rw [hSd]; exact total_nonneg _ _
  have hSn : n * ((1 : ℝ) / 2 ^ 1022) ≤ S := by rw [hSd]; exact count_le_total _ _
  obtain ⟨E, hE⟩ : ∃ E : ℝ, E = radixSum (n / 2) / 2 ^ 53 := ⟨_, rfl⟩
  have hE0 : 0 ≤ E := by rw [hE]; positivity
  have hE1 : 1800 * E ≤ 0.01 := by
    rw [hE, mul_div_assoc', div_le_iff₀ (by norm_num)]; norm_num at hR2 ⊢; linarith
  have hEE : ∀ a : ℝ, a * radixSum (n / 2) / 2 ^ 53 = a * E := by intro a; rw [hE]; ring
  rw [hEE] at e5 ⊢
  have hXle : ∀ k, ‖dft false n x k‖ ≤ S := by
    intro k; rw [hSd]; exact (norm_dft_le _ _ _ _).trans (sum_le_total _ _)
  -- the bins that `inverse` uses are the bins that `forward` returned
  have hbin : ∀ k, k < n → H k = ⟨ro'.getD k 0, io'.getD k 0⟩ := by
    intro k hk
    rw [hH]
    unfold herm
    beta_reduce
    split_ifs with x1 x2 x3
    · subst x1; apply Complex.ext <;> simp [e7]
    · rfl
    · subst x3; apply Complex.ext <;> simp [e8]
    · obtain ⟨a, b, ha, hb, _⟩ := e5 k hk
      obtain ⟨s1, s2⟩ := e6 k a b (by omega) hk ha hb
      rw [show 2 * (n / 2) - k = n - k by omega]
      apply Complex.ext <;> simp [List.getD, ha, hb, s1, s2]
  have hmid : ∀ k, k < n → ‖H k - dft false n x k‖ ≤ 1800 * E * S := by
    intro k hk
    obtain ⟨a, b, ha, hb, hab⟩ := e5 k hk
    rw [hbin k hk]
    have : (⟨ro'.getD k 0, io'.getD k 0⟩ : ℂ) = ⟨a, b⟩ := by simp [List.getD, ha, hb]
    rw [this]; exact hab
  have hHle : ∀ k, k < n → ‖H k‖ ≤ 1.01 * S := by
    intro k hk
    have h3 := norm_add_le (H k - dft false n x k) (dft false n x k)
    rw [sub_add_cancel] at h3
    have h4 := hmid k hk
    have h5 := hXle k
    have h6 : 1800 * E * S ≤ 0.01 * S := mul_le_mul_of_nonneg_right hE1 hS0
    linarith
  have hn1 : (1 : ℝ) ≤ n := by exact_mod_cast (by omega : 1 ≤ n)
  have hn2 : (n : ℝ) ≤ 2 ^ 31 := by
    have : (n : ℝ) ≤ ((2147483647 : ℕ) : ℝ) := Nat.cast_le.mpr h2
    norm_num at this ⊢; linarith
  have hnS : S ≤ n * S := by
    calc S = 1 * S := (one_mul S).symm
      _ ≤ n * S := mul_le_mul_of_nonneg_right hn1 hS0
  have htot : total n H ≤ 2.01 * (n * S) := by
    unfold total
    rw [Finset.sum_add_distrib]
    have h3 : ∑ k ∈ Finset.range n, ‖H k‖ ≤ 1.01 * (n * S) := by
      calc ∑ k ∈ Finset.range n, ‖H k‖ ≤ ∑ k ∈ Finset.range n, 1.01 * S :=
            Finset.sum_le_sum fun k hk => hHle k (Finset.mem_range.mp hk)
        _ = 1.01 * (n * S) := by simp; ring
    have h4 : ∑ k ∈ Finset.range n, (1 : ℝ) / 2 ^ 1022 ≤ S := by simpa using hSn
    linarith
  have hbig : total n H ≤ 2 ^ 990 := by
    have h3 : n * S ≤ 2 ^ 31 * S := mul_le_mul_of_nonneg_right hn2 hS0
    rw [show (2 : ℝ) ^ 990 = 2 ^ 40 * 2 ^ 950 by rw [← pow_add]]
    clear hle
    generalize (2 : ℝ) ^ 950 = G at *
    norm_num at h3 ⊢
    linarith
  rw [hH] at hbig
  obtain ⟨d'', out', f1, f2, f3, f4, _⟩ := C84_inverse hfl hlib n h0 h1 h2 e2 ro' io' out (by omega) (by omega) hout hbig
  rw [← hH, hEE] at f4
  refine ⟨d', ro', io', d'', out', e1, f1, fun l hl => ?_⟩
  obtain ⟨v, hv, hv'⟩ := f4 l hl
  refine ⟨v, hv, ?_⟩
  have hnz : (n : ℂ) ≠ 0 := by exact_mod_cast (show n ≠ 0 by omega)
  have hxl : ((ri.getD l 0 : ℝ) : ℂ) = 1 / (n : ℂ) * dft true n (dft false n x) l := by
    have := dft_dft false x l hl
    simp only [Bool.not_false] at this
    rw [this, hx]
    field_simp
  have h8 := dft_sub_le true n H (dft false n x) _ hmid l
  have h9 : ‖1 / (n : ℂ) * dft true n H l - ((ri.getD l 0 : ℝ) : ℂ)‖ ≤ 1800 * E * S := by
    rw [hxl, ← mul_sub, norm_mul]
    have h10 : ‖(1 / (n : ℂ))‖ = 1 / n := by simp
    rw [h10]
    calc 1 / (n : ℝ) * _ ≤ 1 / n * (n * (1800 * E * S)) := mul_le_mul_of_nonneg_left h8 (by positivity)
      _ = 1800 * E * S := by field_simp
  have h11 : 1310 * E * (1 / n * total n H) ≤ 1310 * E * (2.01 * S) := by
    refine mul_le_mul_of_nonneg_left ?_ (by positivity)
    calc 1 / (n : ℝ) * total n H ≤ 1 / n * (2.01 * (n * S)) := mul_le_mul_of_nonneg_left htot (by positivity)
      _ = 2.01 * S := by field_simp
  have h12 := norm_sub_le_norm_sub_add_norm_sub (v : ℂ) (1 / (n : ℂ) * dft true n H l) ((ri.getD l 0 : ℝ) : ℂ)
  rw [← Complex.ofReal_sub, Complex.norm_real, Real.norm_eq_abs] at h12
  have h13 : 0 ≤ E * S := mul_nonneg hE0 hS0
  have h14 : 1310 * E * (2.01 * S) = 2633.1 * (E * S) := by ring
  have h15 : 1800 * E * S = 1800 * (E * S) := by ring
  have h16 : 4500 * E * S = 4500 * (E * S) := by ring
  rw [h16]
  linarith

end

/-- Rounding to nearest keeps the sign. -/
theorem rn_nonneg (x : ℝ) (hx : 0 ≤ x) : 0 ≤ rn x := by
  unfold rn
  have hu : 0 ≤ ulp x := zpow_nonneg (by norm_num) _
  refine mul_nonneg ?_ hu
  rw [round_eq]
  exact_mod_cast Int.floor_nonneg.mpr (add_nonneg (div_nonneg hx hu) (by norm_num))

/-- The hypotheses are met: ten numbers there and back on a fresh object, in IEEE arithmetic with correctly rounded cosine and sine. -/
example : ∃ d d' ro io d'' out v, RD.makeF rn (fun x => rn (Real.cos x)) (fun x => rn (Real.sin x)) 10 0 = some d ∧
    d.forwardF rn [1, 2, 3, 4, 5, 6, 7, 8, 9, 10] (List.replicate 10 0) (List.replicate 10 0) = some (d', ro, io) ∧
    d'.inverseF rn ro io (List.replicate 10 0) = some (d'', out) ∧ out[3]? = some v ∧ |v - 4| ≤ 1 / 2 ^ 32 := by
  have hk0 : (0 : ℝ) ≤ 1 / 2 ^ 1022 := by positivity
  have hk : (1 : ℝ) / 2 ^ 1022 ≤ 1 := by
    rw [div_le_one (by positivity)]; exact one_le_pow₀ (by norm_num)
  have hS : total 10 (fun j => ((([1, 2, 3, 4, 5, 6, 7, 8, 9, 10] : List ℝ).getD j 0 : ℝ) : ℂ)) = 55 + 10 * (1 / 2 ^ 1022) := by
    simp [total, Finset.sum_range_succ]
    ring
  have hR : radixSum (10 / 2) = 5 := by decide +kernel
  obtain ⟨d, h, hr⟩ := C84_construct rounds_rn libm_rn 10 0 (by norm_num) (by norm_num) (by norm_num)
  obtain ⟨d', ro, io, d'', out, e1, e2, e3⟩ := C84_round_trip rounds_rn libm_rn 10 (by norm_num) (by norm_num) (by norm_num) hr
    [1, 2, 3, 4, 5, 6, 7, 8, 9, 10] (List.replicate 10 0) (List.replicate 10 0) (List.replicate 10 0)
    (by simp) (by simp) (by simp) (by simp)
    (by
      rw [hS]
      exact le_trans (by linarith) (le_trans (by norm_num : (65 : ℝ) ≤ 2 ^ 7) (pow_le_pow_right₀ (by norm_num) (by norm_num))))
  obtain ⟨v, hv, hv'⟩ := e3 3 (by norm_num)
  refine ⟨d, d', ro, io, d'', out, v, h, e1, e2, hv, ?_⟩
  rw [hS, hR] at hv'
  refine le_trans hv' ?_
  calc (4500 : ℝ) * (5 : ℕ) / 2 ^ 53 * (55 + 10 * (1 / 2 ^ 1022)) ≤ 4500 * (5 : ℕ) / 2 ^ 53 * 65 :=
        mul_le_mul_of_nonneg_left (by linarith) (by norm_num)
    _ ≤ 1 / 2 ^ 32 := by norm_num

/-- And the moduli. -/
example : ∃ d d' mo, RD.makeF rn (fun x => rn (Real.cos x)) (fun x => rn (Real.sin x)) 4 0 = some d ∧
    d.forwardMagnitudeF rn [1, 0, -1, 2] (List.replicate 4 0) 0 = some (d', mo) := by
  have hk : (1 : ℝ) / 2 ^ 1022 ≤ 1 := by
    rw [div_le_one (by positivity)]; exact one_le_pow₀ (by norm_num)
  have hS : total 4 (fun j => ((([1, 0, -1, 2] : List ℝ).getD j 0 : ℝ) : ℂ)) = 4 + 4 * (1 / 2 ^ 1022) := by
    simp [total, Finset.sum_range_succ]
    ring
  obtain ⟨d, h, hr⟩ := C84_construct rounds_rn libm_rn 4 0 (by norm_num) (by norm_num) (by norm_num)
  obtain ⟨d', mo, e1, _⟩ := C84_magnitude rounds_rn libm_rn rn_nonneg 4 (by norm_num) (by norm_num) (by norm_num) hr [1, 0, -1, 2]
    (List.replicate 4 0) 0 (by simp) (by simp) (by
      rw [hS]
      exact le_trans (by linarith) (le_trans (by norm_num : (8 : ℝ) ≤ 2 ^ 3) (pow_le_pow_right₀ (by norm_num) (by norm_num))))
  exact ⟨d, d', mo, h, e1⟩

end QM.FFT
