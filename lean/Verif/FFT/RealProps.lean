import Verif.FFT.Real

namespace QM.FFT

open Complex QM.DFT QM.Kiss

/-- The `FFTReal` objects a program can have: constructed with size `n`, then used with arrays of at least `n` elements
(`n/2 + 1` for the input of `inverse`). -/
inductive RReach (n : Nat) : RD → Prop
  | make {u d} : RD.make n u = some d → RReach n d
  | forward {d d' ri ro io ro' io'} : RReach n d → n ≤ ri.length → n ≤ ro.length → n ≤ io.length →
      d.forward ri ro io = some (d', ro', io') → RReach n d'
  | magnitude {d d' ri mo mo' u} : RReach n d → n ≤ ri.length → n ≤ mo.length →
      d.forwardMagnitude ri mo u = some (d', mo') → RReach n d'
  | inverse {d d' ri ii ro ro'} : RReach n d → n / 2 + 1 ≤ ri.length → n / 2 + 1 ≤ ii.length → n ≤ ro.length →
      d.inverse ri ii ro = some (d', ro') → RReach n d'

/-- What an `FFTReal` object contains. -/
structure RDOk (d : RD) (nc : Nat) : Prop where
  n : d.n = 2 * nc
  planf : RPlanOk d.planf nc false
  plani : RPlanOk d.plani nc true
  c : d.c.length = 2 * nc

theorem rd_make {nc : Nat} (h1 : 1 ≤ nc) (h2 : 2 * nc ≤ 2147483647) (u : ℂ) :
    ∃ d, RD.make (2 * nc) u = some d ∧ RDOk d nc := by
  obtain ⟨pf, e1, e2⟩ := ralloc_ok nc false u h1 (by omega)
  obtain ⟨pi, f1, f2⟩ := ralloc_ok nc true u h1 (by omega)
  refine ⟨⟨2 * nc, pf, pi, List.replicate (2 * nc) u⟩, ?_, ⟨rfl, e2, f2, by simp⟩⟩
  unfold RD.make
  rw [if_neg (by omega)]
  simp [e1, f1]

theorem rd_forward {nc : Nat} (h1 : 1 ≤ nc) (h2 : 2 * nc ≤ 2147483647) {d : RD} (hd : RDOk d nc) (ri ro io : List ℝ)
    (hri : 2 * nc ≤ ri.length) (hro : 2 * nc ≤ ro.length) (hio : 2 * nc ≤ io.length) :
    ∃ d' ro' io', d.forward ri ro io = some (d', ro', io') ∧ RDOk d' nc ∧ ro'.length = ro.length ∧ io'.length = io.length ∧
      (∀ k, k < 2 * nc →
        ro'[k]? = some (dft false (2 * nc) (fun j => ((ri.getD j 0 : ℝ) : ℂ)) k).re ∧
        io'[k]? = some (dft false (2 * nc) (fun j => ((ri.getD j 0 : ℝ) : ℂ)) k).im) ∧
      (∀ k, 2 * nc ≤ k → ro'[k]? = ro[k]? ∧ io'[k]? = io[k]?) := by
  obtain ⟨pf, c, e1, e2, e3, e4⟩ := fftr_ok h1 (by omega) hd.planf ri d.c hri (by rw [hd.c]; omega)
  obtain ⟨X, hX⟩ : ∃ X : Nat → ℂ, X = dft false (2 * nc) (fun j => ((ri.getD j 0 : ℝ) : ℂ)) := ⟨_, rfl⟩
  rw [← hX] at e4 ⊢
  have hconj : ∀ k, k ≤ 2 * nc → (starRingEnd ℂ) (X k) = X (2 * nc - k) := by
    intro k hk
    rw [hX]; exact dft_real_conj false (by omega) _ k hk
  obtain ⟨r1, i1, a1, a2, a3, a4, a5⟩ := fill2_ok (nc + 1) (fun i (p : List ℝ × List ℝ) => do
      let v ← c[i]?
      let ro ← wr p.1 i v.re
      let io ← wr p.2 i v.im
      pure (ro, io)) (fun k => (X k).re) (fun k => (X k).im) ro io (by omega) (by omega)
    (by
      intro i x y hi hx hy
      simp only [e4 i (by omega), Option.bind_eq_bind, Option.bind_some]
      rw [wr_some _ (by omega)]
      simp only [Option.bind_some]
      rw [wr_some _ (by omega)]
      rfl)
  obtain ⟨⟨r2, i2⟩, b1, b2, b3, b4, b5⟩ := loop_inv (n := nc - 1) (s := (r1, i1)) (f := fun i (p : List ℝ × List ℝ) => do
      let r ← p.1[i + 1]?
      let ro ← wr p.1 (2 * nc - i - 1) r
      let im ← p.2[i + 1]?
      let io ← wr p.2 (2 * nc - i - 1) (-im)
      pure (ro, io))
    (P := fun i p => p.1.length = ro.length ∧ p.2.length = io.length ∧
      (∀ k, k < 2 * nc → (k ≤ nc ∨ 2 * nc - i ≤ k) → p.1[k]? = some (X k).re ∧ p.2[k]? = some (X k).im) ∧
      (∀ k, 2 * nc ≤ k → p.1[k]? = ro[k]? ∧ p.2[k]? = io[k]?))
    ⟨a2, a3, fun k hk hk' => a4 k (by omega), fun k hk => a5 k (by omega)⟩
    (by
      rintro i ⟨r, im⟩ hi ⟨hl, hl', hv, ho⟩
      dsimp only at hl hl' hv ho
      have hc := hconj (i + 1) (by omega)
      have hre : (X (2 * nc - i - 1)).re = (X (i + 1)).re := by
        rw [show 2 * nc - i - 1 = 2 * nc - (i + 1) by omega, ← hc]; simp
      have him : (X (2 * nc - i - 1)).im = -(X (i + 1)).im := by
        rw [show 2 * nc - i - 1 = 2 * nc - (i + 1) by omega, ← hc]; simp
      refine ⟨(r.set (2 * nc - i - 1) (X (i + 1)).re, im.set (2 * nc - i - 1) (-(X (i + 1)).im)), ?_, by simp [hl], by simp [hl'], ?_, ?_⟩
      · simp only [(hv (i + 1) (by omega) (by omega)).1, (hv (i + 1) (by omega) (by omega)).2, Option.bind_eq_bind,
          Option.bind_some]
        rw [wr_some _ (by omega)]
        simp only [Option.bind_some]
        rw [wr_some _ (by omega)]
        rfl
      · intro k hk hk'
        simp only
        by_cases h : k = 2 * nc - i - 1
        · subst h
          rw [List.getElem?_set_self (by omega), List.getElem?_set_self (by omega), hre, him]
          exact ⟨rfl, rfl⟩
        · have hne : 2 * nc - i - 1 ≠ k := fun he => h he.symm
          rw [List.getElem?_set_ne hne, List.getElem?_set_ne hne]
          exact hv k hk (by omega)
      · intro k hk
        simp only
        rw [List.getElem?_set_ne (by omega), List.getElem?_set_ne (by omega)]
        exact ho k hk)
  refine ⟨{ d with planf := pf, c := c }, r2, i2, ?_, ⟨hd.n, e2, hd.plani, by simp only; rw [e3, hd.c]⟩, b2, b3,
    fun k hk => b4 k hk (by omega), b5⟩
  unfold RD.forward
  simp only [Option.bind_eq_bind] at a1 b1
  simp only [e1, hd.n, show 2 * nc / 2 = nc by omega, Option.bind_eq_bind, Option.bind_some]
  rw [a1]
  simp only [Option.bind_some]
  rw [b1]
  rfl

theorem rd_magnitude {nc : Nat} (h1 : 1 ≤ nc) (h2 : 2 * nc ≤ 2147483647) {d : RD} (hd : RDOk d nc) (ri mo : List ℝ) (u : ℝ)
    (hri : 2 * nc ≤ ri.length) (hmo : 2 * nc ≤ mo.length) :
    ∃ d' mo', d.forwardMagnitude ri mo u = some (d', mo') ∧ RDOk d' nc ∧ mo'.length = mo.length ∧
      (∀ k, k < 2 * nc → mo'[k]? = some ‖dft false (2 * nc) (fun j => ((ri.getD j 0 : ℝ) : ℂ)) k‖) ∧
      (∀ k, 2 * nc ≤ k → mo'[k]? = mo[k]?) := by
  obtain ⟨d', ro, io, e1, e2, e3, e4, e5, e6⟩ := rd_forward h1 h2 hd ri mo (List.replicate (2 * nc) u) hri hmo (by simp)
  obtain ⟨mo', f1, f2, f3, f4⟩ := fill_ok (2 * nc) (fun i mo => do
      let r ← mo[i]?
      let im ← io[i]?
      wr mo i (Real.sqrt (r * r + im * im))) (fun k => ‖dft false (2 * nc) (fun j => ((ri.getD j 0 : ℝ) : ℂ)) k‖) ro (by omega)
    (by
      intro i b hi hl hs _
      simp only [hs i (le_refl i), (e5 i hi).1, (e5 i hi).2, Option.bind_eq_bind, Option.bind_some]
      rw [wr_some _ (by omega)]
      rw [Complex.norm_def, Complex.normSq_apply])
  refine ⟨d', mo', ?_, e2, by omega, f3, fun k hk => by rw [f4 k hk, (e6 k hk).1]⟩
  unfold RD.forwardMagnitude
  simp only [Option.bind_eq_bind] at f1
  simp only [hd.n, e1, Option.bind_eq_bind, Option.bind_some]
  rw [f1]
  rfl

theorem rd_inverse {nc : Nat} (h1 : 1 ≤ nc) (h2 : 2 * nc ≤ 2147483647) {d : RD} (hd : RDOk d nc) (ri ii ro : List ℝ)
    (hri : nc + 1 ≤ ri.length) (hii : nc + 1 ≤ ii.length) (hro : 2 * nc ≤ ro.length) :
    ∃ d' ro', d.inverse ri ii ro = some (d', ro') ∧ RDOk d' nc ∧ ro'.length = ro.length ∧
      (∀ l, l < 2 * nc → ∃ v : ℝ, ro'[l]? = some v ∧
        (v : ℂ) = 1 / (2 * nc : ℕ) * dft true (2 * nc) (herm nc (fun k => ⟨ri.getD k 0, ii.getD k 0⟩)) l) ∧
      (∀ l, 2 * nc ≤ l → ro'[l]? = ro[l]?) := by
  obtain ⟨c, a1, a2, a3, _⟩ := fill_ok (nc + 1) (fun i c => do
      let r ← ri[i]?
      let im ← ii[i]?
      wr c i ⟨r, im⟩) (fun k => (⟨ri.getD k 0, ii.getD k 0⟩ : ℂ)) d.c (by rw [hd.c]; omega)
    (by
      intro i b hi hl _ _
      have e1 : ri[i]? = some (ri.getD i 0) := by simp [List.getElem?_eq_getElem (show i < ri.length by omega)]
      have e2 : ii[i]? = some (ii.getD i 0) := by simp [List.getElem?_eq_getElem (show i < ii.length by omega)]
      simp only [e1, e2, Option.bind_eq_bind, Option.bind_some]
      rw [wr_some _ (by rw [hl, hd.c]; omega)])
  obtain ⟨pi, t, b1, b2, b3, b4, b5⟩ := fftri_ok h1 (by omega) hd.plani c ro hro (by rw [a2, hd.c]; omega)
  have hherm : ∀ l, dft true (2 * nc) (herm nc (fun k => c.getD k 0)) l =
      dft true (2 * nc) (herm nc (fun k => ⟨ri.getD k 0, ii.getD k 0⟩)) l := by
    intro l
    unfold dft
    refine Finset.sum_congr rfl fun k hk => ?_
    rw [Finset.mem_range] at hk
    congr 1
    have hg : ∀ j, j ≤ nc → c.getD j 0 = ⟨ri.getD j 0, ii.getD j 0⟩ := by
      intro j hj
      simp only [List.getD, a3 j (by omega), Option.getD_some]
    unfold herm
    beta_reduce
    split_ifs with x1 x2 x3
    · rw [hg 0 (by omega)]
    · rw [hg k (by omega)]
    · rw [hg nc (by omega)]
    · rw [hg (2 * nc - k) (by omega)]
  obtain ⟨ro', f1, f2, f3, f4⟩ := fill_ok (2 * nc) (fun i ro => do
      let v ← ro[i]?
      wr ro i (v * (1 / ((2 * nc : ℕ) : ℝ)))) (fun l => t.getD l 0 * (1 / ((2 * nc : ℕ) : ℝ))) t (by omega)
    (by
      intro i b hi hl hs _
      have : t[i]? = some (t.getD i 0) := by simp [List.getElem?_eq_getElem (show i < t.length by omega)]
      simp only [hs i (le_refl i), this, Option.bind_eq_bind, Option.bind_some]
      rw [wr_some _ (by omega)])
  refine ⟨{ d with plani := pi, c := c }, ro', ?_, ⟨hd.n, hd.planf, b2, by simp only; rw [a2, hd.c]⟩, by omega, ?_,
    fun l hl => by rw [f4 l hl, b5 l hl]⟩
  · unfold RD.inverse
    simp only [Option.bind_eq_bind] at a1 f1
    simp only [hd.n, show 2 * nc / 2 = nc by omega, Option.bind_eq_bind]
    rw [a1]
    simp only [Option.bind_some, b1]
    rw [f1]
    rfl
  · intro l hl
    obtain ⟨v, hv, hv'⟩ := b4 l hl
    refine ⟨_, f3 l hl, ?_⟩
    rw [← hherm l, ← hv']
    simp [List.getD, hv]
    ring

theorem reach_ok {n : Nat} (h0 : n % 2 = 0) (h1 : 2 ≤ n) (h2 : n ≤ 2147483647) {d : RD} (h : RReach n d) : RDOk d (n / 2) := by
  obtain ⟨nc, rfl⟩ : ∃ nc, n = 2 * nc := ⟨n / 2, by omega⟩
  rw [show 2 * nc / 2 = nc by omega]
  induction h with
  | make hm =>
    rename_i u d
    obtain ⟨d', e1, e2⟩ := rd_make (nc := nc) (by omega) h2 u
    rw [e1] at hm; cases hm; exact e2
  | forward hr a b c hf ih =>
    obtain ⟨d', _, _, e1, e2, _⟩ := rd_forward (by omega) h2 ih _ _ _ a b c
    rw [e1] at hf; cases hf; exact e2
  | magnitude hr a b hf ih =>
    obtain ⟨d', _, e1, e2, _⟩ := rd_magnitude (by omega) h2 ih _ _ _ a b
    rw [e1] at hf; cases hf; exact e2
  | inverse hr a b c hf ih =>
    rename_i ri ii ro ro'
    obtain ⟨d', _, e1, e2, _⟩ := rd_inverse (by omega) h2 ih ri ii ro (by omega) (by omega) c
    rw [e1] at hf; cases hf; exact e2

/-! ## C24 -/

/-- C24: odd sizes are rejected. -/
theorem C24_odd_rejected (n : Nat) (u : ℂ) (h : n % 2 = 1) : RD.make n u = none := by
  unfold RD.make; rw [if_pos h]

/-- C24: every even size from 2 to `INT_MAX` is accepted. -/
theorem C24_even_accepted (n : Nat) (u : ℂ) (h0 : n % 2 = 0) (h1 : 2 ≤ n) (h2 : n ≤ 2147483647) :
    ∃ d, RD.make n u = some d ∧ RReach n d := by
  obtain ⟨nc, rfl⟩ : ∃ nc, n = 2 * nc := ⟨n / 2, by omega⟩
  obtain ⟨d, e1, _⟩ := rd_make (nc := nc) (by omega) h2 u
  exact ⟨d, e1, RReach.make e1⟩

/-- C24: on an object of any even size with any history, `FFTReal::forward` fills all `n` output bins with the discrete Fourier
transform of the real input; hence bin `n - k` is the conjugate of bin `k`, and bins 0 and `n/2` are real. -/
theorem C24_forward (n : Nat) (h0 : n % 2 = 0) (h1 : 2 ≤ n) (h2 : n ≤ 2147483647) {d : RD} (hd : RReach n d)
    (ri ro io : List ℝ) (hri : n ≤ ri.length) (hro : n ≤ ro.length) (hio : n ≤ io.length) :
    ∃ d' ro' io', d.forward ri ro io = some (d', ro', io') ∧ RReach n d' ∧ ro'.length = ro.length ∧ io'.length = io.length ∧
      (∀ k, k < n → ∃ a b, ro'[k]? = some a ∧ io'[k]? = some b ∧
        (⟨a, b⟩ : ℂ) = dft false n (fun j => ((ri.getD j 0 : ℝ) : ℂ)) k) ∧
      (∀ k a b, 0 < k → k < n → ro'[k]? = some a → io'[k]? = some b → ro'[n - k]? = some a ∧ io'[n - k]? = some (-b)) ∧
      io'[0]? = some 0 ∧ io'[n / 2]? = some 0 ∧
      (∀ k, n ≤ k → ro'[k]? = ro[k]? ∧ io'[k]? = io[k]?) := by
  have hok := reach_ok h0 h1 h2 hd
  obtain ⟨nc, rfl⟩ : ∃ nc, n = 2 * nc := ⟨n / 2, by omega⟩
  rw [show 2 * nc / 2 = nc by omega] at hok ⊢
  obtain ⟨d', ro', io', e1, e2, e3, e4, e5, e6⟩ := rd_forward (by omega) h2 hok ri ro io hri hro hio
  have hconj : ∀ k, k ≤ 2 * nc → _ := fun k hk =>
    dft_real_conj false (n := 2 * nc) (by omega) (fun j => ri.getD j 0) k hk
  refine ⟨d', ro', io', e1, RReach.forward hd hri hro hio e1, e3, e4, ?_, ?_, ?_, ?_, e6⟩
  · intro k hk
    exact ⟨_, _, (e5 k hk).1, (e5 k hk).2, rfl⟩
  · intro k a b hk0 hk ha hb
    rw [(e5 k hk).1] at ha
    rw [(e5 k hk).2] at hb
    cases ha; cases hb
    rw [(e5 (2 * nc - k) (by omega)).1, (e5 (2 * nc - k) (by omega)).2, ← hconj k (by omega)]
    simp
  · rw [(e5 0 (by omega)).2]
    congr 1
    unfold dft
    simp
  · rw [(e5 nc (by omega)).2]
    congr 1
    have := hconj nc (by omega)
    rw [show 2 * nc - nc = nc by omega] at this
    exact Complex.conj_eq_iff_im.mp this

/-- C24: `forwardMagnitude` gives the moduli of all `n` bins. -/
theorem C24_magnitude (n : Nat) (h0 : n % 2 = 0) (h1 : 2 ≤ n) (h2 : n ≤ 2147483647) {d : RD} (hd : RReach n d)
    (ri mo : List ℝ) (u : ℝ) (hri : n ≤ ri.length) (hmo : n ≤ mo.length) :
    ∃ d' mo', d.forwardMagnitude ri mo u = some (d', mo') ∧ RReach n d' ∧ mo'.length = mo.length ∧
      (∀ k, k < n → mo'[k]? = some ‖dft false n (fun j => ((ri.getD j 0 : ℝ) : ℂ)) k‖) ∧
      (∀ k, n ≤ k → mo'[k]? = mo[k]?) := by
  have hok := reach_ok h0 h1 h2 hd
  obtain ⟨nc, rfl⟩ : ∃ nc, n = 2 * nc := ⟨n / 2, by omega⟩
  rw [show 2 * nc / 2 = nc by omega] at hok
  obtain ⟨d', mo', e1, e2, e3, e4, e5⟩ := rd_magnitude (by omega) h2 hok ri mo u hri hmo
  exact ⟨d', mo', e1, RReach.magnitude hd hri hmo e1, e3, e4, e5⟩

/-! ## C25 -/

/-- C25: on an object of any even size with any history, `FFTReal::inverse` computes the inverse transform of the
conjugate-symmetric extension `herm` of bins `0 … n/2` of its input. Only these bins are read, and the imaginary parts of bins 0
and `n/2` are ignored: the arrays need not be longer, and the result is a function of `herm` of them. -/
theorem C25_inverse (n : Nat) (h0 : n % 2 = 0) (h1 : 2 ≤ n) (h2 : n ≤ 2147483647) {d : RD} (hd : RReach n d)
    (ri ii ro : List ℝ) (hri : n / 2 + 1 ≤ ri.length) (hii : n / 2 + 1 ≤ ii.length) (hro : n ≤ ro.length) :
    ∃ d' ro', d.inverse ri ii ro = some (d', ro') ∧ RReach n d' ∧ ro'.length = ro.length ∧
      (∀ l, l < n → ∃ v : ℝ, ro'[l]? = some v ∧
        (v : ℂ) = 1 / n * dft true n (herm (n / 2) (fun k => ⟨ri.getD k 0, ii.getD k 0⟩)) l) ∧
      (∀ l, n ≤ l → ro'[l]? = ro[l]?) := by
  have hok := reach_ok h0 h1 h2 hd
  obtain ⟨nc, rfl⟩ : ∃ nc, n = 2 * nc := ⟨n / 2, by omega⟩
  rw [show 2 * nc / 2 = nc by omega] at hok hri hii ⊢
  obtain ⟨d', ro', e1, e2, e3, e4, e5⟩ := rd_inverse (by omega) h2 hok ri ii ro hri hii hro
  exact ⟨d', ro', e1, RReach.inverse hd (by omega) (by omega) hro e1, e3, e4, e5⟩

/-- C25: `inverse` undoes `forward` exactly. -/
theorem C25_round_trip (n : Nat) (h0 : n % 2 = 0) (h1 : 2 ≤ n) (h2 : n ≤ 2147483647) {d : RD} (hd : RReach n d)
    (ri ro io out : List ℝ) (hri : n ≤ ri.length) (hro : n ≤ ro.length) (hio : n ≤ io.length) (hout : n ≤ out.length) :
    ∃ d' ro' io' d'' out', d.forward ri ro io = some (d', ro', io') ∧ d'.inverse ro' io' out = some (d'', out') ∧
      (∀ l, l < n → out'[l]? = ri[l]?) := by
  obtain ⟨d', ro', io', e1, e2, e3, e4, e5, _⟩ := C24_forward n h0 h1 h2 hd ri ro io hri hro hio
  obtain ⟨d'', out', f1, f2, f3, f4, _⟩ := C25_inverse n h0 h1 h2 e2 ro' io' out (by omega) (by omega) hout
  refine ⟨d', ro', io', d'', out', e1, f1, fun l hl => ?_⟩
  obtain ⟨v, hv, hv'⟩ := f4 l hl
  have hn : (n : ℂ) ≠ 0 := by exact_mod_cast (show n ≠ 0 by omega)
  have hconj : ∀ k, k ≤ n → _ := fun k hk =>
    dft_real_conj false (n := n) (by omega) (fun j => ri.getD j 0) k hk
  have hbin : ∀ k, k < n → (⟨ro'.getD k 0, io'.getD k 0⟩ : ℂ) = dft false n (fun j => ((ri.getD j 0 : ℝ) : ℂ)) k := by
    intro k hk
    obtain ⟨a, b, ha, hb, hab⟩ := e5 k hk
    rw [← hab]
    simp [List.getD, ha, hb]
  have hherm : dft true n (herm (n / 2) (fun k => ⟨ro'.getD k 0, io'.getD k 0⟩)) l = n * ((ri.getD l 0 : ℝ) : ℂ) := by
    rw [← dft_dft false (fun j => ((ri.getD j 0 : ℝ) : ℂ)) l hl]
    conv_lhs => unfold dft
    conv_rhs => rw [dft]
    refine Finset.sum_congr rfl fun k hk => ?_
    rw [Finset.mem_range] at hk
    congr 1
    unfold herm
    beta_reduce
    split_ifs with x1 x2 x3
    · subst x1
      rw [hbin 0 (by omega)]
      have him : (dft false n (fun j => ((ri.getD j 0 : ℝ) : ℂ)) 0).im = 0 := by unfold dft; simp
      apply Complex.ext
      · exact Complex.ofReal_re _
      · rw [Complex.ofReal_im]; exact him.symm
    · rw [hbin k hk]
    · subst x3
      rw [hbin (n / 2) hk]
      have := hconj (n / 2) (by omega)
      rw [show n - n / 2 = n / 2 by omega] at this
      exact Complex.conj_eq_iff_re.mp this
    · rw [show 2 * (n / 2) = n by omega, hbin (n - k) (by omega), hconj (n - k) (by omega), show n - (n - k) = k by omega]
  rw [hherm] at hv'
  have : (v : ℂ) = ((ri.getD l 0 : ℝ) : ℂ) := by rw [hv']; field_simp
  have hv2 : v = ri.getD l 0 := by exact_mod_cast this
  rw [hv, hv2]
  simp [List.getElem?_eq_getElem (show l < ri.length by omega)]

/-- The hypotheses are met: size 10 (packed size 5) on a fresh object. -/
example : ∃ d d' ro io d'' out, RD.make 10 0 = some d ∧
    d.forward [1, 2, 3, 4, 5, 6, 7, 8, 9, 10] (List.replicate 10 0) (List.replicate 10 0) = some (d', ro, io) ∧
    d'.inverse ro io (List.replicate 10 0) = some (d'', out) ∧ out[3]? = some 4 := by
  obtain ⟨d, h, hr⟩ := C24_even_accepted 10 0 (by norm_num) (by norm_num) (by norm_num)
  obtain ⟨d', ro, io, d'', out, e1, e2, e3⟩ := C25_round_trip 10 (by norm_num) (by norm_num) (by norm_num) hr
    [1, 2, 3, 4, 5, 6, 7, 8, 9, 10] (List.replicate 10 0) (List.replicate 10 0) (List.replicate 10 0)
    (by simp) (by simp) (by simp) (by simp)
  exact ⟨d, d', ro, io, d'', out, h, e1, e2, by rw [e3 3 (by norm_num)]; rfl⟩

end QM.FFT
