import Verif.Mfcc.Lemmas

/-! # C64: mel-frequency cepstral coefficients -/

namespace QM.Mfcc

open QM.FFT QM.DFT

/-- An `MFCC` object after any number of calls, with buffers of the documented sizes. -/
inductive Reach (c : Config) : MFCC → Prop
  | make {u m} : MFCC.make c u = some m → Reach c m
  | spectrum {m m' re im out out' r} : Reach c m → c.fftsize / 2 ≤ re.length → c.fftsize / 2 ≤ im.length → nout c ≤ out.length →
      m.processSpectrum re im out = some (m', out', r) → Reach c m'
  | frame {m m' frame junk out out' r} : Reach c m → c.fftsize ≤ frame.length → junk.length = c.fftsize → nout c ≤ out.length →
      m.process frame junk out = some (m', out', r) → Reach c m'

/-- The power applied to the logarithms. -/
def power (c : Config) : ℝ → ℝ := c.logpower.getD id

theorem applyPower_eq (p : Option (ℝ → ℝ)) (x : ℝ) : applyPower p x = p.getD id x := by cases p <;> rfl

theorem spectrum_ok {c : Config} {m : MFCC} (h : Ok c m) (re im out : List ℝ) (hr : c.fftsize / 2 ≤ re.length)
    (hi : c.fftsize / 2 ≤ im.length) (ho : nout c ≤ out.length) :
    ∃ m' out', m.processSpectrum re im out = some (m', out', c.nceps) ∧ Ok c m' ∧ out'.length = out.length ∧
      (∀ k : Nat, k < nout c → out'[k]? =
        some (coeff (power c) c.fs c.fftsize (fun j => Real.sqrt (re.getD j 0 ^ 2 + im.getD j 0 ^ 2)) (order c k))) ∧
      ∀ k : Nat, nout c ≤ k → out'[k]? = out[k]? := by
  obtain ⟨mag, a1, a2⟩ := magnitudes_ok (c.fftsize / 2) re im m.fftMag hr hi h.mag
  obtain ⟨e, b1, b2⟩ := ears_ok h.weights a2 m.earMag h.ear m.logPower
  obtain ⟨out', c1, c2, c3, c4⟩ := cepstra_ok c h.dct b2 out ho
  refine ⟨{ m with fftMag := mag, earMag := e }, out', ?_, ⟨h.size, h.nceps, h.power, h.c0, h.dct, h.weights, h.window, h.fft, h.re, h.im, b2.1, a2.1⟩, c2, ?_, c4⟩
  · unfold MFCC.processSpectrum
    rw [h.size, h.c0, h.nceps, bind_ok a1, bind_ok b1, bind_ok c1]
  · intro k hk
    rw [c3 k hk]
    unfold coeff
    simp only [applyPower_eq, h.power]
    rfl

theorem frame_ok {c : Config} (h0 : c.fftsize % 2 = 0) (h1 : 2 ≤ c.fftsize) (h2 : c.fftsize ≤ 2147483647) {m : MFCC} (h : Ok c m)
    (frame junk out : List ℝ) (hf : c.fftsize ≤ frame.length) (hj : junk.length = c.fftsize) (ho : nout c ≤ out.length) :
    ∃ m' out', m.process frame junk out = some (m', out', c.nceps) ∧ Ok c m' ∧ out'.length = out.length ∧
      (∀ k : Nat, k < nout c → out'[k]? = some (coeff (power c) c.fs c.fftsize (fun j =>
        ‖dft false c.fftsize (fun i => ((frame.getD i 0 * Window.shape c.window c.fftsize i : ℝ) : ℂ)) j‖) (order c k))) ∧
      ∀ k : Nat, nout c ≤ k → out'[k]? = out[k]? := by
  obtain ⟨d, a1, a2⟩ := fill_part (new := fun i => frame.getD i 0) (f := fun i d => do
      let x ← frame[i]?
      wr d i x) (holds_of_length hj 0) (by
    intro i ys hi _
    rw [bind_ok (get_getD frame i 0 (by omega))])
  obtain ⟨d2, b1, b2⟩ := fill_part (new := fun i => frame.getD i 0 * Window.shape c.window c.fftsize i) (f := fun i d => do
      let s ← d[i]?
      let w ← m.window[i]?
      wr d i (s * w)) a2 (by
    intro i ys hi hp
    rw [bind_ok (hp.get hi), bind_ok (h.window.2 i hi)])
  obtain ⟨f', ro, io, c1, c2, c3, c4, c5, _⟩ := C24_forward c.fftsize h0 h1 h2 h.fft d2 m.realOut m.imagOut
    (by rw [b2.1]) (by rw [h.re]) (by rw [h.im])
  obtain ⟨m', out', e1, e2, e3, e4, e5⟩ := spectrum_ok (m := { m with fft := f', realOut := ro, imagOut := io })
    ⟨h.size, h.nceps, h.power, h.c0, h.dct, h.weights, h.window, c2, by rw [c3, h.re], by rw [c4, h.im], h.ear, h.mag⟩ ro io out
    (by rw [c3, h.re]; omega) (by rw [c4, h.im]; omega) ho
  refine ⟨m', out', ?_, e2, e3, ?_, e5⟩
  · unfold MFCC.process copyFrame Window.cutInPlace
    rw [← h.size] at a1 b1
    rw [bind_ok a1, bind_ok b1, bind_ok c1]
    exact e1
  · intro k hk
    rw [e4 k hk]
    unfold coeff bandOut
    congr 3
    funext i
    congr 2
    refine Finset.sum_congr rfl fun j hj => ?_
    congr 1
    have hj' : j < c.fftsize := by have := Finset.mem_range.mp hj; omega
    obtain ⟨a, b, g1, g2, g3⟩ := c5 j hj'
    have e : dft false c.fftsize (fun i => ((frame.getD i 0 * Window.shape c.window c.fftsize i : ℝ) : ℂ)) j =
        dft false c.fftsize (fun j => ((d2.getD j 0 : ℝ) : ℂ)) j := by
      unfold dft
      refine Finset.sum_congr rfl fun i hi => ?_
      have := b2.2 i (Finset.mem_range.mp hi)
      simp only [List.getD_eq_getElem?_getD, this, Option.getD_some]
    beta_reduce
    rw [e, ← g3]
    simp only [List.getD_eq_getElem?_getD, g1, g2, Option.getD_some]
    rw [Complex.norm_def, Complex.normSq_mk, sq, sq]

theorem reach_ok {c : Config} (h0 : c.fftsize % 2 = 0) (h1 : 2 ≤ c.fftsize) (h2 : c.fftsize ≤ 2147483647) {m : MFCC} (h : Reach c m) :
    Ok c m := by
  induction h with
  | @make u m hm =>
    cases hd : FFT.RD.make c.fftsize u with
    | none =>
      unfold MFCC.make at hm
      rw [hd] at hm
      cases hm
    | some d =>
      obtain ⟨m', e, ok⟩ := make_ok c u hd
      rw [e] at hm
      cases hm
      exact ok
  | spectrum _ hr hi ho he ih =>
    obtain ⟨m', out', e, ok, _⟩ := spectrum_ok ih _ _ _ hr hi ho
    rw [e] at he
    cases he
    exact ok
  | frame _ hf hj ho he ih =>
    obtain ⟨m', out', e, ok, _⟩ := frame_ok h0 h1 h2 ih _ _ _ hf hj ho
    rw [e] at he
    cases he
    exact ok

/-- Construction succeeds for every even FFT size. -/
theorem C64_make (c : Config) (h0 : c.fftsize % 2 = 0) (h1 : 2 ≤ c.fftsize) (h2 : c.fftsize ≤ 2147483647) (u : ℂ) :
    ∃ m, MFCC.make c u = some m := by
  obtain ⟨d, hd, _⟩ := C24_even_accepted c.fftsize u h0 h1 h2
  obtain ⟨m, e, _⟩ := make_ok c u hd
  exact ⟨m, e⟩

/-- Given a spectrum, an object with any history writes the coefficients `0 … nceps` (or `1 … nceps` without
C0) of the magnitude spectrum, leaves the rest of the output alone and returns `nceps`. -/
theorem C64_spectrum {c : Config} (h0 : c.fftsize % 2 = 0) (h1 : 2 ≤ c.fftsize) (h2 : c.fftsize ≤ 2147483647) {m : MFCC} (h : Reach c m)
    (re im out : List ℝ) (hr : c.fftsize / 2 ≤ re.length) (hi : c.fftsize / 2 ≤ im.length) (ho : nout c ≤ out.length) :
    ∃ m' out', m.processSpectrum re im out = some (m', out', c.nceps) ∧ Reach c m' ∧ out'.length = out.length ∧
      (∀ k : Nat, k < nout c → out'[k]? =
        some (coeff (power c) c.fs c.fftsize (fun j => Real.sqrt (re.getD j 0 ^ 2 + im.getD j 0 ^ 2)) (order c k))) ∧
      ∀ k : Nat, nout c ≤ k → out'[k]? = out[k]? := by
  obtain ⟨m', out', e, _, a, b, d⟩ := spectrum_ok (reach_ok h0 h1 h2 h) re im out hr hi ho
  exact ⟨m', out', e, .spectrum h hr hi ho e, a, b, d⟩

/-- Given a frame of audio, the coefficients are those of the discrete Fourier transform of the frame
multiplied by the configured window, whatever was processed before. -/
theorem C64_frame {c : Config} (h0 : c.fftsize % 2 = 0) (h1 : 2 ≤ c.fftsize) (h2 : c.fftsize ≤ 2147483647) {m : MFCC} (h : Reach c m)
    (frame junk out : List ℝ) (hf : c.fftsize ≤ frame.length) (hj : junk.length = c.fftsize) (ho : nout c ≤ out.length) :
    ∃ m' out', m.process frame junk out = some (m', out', c.nceps) ∧ Reach c m' ∧ out'.length = out.length ∧
      (∀ k : Nat, k < nout c → out'[k]? = some (coeff (power c) c.fs c.fftsize (fun j =>
        ‖dft false c.fftsize (fun i => ((frame.getD i 0 * Window.shape c.window c.fftsize i : ℝ) : ℂ)) j‖) (order c k))) ∧
      ∀ k : Nat, nout c ≤ k → out'[k]? = out[k]? := by
  obtain ⟨m', out', e, _, a, b, d⟩ := frame_ok h0 h1 h2 (reach_ok h0 h1 h2 h) frame junk out hf hj ho
  exact ⟨m', out', e, .frame h hf hj ho e, a, b, d⟩

/-- An output buffer with room for only the returned number of values is overrun when C0 is wanted. -/
theorem C64_room_for_c0 {c : Config} (h0 : c.fftsize % 2 = 0) (h1 : 2 ≤ c.fftsize) (h2 : c.fftsize ≤ 2147483647) {m : MFCC} (h : Reach c m)
    (hc : c.wantC0 = true) (re im out : List ℝ) (ho : out.length = c.nceps) : m.processSpectrum re im out = none := by
  have ok := reach_ok h0 h1 h2 h
  unfold MFCC.processSpectrum
  cases magnitudes (m.fftSize / 2) re im m.fftMag with
  | none => rfl
  | some mag =>
    rw [Option.bind_eq_bind, Option.bind_some]
    cases ears (m.fftSize / 2) m.logPower m.weights mag m.earMag with
    | none => rfl
    | some e =>
      rw [Option.bind_some]
      have : cepstra m.wantC0 m.nceps m.dctMatrix e out = none := by
        unfold cepstra
        rw [ok.c0, hc, if_pos rfl, ok.nceps, loop]
        cases hl : loop c.nceps (fun i out => do
            let t ← dctRow m.dctMatrix e i
            wr out i t) out with
        | none => rfl
        | some o =>
          have hlen : o.length = out.length := by
            have : ∀ n o, loop n (fun i out => do
                let t ← dctRow m.dctMatrix e i
                wr out i t) out = some o → o.length = out.length := by
              intro n
              induction n with
              | zero => intro o h; rw [loop] at h; cases h; rfl
              | succ n ih =>
                intro o h
                rw [loop] at h
                obtain ⟨o1, g1, g2⟩ := Option.bind_eq_some_iff.mp h
                obtain ⟨t, _, g3⟩ := Option.bind_eq_some_iff.mp g2
                unfold wr at g3
                split at g3
                · cases g3; simp [ih o1 g1]
                · cases g3
            exact this _ _ hl
          rw [Option.bind_some]
          cases dctRow m.dctMatrix e c.nceps with
          | none => rfl
          | some t => exact wr_none _ (by omega)
      rw [this]
      rfl

/-! ## The bands -/

/-- The band edges increase. -/
theorem C64_edges {i j : Nat} (h : i < j) : 0 < edge i ∧ edge i < edge j := ⟨edge_pos i, edge_lt h⟩

/-- Each band responds to frequencies strictly between its outer edges and to no others, most of all to the
middle edge, where the response is two over the width of the band. -/
theorem C64_band (i : Nat) (f : ℝ) :
    (0 < band i f ↔ edge i < f ∧ f < edge (i + 2)) ∧ 0 ≤ band i f ∧ band i f ≤ band i (edge (i + 1)) ∧
      band i (edge (i + 1)) = 2 / (edge (i + 2) - edge i) := by
  have h1 : 0 < edge (i + 1) - edge i := by linarith [edge_step i]
  have h2 : 0 < edge (i + 2) - edge (i + 1) := by linarith [edge_step (i + 1)]
  have hH : 0 < 2 / (edge (i + 2) - edge i) := div_pos (by norm_num) (by linarith)
  have top : band i (edge (i + 1)) = 2 / (edge (i + 2) - edge i) := by
    unfold band
    rw [div_self h1.ne', div_self h2.ne', min_self, max_eq_right zero_le_one, mul_one]
  refine ⟨?_, ?_, ?_, top⟩
  · unfold band
    rw [mul_pos_iff_of_pos_left hH, lt_max_iff, lt_min_iff, div_pos_iff_of_pos_right h1, div_pos_iff_of_pos_right h2]
    constructor
    · rintro (h | ⟨a, b⟩)
      · exact absurd h (lt_irrefl _)
      · exact ⟨by linarith, by linarith⟩
    · rintro ⟨a, b⟩
      exact Or.inr ⟨by linarith, by linarith⟩
  · exact mul_nonneg hH.le (le_max_left _ _)
  · rw [top]
    unfold band
    refine mul_le_of_le_one_right hH.le (max_le zero_le_one ?_)
    by_cases hf : f ≤ edge (i + 1)
    · exact (min_le_left _ _).trans (by rw [div_le_one h1]; linarith)
    · exact (min_le_right _ _).trans (by rw [div_le_one h2]; linarith)

theorem bandOut_nonneg (fs : ℝ) (n : Nat) (mag : Nat → ℝ) (h : ∀ j, 0 ≤ mag j) (i : Nat) : 0 ≤ bandOut fs n mag i :=
  Finset.sum_nonneg fun j _ => mul_nonneg (C64_band i _).2.1 (h j)

/-- A band that starts at or above half the sampling rate is always silent. -/
theorem C64_above_nyquist (fs : ℝ) (n : Nat) (mag : Nat → ℝ) (i : Nat) (h : fs ≤ 2 * edge i) (hf : 0 ≤ fs) : bandOut fs n mag i = 0 := by
  refine Finset.sum_eq_zero fun j hj => ?_
  have hj' : 2 * j ≤ n := by have := Finset.mem_range.mp hj; omega
  have hjr : (2 * j : ℝ) ≤ n := by exact_mod_cast hj'
  have h0 : 0 ≤ band i (j * fs / n) := (C64_band i _).2.1
  have : ¬ 0 < band i (j * fs / n) := by
    rw [(C64_band i _).1]
    rintro ⟨a, _⟩
    have : (j : ℝ) * fs / n ≤ fs / 2 := by
      rcases Nat.eq_zero_or_pos n with e | e
      · subst e; simp; positivity
      · have : (0 : ℝ) < n := by exact_mod_cast e
        rw [div_le_div_iff₀ this (by norm_num)]
        nlinarith
    linarith
  rw [show band i (j * fs / n) = 0 by linarith, zero_mul]

theorem edge_gap (i : Nat) : edge i + 61 < edge (i + 1) := by
  unfold edge
  by_cases h : i + 1 < 13
  · rw [if_pos h, if_pos (by omega)]; push_cast; linarith
  · rw [if_neg h]
    by_cases h2 : i < 13
    · have : i = 12 := by omega
      subst this
      norm_num
    · rw [if_neg h2, show i + 1 - 12 = (i - 12) + 1 by omega, pow_succ]
      have : (1 : ℝ) ≤ 1.0711703 ^ (i - 12) := one_le_pow₀ (by norm_num)
      nlinarith

/-- With frequency bins at most 61 Hz apart and a sampling rate of at least twice the top edge, no band is
silent unless some bin is: every band contains a bin. -/
theorem C64_bands_cover (fs : ℝ) (n : Nat) (h0 : n % 2 = 0) (hn : 0 < n) (h1 : fs ≤ 61 * n) (h2 : 2 * edge 41 ≤ fs) (mag : Nat → ℝ)
    (hm : ∀ j, 0 < mag j) (i : Nat) (hi : i < 40) : 0 < bandOut fs n mag i := by
  have hnr : (0 : ℝ) < n := by exact_mod_cast hn
  have hfs : 0 < fs := by linarith [edge_pos 41]
  obtain ⟨j, hj⟩ : ∃ j : Nat, j = ⌊edge i * n / fs⌋₊ + 1 := ⟨_, rfl⟩
  have l1 : edge i * n / fs < j := by rw [hj]; push_cast; exact Nat.lt_floor_add_one _
  have l2 : (j : ℝ) ≤ edge i * n / fs + 1 := by
    rw [hj]; push_cast
    linarith [Nat.floor_le (show 0 ≤ edge i * n / fs by have := edge_pos i; positivity)]
  have f1 : edge i < j * fs / n := by rw [lt_div_iff₀ hnr]; rwa [div_lt_iff₀ hfs] at l1
  have f2 : (j : ℝ) * fs / n ≤ edge i + 61 := by
    have : (j : ℝ) * fs ≤ edge i * n + fs := by
      have := mul_le_mul_of_nonneg_right l2 hfs.le
      rwa [add_mul, div_mul_cancel₀ _ hfs.ne', one_mul] at this
    rw [div_le_iff₀ hnr]
    linarith
  have f3 : (j : ℝ) * fs / n < edge (i + 2) := by linarith [edge_gap i, edge_step (i + 1)]
  have hj2 : j < n / 2 := by
    have : edge (i + 2) ≤ edge 41 := by
      rcases Nat.lt_or_eq_of_le (show i + 2 ≤ 41 by omega) with e | e
      · exact (edge_lt e).le
      · rw [e]
    have a : (j : ℝ) * fs / n < fs / 2 := by linarith
    rw [div_lt_div_iff₀ hnr (by norm_num)] at a
    have b : (j : ℝ) * 2 < n := by nlinarith
    have : j * 2 < n := by exact_mod_cast b
    omega
  unfold bandOut
  refine Finset.sum_pos' (fun j _ => mul_nonneg (C64_band i _).2.1 (hm j).le) ⟨j, Finset.mem_range.mpr hj2, mul_pos ((C64_band i _).1.mpr ⟨f1, f3⟩) (hm j)⟩

/-! ## Gain -/

theorem bandOut_smul (fs : ℝ) (n : Nat) (mag : Nat → ℝ) (g : ℝ) (i : Nat) : bandOut fs n (fun j => g * mag j) i = g * bandOut fs n mag i := by
  unfold bandOut
  rw [Finset.mul_sum]
  exact Finset.sum_congr rfl fun j _ => by ring

theorem logOut_mul {g : ℝ} (hg : 0 < g) (t : ℝ) : logOut (g * t) = logOut t + (if 0 < t then Real.logb 10 g else 0) := by
  unfold logOut
  by_cases ht : 0 < t
  · rw [if_pos ht, if_pos ht, if_pos (mul_pos hg ht), Real.logb_mul hg.ne' ht.ne', add_comm]
  · rw [if_neg ht, if_neg ht, if_neg (fun h => ht ((mul_pos_iff_of_pos_left hg).mp h)), add_zero]

theorem dctU_add_smul (x y : Nat → ℝ) (a : ℝ) (k : Nat) : DCT.dctU 40 (fun i => x i + a * y i) k = DCT.dctU 40 x k + a * DCT.dctU 40 y k := by
  rw [DCT.dctU_eq, DCT.dctU_eq, DCT.dctU_eq]
  unfold DCT.dct2
  have : ∑ j ∈ Finset.range 40, (x j + a * y j) * DCT.ker 40 k j =
      ∑ j ∈ Finset.range 40, x j * DCT.ker 40 k j + a * ∑ j ∈ Finset.range 40, y j * DCT.ker 40 k j := by
    rw [Finset.mul_sum, ← Finset.sum_add_distrib]
    exact Finset.sum_congr rfl fun j _ => by ring
  rw [this]
  ring

theorem coeff_gain {g : ℝ} (hg : 0 < g) (fs : ℝ) (n : Nat) (mag : Nat → ℝ) (k : Nat) :
    coeff id fs n (fun j => g * mag j) k =
      coeff id fs n mag k + Real.logb 10 g * DCT.dctU 40 (fun i => if 0 < bandOut fs n mag i then 1 else 0) k := by
  unfold coeff
  rw [← dctU_add_smul]
  congr 1
  funext i
  simp only [id]
  rw [bandOut_smul, logOut_mul hg]
  split_ifs <;> ring

theorem dctU_one (k : Nat) (hk : k < 80) : DCT.dctU 40 (fun _ => 1) k = if k = 0 then Real.sqrt 40 else 0 := by
  unfold DCT.dctU DCT.dct2
  by_cases e : k = 0
  · subst e
    simp only [DCT.ker_zero, if_true]
    rw [Finset.sum_const, Finset.card_range]
    simp only [mul_one, nsmul_eq_mul]
    rw [show (1 / ((40 : Nat) : ℝ)) = (40 : ℝ)⁻¹ by norm_num, Real.sqrt_inv, show (((40 : Nat) : ℝ)) = Real.sqrt 40 * Real.sqrt 40 by
      rw [Real.mul_self_sqrt (by norm_num)]; norm_num]
    rw [← mul_assoc, inv_mul_cancel₀ (by positivity), one_mul]
  · rw [if_neg e, if_neg e]
    simp only [one_mul]
    rw [DCT.sum_ker (by omega) (by omega), mul_zero]

theorem mag_gain {g : ℝ} (hg : 0 < g) (re im : List ℝ) (j : Nat) :
    Real.sqrt ((re.map (g * ·)).getD j 0 ^ 2 + (im.map (g * ·)).getD j 0 ^ 2) = g * Real.sqrt (re.getD j 0 ^ 2 + im.getD j 0 ^ 2) := by
  have e : ∀ l : List ℝ, (l.map (g * ·)).getD j 0 = g * l.getD j 0 := by
    intro l
    simp only [List.getD_eq_getElem?_getD, List.getElem?_map]
    cases l[j]? <;> simp
  rw [e, e, show (g * re.getD j 0) ^ 2 + (g * im.getD j 0) ^ 2 = g ^ 2 * (re.getD j 0 ^ 2 + im.getD j 0 ^ 2) by ring,
    Real.sqrt_mul (by positivity), Real.sqrt_sq hg.le]

/-- Without the power, amplifying the spectrum by `g` adds `log10 g` times the cosine transform of the pattern
of sounding bands. -/
theorem C64_gain {c : Config} (h0 : c.fftsize % 2 = 0) (h1 : 2 ≤ c.fftsize) (h2 : c.fftsize ≤ 2147483647) (hp : c.logpower = none)
    {m m' : MFCC} (h : Reach c m) (h' : Reach c m')
    (re im out out' : List ℝ) (hr : c.fftsize / 2 ≤ re.length) (hi : c.fftsize / 2 ≤ im.length) (ho : nout c ≤ out.length)
    (ho' : nout c ≤ out'.length) {g : ℝ} (hg : 0 < g) :
    ∃ m1 o1 m2 o2, m.processSpectrum re im out = some (m1, o1, c.nceps) ∧
      m'.processSpectrum (re.map (g * ·)) (im.map (g * ·)) out' = some (m2, o2, c.nceps) ∧
      ∀ k : Nat, k < nout c → ∃ v, o1[k]? = some v ∧ o2[k]? = some (v + Real.logb 10 g *
        DCT.dctU 40 (fun i => if 0 < bandOut c.fs c.fftsize (fun j => Real.sqrt (re.getD j 0 ^ 2 + im.getD j 0 ^ 2)) i then 1 else 0) (order c k)) := by
  obtain ⟨m1, o1, a1, _, _, a2, _⟩ := C64_spectrum h0 h1 h2 h re im out hr hi ho
  obtain ⟨m2, o2, b1, _, _, b2, _⟩ := C64_spectrum h0 h1 h2 h' (re.map (g * ·)) (im.map (g * ·)) out' (by simpa) (by simpa) ho'
  refine ⟨m1, o1, m2, o2, a1, b1, fun k hk => ⟨_, a2 k hk, ?_⟩⟩
  rw [b2 k hk]
  have hpw : power c = id := by unfold power; rw [hp]; rfl
  simp only [mag_gain hg, hpw]
  rw [coeff_gain hg]

/-- If every band sounds, the coefficients 1 to 79 do not change with the gain, and C0 is shifted by
`√40 log10 g`. -/
theorem C64_gain_invariant {c : Config} (h0 : c.fftsize % 2 = 0) (h1 : 2 ≤ c.fftsize) (h2 : c.fftsize ≤ 2147483647) (hp : c.logpower = none)
    (hc : c.nceps < 80) {m m' : MFCC} (h : Reach c m) (h' : Reach c m')
    (re im out out' : List ℝ) (hr : c.fftsize / 2 ≤ re.length) (hi : c.fftsize / 2 ≤ im.length) (ho : nout c ≤ out.length)
    (ho' : nout c ≤ out'.length) {g : ℝ} (hg : 0 < g)
    (hb : ∀ i, i < 40 → 0 < bandOut c.fs c.fftsize (fun j => Real.sqrt (re.getD j 0 ^ 2 + im.getD j 0 ^ 2)) i) :
    ∃ m1 o1 m2 o2, m.processSpectrum re im out = some (m1, o1, c.nceps) ∧
      m'.processSpectrum (re.map (g * ·)) (im.map (g * ·)) out' = some (m2, o2, c.nceps) ∧
      ∀ k : Nat, k < nout c → ∃ v, o1[k]? = some v ∧ o2[k]? = some (if order c k = 0 then v + Real.sqrt 40 * Real.logb 10 g else v) := by
  obtain ⟨m1, o1, m2, o2, a, b, d⟩ := C64_gain h0 h1 h2 hp h h' re im out out' hr hi ho ho' hg
  refine ⟨m1, o1, m2, o2, a, b, fun k hk => ?_⟩
  obtain ⟨v, v1, v2⟩ := d k hk
  refine ⟨v, v1, v2.trans ?_⟩
  have e : DCT.dctU 40 (fun i => if 0 < bandOut c.fs c.fftsize (fun j => Real.sqrt (re.getD j 0 ^ 2 + im.getD j 0 ^ 2)) i then 1 else 0) (order c k) =
      DCT.dctU 40 (fun _ => 1) (order c k) := by
    unfold DCT.dctU DCT.dct2
    congr 1
    refine Finset.sum_congr rfl fun i hi => ?_
    beta_reduce
    rw [if_pos (hb i (Finset.mem_range.mp hi))]
  have ho : order c k < 80 := by
    unfold order; unfold nout at hk
    by_cases w : c.wantC0 <;> simp [w] at hk ⊢ <;> omega
  rw [e, dctU_one _ ho]
  by_cases z : order c k = 0
  · rw [if_pos z, if_pos z, mul_comm]
  · rw [if_neg z, if_neg z, mul_zero, add_zero]

/-- Silence gives zero coefficients. -/
theorem C64_silence {c : Config} (h0 : c.fftsize % 2 = 0) (h1 : 2 ≤ c.fftsize) (h2 : c.fftsize ≤ 2147483647) (hp : power c 0 = 0)
    {m : MFCC} (h : Reach c m) (frame junk out : List ℝ) (hf : c.fftsize ≤ frame.length) (hj : junk.length = c.fftsize)
    (ho : nout c ≤ out.length) (hz : ∀ i : Nat, i < c.fftsize → frame[i]? = some 0) :
    ∃ m' out', m.process frame junk out = some (m', out', c.nceps) ∧ ∀ k : Nat, k < nout c → out'[k]? = some 0 := by
  obtain ⟨m', out', a, _, _, b, _⟩ := C64_frame h0 h1 h2 h frame junk out hf hj ho
  refine ⟨m', out', a, fun k hk => ?_⟩
  rw [b k hk]
  have hd : ∀ j, dft false c.fftsize (fun i => ((frame.getD i 0 * Window.shape c.window c.fftsize i : ℝ) : ℂ)) j = 0 := by
    intro j
    unfold dft
    refine Finset.sum_eq_zero fun i hi => ?_
    beta_reduce
    rw [List.getD_eq_getElem?_getD, hz i (Finset.mem_range.mp hi)]
    simp
  unfold coeff bandOut logOut
  simp only [hd]
  simp [hp, DCT.dctU, DCT.dct2]

/-- With all forty coefficients the transform loses nothing: their energy is that of the compressed band
outputs. -/
theorem C64_energy {c : Config} (h0 : c.fftsize % 2 = 0) (h1 : 2 ≤ c.fftsize) (h2 : c.fftsize ≤ 2147483647) (hc : c.wantC0 = true)
    (hn : c.nceps = 39) {m : MFCC} (h : Reach c m) (re im out : List ℝ) (hr : c.fftsize / 2 ≤ re.length) (hi : c.fftsize / 2 ≤ im.length)
    (ho : out.length = 40) :
    ∃ m' out', m.processSpectrum re im out = some (m', out', 39) ∧ (out'.map (· ^ 2)).sum = ∑ i ∈ Finset.range 40,
      power c (logOut (bandOut c.fs c.fftsize (fun j => Real.sqrt (re.getD j 0 ^ 2 + im.getD j 0 ^ 2)) i)) ^ 2 := by
  have hno : nout c = 40 := by unfold nout; rw [if_pos hc, hn]
  obtain ⟨m', out', a, _, l, b, _⟩ := C64_spectrum h0 h1 h2 h re im out hr hi (by omega)
  rw [hn] at a
  refine ⟨m', out', a, ?_⟩
  rw [← DCT.dctU_energy]
  refine list_sum_holds ⟨by simp [l, ho], fun k hk => ?_⟩
  rw [List.getElem?_map, b k (by omega)]
  unfold order coeff
  rw [if_pos hc]
  rfl

/-- The default configuration at 44.1 kHz. -/
def defaultConfig : Config := ⟨44100, 2048, 19, none, true, .hamming⟩

example : ∃ m, Reach defaultConfig m := by
  obtain ⟨m, h⟩ := C64_make defaultConfig (by decide) (by decide) (by decide) 0
  exact ⟨m, .make h⟩

example : nout defaultConfig = 20 ∧ order defaultConfig 0 = 0 := by decide

theorem edge41 : edge 41 ≤ 6500 := by unfold edge; norm_num

/-- With the default configuration a spectrum without zeros makes every band sound. -/
example (i : Nat) (hi : i < 40) : 0 < bandOut defaultConfig.fs defaultConfig.fftsize (fun _ => 1) i := by
  have e1 : ((defaultConfig.fs : Int) : ℝ) = 44100 := by simp [defaultConfig]
  have e2 : defaultConfig.fftsize = 2048 := rfl
  rw [e1, e2]
  exact C64_bands_cover 44100 2048 (by decide) (by decide) (by norm_num) (by linarith [edge41]) _ (fun _ => one_pos) i hi

/-- At 8 kHz the top band is always silent. -/
example (mag : Nat → ℝ) : bandOut 8000 2048 mag 39 = 0 :=
  C64_above_nyquist _ _ _ _ (by unfold edge; norm_num) (by norm_num)

end QM.Mfcc
