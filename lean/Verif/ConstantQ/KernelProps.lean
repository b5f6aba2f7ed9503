import Verif.ConstantQ.Kernel
import Mathlib.Algebra.BigOperators.Field

/-! # C46, C59: the constant-Q kernel and transform of a frame -/

namespace QM.ConstantQ

open Finset QM.DFT

/-! ## Configuration -/

/-- The quality factor, for `bpo` bins in an octave. -/
noncomputable def quality (bpo : Nat) : ℝ := 1 / ((2 : ℝ) ^ (1 / (bpo : ℝ)) - 1)

theorem quality_pos {bpo : Nat} (h : 0 < bpo) : 0 < quality bpo := by
  unfold quality
  have : (1 : ℝ) < (2 : ℝ) ^ (1 / (bpo : ℝ)) := Real.one_lt_rpow (by norm_num) (by positivity)
  exact div_pos one_pos (by linarith)

/-- **C59** Every configuration with positive rate and frequencies whose longest window has at most 2^30 samples is accepted: the transform has as length the
least power of two that holds the longest window, and the number of bins is that from `fmin` up to `fmax`. -/
theorem C59_initialise (fs fmin fmax : ℝ) (bpo : Nat) (h1 : 0 < fs) (h2 : 0 < fmin) (h3 : fmin ≤ fmax) (h4 : 0 < bpo) (h5 : ⌈quality bpo * fs / fmin⌉ ≤ 2 ^ 30) :
    ∃ uK N : Nat, initialise fs fmin fmax bpo = some (quality bpo, uK, N) ∧ (uK : Int) = ⌈bpo * Real.log (fmax / fmin) / Real.log 2⌉ ∧
      IsLeast {p : Int | MathInt.IsPow2 p ∧ ⌈quality bpo * fs / fmin⌉ ≤ p} N := by
  have hx : 0 < quality bpo * fs / fmin := div_pos (mul_pos (quality_pos h4) h1) h2
  have hc : 0 < ⌈quality bpo * fs / fmin⌉ := Int.ceil_pos.mpr hx
  obtain ⟨N, hN⟩ : ∃ N, MathInt.nextPowerOfTwo ⌈quality bpo * fs / fmin⌉ = some N := by
    rw [← Option.ne_none_iff_exists']
    intro h
    have := (MathInt.C01_nextPowerOfTwo_overflow_iff _ ⟨by omega, by omega⟩).mp h
    omega
  have hl := MathInt.C01_nextPowerOfTwo_least _ _ hN
  have hpos : 0 < N := lt_of_lt_of_le hc hl.1.2
  have hu : 0 ≤ ⌈bpo * Real.log (fmax / fmin) / Real.log 2⌉ := Int.ceil_nonneg
    (div_nonneg (mul_nonneg (Nat.cast_nonneg _) (Real.log_nonneg ((one_le_div h2).mpr h3))) (Real.log_nonneg (by norm_num)))
  refine ⟨⌈bpo * Real.log (fmax / fmin) / Real.log 2⌉.toNat, N.toNat, ?_, by omega, by rw [Int.toNat_of_nonneg hpos.le]; exact hl⟩
  unfold initialise
  dsimp only
  rw [show (1 : ℝ) / ((2 : ℝ) ^ (1 / (bpo : ℝ)) - 1) = quality bpo from rfl, bind_ok hN, if_neg (by omega)]
  rfl

/-- What an accepted configuration is like. -/
theorem init_facts {fs fmin fmax dQ : ℝ} {bpo uK N : Nat} (h1 : 0 < fs) (h2 : 0 < fmin) (h3 : fmin ≤ fmax) (h4 : 0 < bpo) (h5 : ⌈quality bpo * fs / fmin⌉ ≤ 2 ^ 30)
    (h : initialise fs fmin fmax bpo = some (dQ, uK, N)) :
    dQ = quality bpo ∧ 1 ≤ N ∧ N ≤ 2 ^ 30 ∧ (N = 1 ∨ N % 2 = 0) ∧ ∀ j, windowLength dQ fs fmin bpo j ≤ N := by
  obtain ⟨uK', N', e, _, hl⟩ := C59_initialise fs fmin fmax bpo h1 h2 h3 h4 h5
  rw [e] at h
  obtain ⟨rfl, rfl, rfl⟩ : quality bpo = dQ ∧ uK' = uK ∧ N' = N := by simpa using h
  have hx : 0 < quality bpo * fs / fmin := div_pos (mul_pos (quality_pos h4) h1) h2
  have hc : 0 < ⌈quality bpo * fs / fmin⌉ := Int.ceil_pos.mpr hx
  have hge := hl.1.2
  obtain ⟨k, hk⟩ := hl.1.1
  have hle := hl.2 (show (2 ^ 30 : Int) ∈ {p : Int | MathInt.IsPow2 p ∧ ⌈quality bpo * fs / fmin⌉ ≤ p} from ⟨⟨30, rfl⟩, h5⟩)
  refine ⟨rfl, by omega, by omega, ?_, fun j => ?_⟩
  · cases k with
    | zero => left; rw [pow_zero] at hk; omega
    | succ k => right; rw [pow_succ] at hk; omega
  · unfold windowLength
    have : ⌈quality bpo * fs / (fmin * (2 : ℝ) ^ ((j : ℝ) / (bpo : ℝ)))⌉ ≤ ⌈quality bpo * fs / fmin⌉ := by
      apply Int.ceil_mono
      apply div_le_div_of_nonneg_left (mul_pos (quality_pos h4) h1).le h2
      have : (1 : ℝ) ≤ (2 : ℝ) ^ ((j : ℝ) / (bpo : ℝ)) := Real.one_le_rpow (by norm_num) (by positivity)
      nlinarith
    omega

/-! ## The kernel -/

/-- **C59** `sparsekernel`, for every configuration, threshold, and contents of its work arrays: it makes no access out of bounds, and the cells are, from the
highest bin to the lowest, exactly those bins of the discrete Fourier transform of the windowed sinusoid whose magnitude is above the threshold. -/
theorem C59_sparsekernel (fs fmin fmax dQ thresh : ℝ) (bpo uK N : Nat) (h1 : 0 < fs) (h2 : 0 < fmin) (h3 : fmin ≤ fmax) (h4 : 0 < bpo)
    (h5 : ⌈quality bpo * fs / fmin⌉ ≤ 2 ^ 30) (h : initialise fs fmin fmax bpo = some (dQ, uK, N)) (wRe wIm tRe tIm : List ℝ) (k1 k2 : ℂ)
    (l1 : wRe.length = N) (l2 : wIm.length = N) (l3 : tRe.length = N) (l4 : tIm.length = N) :
    sparsekernel N uK dQ fs fmin thresh bpo wRe wIm tRe tIm k1 k2 =
      some ((List.range uK).flatMap (fun t => cellsFor N thresh (uK - 1 - t) (dft false N (atomC N (windowLength dQ fs fmin bpo (uK - 1 - t)) dQ)))) := by
  obtain ⟨_, g1, g2, g3, g4⟩ := init_facts h1 h2 h3 h4 h5 h
  exact sparsekernel_ok g3 g1 (by omega) dQ fs fmin thresh bpo g4 wRe wIm tRe tIm k1 k2 l1 l2 l3 l4

/-- **C59** The kernel only refers to bins there are: with it the transform stays inside its arrays (`C45_split`). -/
theorem C59_valid (N uK : Nat) (thresh : ℝ) (W : Nat → Nat → ℂ) : Valid N uK (kernel N uK thresh W) := by
  intro c hc
  unfold kernel cellsFor at hc
  obtain ⟨t, ht, hc⟩ := List.mem_flatMap.mp hc
  obtain ⟨i, hi, rfl⟩ := List.mem_map.mp hc
  have h1 := List.mem_range.mp ht
  have h2 := List.mem_range.mp (List.mem_filter.mp hi).1
  dsimp only
  omega

/-! ## The transform with this kernel -/

theorem cellsOf_append (a b : List (Cell ℝ)) (row : Nat) : cellsOf (a ++ b) row = cellsOf a row ++ cellsOf b row := by
  unfold cellsOf; rw [List.filter_append]

theorem cellsOf_cellsFor (N : Nat) (thresh : ℝ) (j : Nat) (W : Nat → ℂ) (row : Nat) :
    cellsOf (cellsFor N thresh j W) row = if j = row then (cellsFor N thresh j W).filter (fun c => c.fftbin ≠ 0) else [] := by
  unfold cellsOf
  by_cases h : j = row
  · rw [if_pos h]
    refine List.filter_congr fun c hc => ?_
    obtain ⟨i, _, rfl⟩ := List.mem_map.mp hc
    simp [h]
  · rw [if_neg h]
    refine List.filter_eq_nil_iff.mpr fun c hc => ?_
    obtain ⟨i, _, rfl⟩ := List.mem_map.mp hc
    simp; omega

theorem cellsOf_kernel {N uK : Nat} (thresh : ℝ) (W : Nat → Nat → ℂ) {row : Nat} (h : row < uK) :
    cellsOf (kernel N uK thresh W) row = (cellsFor N thresh row (W row)).filter (fun c => c.fftbin ≠ 0) := by
  have key : ∀ t, t ≤ uK → cellsOf ((List.range t).flatMap (fun t => cellsFor N thresh (uK - 1 - t) (W (uK - 1 - t)))) row =
      if uK - 1 - row < t then (cellsFor N thresh row (W row)).filter (fun c => c.fftbin ≠ 0) else [] := by
    intro t ht
    induction t with
    | zero => rw [if_neg (by omega)]; rfl
    | succ t ih =>
      rw [List.range_succ, List.flatMap_append, cellsOf_append, ih (by omega)]
      have : (([t] : List Nat).flatMap (fun t => cellsFor N thresh (uK - 1 - t) (W (uK - 1 - t)))) = cellsFor N thresh (uK - 1 - t) (W (uK - 1 - t)) := by simp
      rw [this, cellsOf_cellsFor]
      by_cases e : uK - 1 - t = row
      · rw [if_pos e, if_neg (by omega), if_pos (by omega), e]; rfl
      · rw [if_neg e, List.append_nil]
        by_cases e2 : uK - 1 - row < t
        · rw [if_pos e2, if_pos (by omega)]
        · rw [if_neg e2, if_neg (by omega)]
  unfold kernel
  rw [key uK le_rfl, if_pos (by omega)]

theorem sum_filter_map {β : Type} (m : Nat) (p : Nat → Bool) (mk : Nat → β) (q : β → Bool) (g : β → ℂ) :
    ((((List.range m).filter p).map mk).filter q |>.map g).sum = ∑ i ∈ range m, if p i ∧ q (mk i) then g (mk i) else 0 := by
  induction m with
  | zero => simp
  | succ m ih =>
    rw [List.range_succ, List.filter_append, List.map_append, List.filter_append, List.map_append, List.sum_append, ih, sum_range_succ]
    congr 1
    by_cases h1 : p m
    · by_cases h2 : q (mk m) <;> simp [h1, h2]
    · simp [h1]

theorem complex_sum {β : Type} (l : List β) (f g : β → ℝ) : (⟨(l.map f).sum, (l.map g).sum⟩ : ℂ) = (l.map (fun c => (⟨f c, g c⟩ : ℂ))).sum := by
  induction l with
  | nil => rfl
  | cons a l ih => rw [List.map_cons, List.map_cons, List.map_cons, List.sum_cons, List.sum_cons, List.sum_cons, ← ih]; rfl

/-- **C59** The constant-Q bin, for every spectrum and threshold: the sum over the bins above the threshold, except frequency zero, of the conjugate
of the spectrum of the windowed sinusoid times the mirrored bin of the spectrum of the signal. -/
theorem C59_bin {N uK : Nat} (thresh : ℝ) (W : Nat → Nat → ℂ) {row : Nat} (h : row < uK) (re im : Nat → ℝ) :
    (⟨innerRe (kernel N uK thresh W) row (mirror N) re im, innerIm (kernel N uK thresh W) row (mirror N) re im⟩ : ℂ) =
      ∑ i ∈ range N, if thresh * thresh < Complex.normSq (W row i) ∧ i ≠ 0 then (starRingEnd ℂ) (W row i) / N * ⟨re (N - i), im (N - i)⟩ else 0 := by
  unfold innerRe innerIm
  rw [complex_sum, cellsOf_kernel thresh W h]
  unfold cellsFor
  rw [sum_filter_map]
  refine sum_congr rfl fun i _ => ?_
  have e1 : (decide (thresh * thresh < (W row i).re * (W row i).re + (W row i).im * (W row i).im) = true) ↔ thresh * thresh < Complex.normSq (W row i) := by
    rw [Complex.normSq_apply]; simp
  by_cases hc : thresh * thresh < Complex.normSq (W row i) ∧ i ≠ 0
  · rw [if_pos hc, if_pos ⟨e1.mpr hc.1, by simpa using hc.2⟩]
    have hm : mirror N (⟨(i : Int), (row : Int), (W row i).re / N, -(W row i).im / N⟩ : Cell ℝ) = N - i := by simp [mirror]
    rw [hm]
    apply Complex.ext
    · simp [Complex.div_natCast_re, Complex.div_natCast_im]
    · simp [Complex.div_natCast_re, Complex.div_natCast_im]
  · rw [if_neg hc, if_neg (by
      intro hx
      exact hc ⟨e1.mp hx.1, by simpa using hx.2⟩)]

/-! ## Without a threshold -/

theorem dft_twice {N : Nat} (x : Nat → ℂ) {n : Nat} (hn : n < N) : dft false N (dft false N x) n = N * x ((N - n) % N) := by
  have h0 : N ≠ 0 := by omega
  have := dft_dft false x ((N - n) % N) (Nat.mod_lt _ (by omega))
  rw [← this, dft_eq, dft_eq (!false)]
  refine sum_congr rfl fun j _ => ?_
  congr 1
  rw [root_not, inv_pow, ← mul_eq_one_iff_eq_inv₀ (pow_ne_zero _ (root_ne_zero _ _)), ← pow_add, ← Nat.mul_add, Nat.add_comm n]
  by_cases e : n = 0
  · subst e; simp
  · rw [Nat.mod_eq_of_lt (by omega), show N - n + n = N by omega, Nat.mul_comm, pow_mul, root_pow_self _ h0, one_pow]

theorem sum_dft_mul {N : Nat} (k x : Nat → ℂ) : ∑ i ∈ range N, dft false N k i * dft false N x i = N * ∑ n ∈ range N, k n * x ((N - n) % N) := by
  have : ∀ i, dft false N k i * dft false N x i = ∑ n ∈ range N, k n * (dft false N x i * root false N ^ (i * n)) := by
    intro i
    rw [dft_eq false N k, sum_mul]
    refine sum_congr rfl fun n _ => ?_
    rw [Nat.mul_comm n i]
    ring
  simp only [this]
  rw [sum_comm, mul_sum]
  refine sum_congr rfl fun n hn => ?_
  rw [← mul_sum, ← dft_eq false N (dft false N x), dft_twice x (mem_range.mp hn)]
  ring

/-- **C59** With threshold zero the constant-Q bin of a real frame is the inner product of the frame with the windowed sinusoid (both with the middle of the frame at
time zero, in reverse time), conjugate, less the contribution of frequency zero. -/
theorem C59_inner_product {N uK : Nat} (k : Nat → Nat → ℂ) {row : Nat} (h : row < uK) (x : Nat → ℝ) (re im : Nat → ℝ)
    (hX : ∀ i, i < N → (⟨re i, im i⟩ : ℂ) = dft false N (fun n => (x n : ℂ)) i) :
    (⟨innerRe (kernel N uK 0 (fun j => dft false N (k j))) row (mirror N) re im, innerIm (kernel N uK 0 (fun j => dft false N (k j))) row (mirror N) re im⟩ : ℂ) =
      (starRingEnd ℂ) (∑ n ∈ range N, k row n * x ((N - n) % N) - (∑ n ∈ range N, k row n) * (∑ n ∈ range N, (x n : ℂ)) / N) := by
  rw [C59_bin 0 _ h re im]
  rcases Nat.eq_zero_or_pos N with rfl | hN
  · simp
  have hN' : (N : ℂ) ≠ 0 := by exact_mod_cast hN.ne'
  have step : ∀ i ∈ range N, (if (0 : ℝ) * 0 < Complex.normSq (dft false N (k row) i) ∧ i ≠ 0 then
      (starRingEnd ℂ) (dft false N (k row) i) / N * ⟨re (N - i), im (N - i)⟩ else 0) =
      (starRingEnd ℂ) (dft false N (k row) i * dft false N (fun n => (x n : ℂ)) i) / N -
        if i = 0 then (starRingEnd ℂ) (dft false N (k row) 0 * dft false N (fun n => (x n : ℂ)) 0) / N else 0 := by
    intro i hi
    have hi := mem_range.mp hi
    by_cases e : i = 0
    · subst e; simp
    · rw [if_neg e, sub_zero]
      by_cases hz : dft false N (k row) i = 0
      · rw [if_neg (by simp [hz]), hz]; simp
      · rw [if_pos ⟨by rw [mul_zero]; exact Complex.normSq_pos.mpr hz, e⟩, hX (N - i) (by omega), ← FFT.dft_real_conj false hN.ne' x i hi.le, map_mul]
        ring
  rw [sum_congr rfl step, sum_sub_distrib, ← sum_div, ← map_sum, sum_dft_mul, sum_ite_eq' (range N) 0, if_pos (mem_range.mpr hN)]
  have z : ∀ y : Nat → ℂ, dft false N y 0 = ∑ n ∈ range N, y n := by
    intro y
    rw [dft_eq]
    simp
  rw [z, z, map_sub, map_mul, map_div₀, map_natCast]
  field_simp

/-! ## The whole transform -/

/-- **C59** The transform of a frame from configuration to result, with threshold zero. -/
theorem C59_constantQ (fs fmin fmax dQ : ℝ) (bpo uK N : Nat) (h1 : 0 < fs) (h2 : 0 < fmin) (h3 : fmin ≤ fmax) (h4 : 0 < bpo)
    (h5 : ⌈quality bpo * fs / fmin⌉ ≤ 2 ^ 30) (h : initialise fs fmin fmax bpo = some (dQ, uK, N)) (wRe wIm tRe tIm : List ℝ) (k1 k2 : ℂ)
    (l1 : wRe.length = N) (l2 : wIm.length = N) (l3 : tRe.length = N) (l4 : tIm.length = N) (x : Nat → ℝ) (real imag cqRe cqIm : List ℝ)
    (hr : real.length = N) (hi : imag.length = N) (hX : ∀ i, i < N → (⟨real.getD i 0, imag.getD i 0⟩ : ℂ) = dft false N (fun n => (x n : ℂ)) i)
    (c1 : cqRe.length = uK) (c2 : cqIm.length = uK) :
    ∃ (cells : List (Cell ℝ)) (re im : List ℝ), sparsekernel N uK dQ fs fmin 0 bpo wRe wIm tRe tIm k1 k2 = some cells ∧
      processSplit N uK (some cells) real imag (cqRe, cqIm) = some (re, im) ∧ ∀ j : Nat, j < uK → ∃ a b, re[j]? = some a ∧ im[j]? = some b ∧
        (⟨a, b⟩ : ℂ) = (starRingEnd ℂ) (∑ n ∈ range N, atomC N (windowLength dQ fs fmin bpo j) dQ n * x ((N - n) % N) -
          (∑ n ∈ range N, atomC N (windowLength dQ fs fmin bpo j) dQ n) * (∑ n ∈ range N, (x n : ℂ)) / N) := by
  have hk := C59_sparsekernel fs fmin fmax dQ 0 bpo uK N h1 h2 h3 h4 h5 h wRe wIm tRe tIm k1 k2 l1 l2 l3 l4
  refine ⟨_, _, _, hk, C45_split N uK _ real imag cqRe cqIm
    (C59_valid N uK 0 (fun j => dft false N (atomC N (windowLength dQ fs fmin bpo j) dQ))) hr hi c1 c2, fun j hj => ?_⟩
  refine ⟨_, _, by rw [List.getElem?_map, List.getElem?_range hj]; rfl, by rw [List.getElem?_map, List.getElem?_range hj]; rfl, ?_⟩
  exact C59_inner_product (fun j => atomC N (windowLength dQ fs fmin bpo j) dQ) hj x (fun k => real.getD k 0) (fun k => imag.getD k 0) hX

/-! ## Chromagram -/

/-- **C46** The chromagram extends its range to whole octaves: the number of constant-Q bins is a multiple of the number of bins in an octave, so the fold leaves
none out. -/
theorem C46_whole_octaves (fs fmin fmax dQ : ℝ) (bpo uK N : Nat) (h2 : 0 < fmin) (h : chromaInitialise fs fmin fmax bpo = some (dQ, uK, N)) :
    (uK : Int) = bpo * ⌈Real.log (fmax / fmin) / Real.log 2⌉ ∧ uK / bpo * bpo = uK := by
  unfold chromaInitialise at h
  set c := ⌈Real.log (fmax / fmin) / Real.log 2⌉
  have hl2 : Real.log 2 ≠ 0 := (Real.log_pos (by norm_num)).ne'
  have hu : ⌈bpo * Real.log (fmin * (2 : ℝ) ^ (c : ℝ) / fmin) / Real.log 2⌉ = bpo * c := by
    rw [mul_div_cancel_left₀ _ h2.ne', Real.log_rpow (by norm_num), ← mul_assoc, mul_div_cancel_right₀ _ hl2]
    exact_mod_cast Int.ceil_intCast (bpo * c)
  have key : (uK : Int) = bpo * c := by
    unfold initialise at h
    dsimp only at h
    rw [hu] at h
    cases hN : MathInt.nextPowerOfTwo ⌈1 / ((2 : ℝ) ^ (1 / (bpo : ℝ)) - 1) * fs / fmin⌉ with
    | none => rw [hN] at h; simp at h
    | some M =>
      rw [hN, bind_ok rfl] at h
      split_ifs at h with hneg
      have := Option.some.inj h
      have h3 : ((bpo : Int) * c).toNat = uK := congrArg (fun p => p.2.1) this
      omega
  refine ⟨key, Nat.div_mul_cancel ?_⟩
  exact_mod_cast (Dvd.intro _ key.symm : (bpo : Int) ∣ uK)

/-- **C46** The spectrum of a frame of audio: the discrete Fourier transform of the frame under a Hamming window, with the middle of the frame moved to time zero. -/
theorem C46_spectrum (N : Nat) (hN : N % 2 = 0) (h1 : 2 ≤ N) (h2 : N ≤ 2147483647) {fft : FFT.RD} (hd : FFT.RReach N fft) (win data windowbuf ro io : List ℝ)
    (hw : Window.encache .hamming N = some win) (l1 : data.length = N) (l2 : windowbuf.length = N) (l3 : ro.length = N) (l4 : io.length = N) :
    ∃ fft' ro' io', spectrum N win fft data windowbuf ro io = some (fft', ro', io') ∧ FFT.RReach N fft' ∧ ro'.length = N ∧ io'.length = N ∧
      ∀ k, k < N → (⟨ro'.getD k 0, io'.getD k 0⟩ : ℂ) =
        dft false N (fun n => ((data.getD ((n + N / 2) % N) 0 * Window.shape .hamming N ((n + N / 2) % N) : ℝ) : ℂ)) k := by
  obtain ⟨win', w1, w2, w3⟩ := Window.encache_ok .hamming N
  obtain rfl : win' = win := Option.some.inj (w1.symm.trans hw)
  obtain ⟨b1, e1, g1⟩ := fill_part (new := fun n => data.getD n 0) (f := fun i buf => do
      let d ← data[i]?
      wr buf i d) (holds_of_length l2 0) (by
    intro i ys hi _
    rw [bind_ok (get_getD data i 0 (by omega))])
  obtain ⟨b2, e2, g2⟩ := fill_part (new := fun n => data.getD n 0 * Window.shape .hamming N n) (f := fun i src => do
      let s ← src[i]?
      let c ← win'[i]?
      wr src i (s * c)) g1 (by
    intro i ys hi hp
    rw [bind_ok (hp.get hi), bind_ok (w3 i hi)])
  obtain ⟨b3, e3, g3⟩ := shift_ok g2 (Or.inr hN)
  obtain ⟨d', ro', io', e4, r, a1, a2, a3, _⟩ := FFT.C24_forward N hN h1 h2 hd b3 ro io (by rw [g3.1]) (by omega) (by omega)
  refine ⟨d', ro', io', ?_, r, by omega, by omega, fun k hk => ?_⟩
  · unfold spectrum
    rw [bind_ok e1]
    unfold Window.cutInPlace
    rw [bind_ok e2, bind_ok e3, e4]
  · obtain ⟨a, b, q1, q2, q3⟩ := a3 k hk
    rw [List.getD_eq_getElem?_getD, List.getD_eq_getElem?_getD, q1, q2]
    show (⟨a, b⟩ : ℂ) = _
    rw [q3]
    unfold dft
    refine sum_congr rfl fun n hn => ?_
    dsimp only
    rw [show b3.getD n 0 = b3[n]?.getD 0 from List.getD_eq_getElem?_getD, g3.2 n (mem_range.mp hn)]
    rfl

/-- A configuration that is accepted: one bin in an octave from 1 to 4 Hz, at 3 samples a second. -/
theorem demo_initialise : ∃ uK N, initialise 3 1 4 1 = some (quality 1, uK, N) ∧ uK = 2 ∧ N = 4 := by
  have hq : quality 1 = 1 := by unfold quality; norm_num
  obtain ⟨uK, N, h, h1, h2⟩ := C59_initialise 3 1 4 1 (by norm_num) (by norm_num) (by norm_num) (by norm_num) (by rw [hq]; norm_num)
  refine ⟨uK, N, h, ?_, ?_⟩
  · have h4 : Real.log 4 = 2 * Real.log 2 := by
      rw [show (4 : ℝ) = 2 ^ 2 by norm_num, Real.log_pow]; norm_num
    have hl2 : Real.log 2 ≠ 0 := (Real.log_pos (by norm_num)).ne'
    have : ((1 : Nat) : ℝ) * Real.log (4 / 1) / Real.log 2 = 2 := by
      rw [div_one, h4]; field_simp; norm_num
    rw [this] at h1
    norm_num at h1
    exact_mod_cast h1
  · rw [hq] at h2
    norm_num at h2
    obtain ⟨⟨⟨k, hk⟩, h3⟩, h4⟩ := h2
    have := h4 (show (4 : Int) ∈ {p : Int | MathInt.IsPow2 p ∧ 3 ≤ p} from ⟨⟨2, rfl⟩, by norm_num⟩)
    have h5 : N = 3 ∨ N = 4 := by omega
    rcases h5 with rfl | rfl
    · exfalso
      have hk : (3 : Int) = 2 ^ k := by exact_mod_cast hk
      cases k with
      | zero => norm_num at hk
      | succ k => rw [pow_succ] at hk; omega
    · rfl

end QM.ConstantQ
