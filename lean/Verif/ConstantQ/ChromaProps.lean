import Verif.ConstantQ.Chroma
import Verif.ConstantQ.ChromaSpec
import Verif.ConstantQ.KernelProps
import Verif.MathReal.Props

/-! # C72: the chromagram object over any history of calls -/

namespace QM.ConstantQ

open Finset QM.DFT

/-! ## Specification -/

/-- The spectrum of the kernel of bin `j`. -/
noncomputable def kernelOf (cfg : ChromaConfig) (N j : Nat) : Nat → ℂ :=
  dft false N (atomC N (windowLength (quality cfg.bpo) cfg.fs cfg.fmin cfg.bpo j) (quality cfg.bpo))

/-- The chroma before normalisation of a frame with spectrum `X`. -/
noncomputable def rawChroma (cfg : ChromaConfig) (N octaves : Nat) (X : Nat → ℂ) : List ℝ :=
  (List.range cfg.bpo).map (chromaValue N octaves cfg.bpo cfg.thresh (kernelOf cfg N) X)

/-- The chroma, normalised as asked, see C06. -/
noncomputable def chromaVector (cfg : ChromaConfig) (N octaves : Nat) (X : Nat → ℂ) : List ℝ := MathReal.normaliseVec (rawChroma cfg N octaves X) cfg.norm

/-- A usable configuration: positive rate, frequencies and number of bins, and a longest window of at most 2^30 samples. -/
structure ChromaConfig.Fine (cfg : ChromaConfig) : Prop where
  fs : 0 < cfg.fs
  fmin : 0 < cfg.fmin
  range : cfg.fmin ≤ cfg.fmax
  bpo : 0 < cfg.bpo
  size : ⌈quality cfg.bpo * cfg.fs / cfg.fmin⌉ ≤ 2 ^ 30

/-- The arrays made at the first call have the right lengths. -/
structure KernelMem.Sized (N : Nat) (m : KernelMem) : Prop where
  wRe : m.wRe.length = N
  wIm : m.wIm.length = N
  tRe : m.tRe.length = N
  tIm : m.tIm.length = N
  buf : m.buf.length = N

/-- The arrays made by the constructor have the right lengths. -/
structure ChromaMem.Sized (N uK bpo : Nat) (m : ChromaMem) : Prop where
  re : m.re.length = N
  im : m.im.length = N
  cqRe : m.cqRe.length = uK
  cqIm : m.cqIm.length = uK
  chroma : m.chroma.length = bpo

/-- The states an object can be in: after the constructor and any sequence of calls of the two overloads. -/
inductive ChromaReach (cfg : ChromaConfig) (N uK : Nat) : Chroma → Prop
  | make {m s} : m.Sized N uK cfg.bpo → Chroma.make cfg m = some s → ChromaReach cfg N uK s
  | time {m s s' data} : ChromaReach cfg N uK s → m.Sized N → data.length = N → Chroma.processTime m s data = some s' → ChromaReach cfg N uK s'
  | freq {m s s' real imag} : ChromaReach cfg N uK s → m.Sized N → real.length = N → imag.length = N → Chroma.processFreq m s real imag = some s' → ChromaReach cfg N uK s'

/-! ## Lemmas -/

structure ChromaOk (cfg : ChromaConfig) (N uK : Nat) (s : Chroma) : Prop where
  hcfg : s.cfg = cfg
  hdQ : s.dQ = quality cfg.bpo
  huK : s.uK = uK
  hN : s.N = N
  hkernel : ∀ c, s.kernel = some c → c = kernel N uK cfg.thresh (kernelOf cfg N)
  window : ∀ w, s.window = some w → Window.encache .hamming N = some w.1 ∧ w.2.length = N
  fft : FFT.RReach N s.fft
  re : s.re.length = N
  im : s.im.length = N
  cqRe : s.cqRe.length = uK
  cqIm : s.cqIm.length = uK
  chroma : s.chroma.length = cfg.bpo

theorem chroma_facts {cfg : ChromaConfig} (hc : cfg.Fine) {dQ : ℝ} {uK N : Nat} (h : chromaInitialise cfg.fs cfg.fmin cfg.fmax cfg.bpo = some (dQ, uK, N)) :
    dQ = quality cfg.bpo ∧ 1 ≤ N ∧ N ≤ 2 ^ 30 ∧ (N = 1 ∨ N % 2 = 0) ∧ ∀ j, windowLength dQ cfg.fs cfg.fmin cfg.bpo j ≤ N := by
  refine init_facts hc.fs hc.fmin ?_ hc.bpo hc.size h
  refine le_mul_of_one_le_right hc.fmin.le (Real.one_le_rpow (by norm_num) ?_)
  exact_mod_cast Int.ceil_nonneg (div_nonneg (Real.log_nonneg ((one_le_div hc.fmin).mpr hc.range)) (Real.log_nonneg (by norm_num)))

section
variable {cfg : ChromaConfig} {uK N : Nat} {dQ : ℝ}

theorem withKernel_ok (hc : cfg.Fine) (hi : chromaInitialise cfg.fs cfg.fmin cfg.fmax cfg.bpo = some (dQ, uK, N)) {s : Chroma} (h : ChromaOk cfg N uK s)
    {m : KernelMem} (hm : m.Sized N) : s.withKernel m = some (kernel N uK cfg.thresh (kernelOf cfg N)) := by
  obtain ⟨rfl, n1, n2, n3, n4⟩ := chroma_facts hc hi
  unfold Chroma.withKernel
  cases hk : s.kernel with
  | some c => rw [h.hkernel c hk]
  | none =>
    dsimp only
    rw [h.hN, h.huK, h.hdQ, h.hcfg]
    exact sparsekernel_ok n3 n1 (by omega) _ _ _ _ _ n4 _ _ _ _ _ _ hm.wRe hm.wIm hm.tRe hm.tIm

theorem withWindow_ok {s : Chroma} (h : ChromaOk cfg N uK s) {m : KernelMem} (hm : m.Sized N) :
    ∃ w, s.withWindow m = some w ∧ Window.encache .hamming N = some w.1 ∧ w.2.length = N := by
  obtain ⟨win, w1, _⟩ := Window.encache_ok .hamming N
  unfold Chroma.withWindow
  cases hk : s.window with
  | some w => exact ⟨w, rfl, h.window w hk⟩
  | none =>
    refine ⟨(win, m.buf), ?_, w1, hm.buf⟩
    dsimp only
    rw [h.hN, bind_ok w1]
    rfl

theorem processFreq_ok (hc : cfg.Fine) (hi : chromaInitialise cfg.fs cfg.fmin cfg.fmax cfg.bpo = some (dQ, uK, N)) {s : Chroma} (h : ChromaOk cfg N uK s)
    {m : KernelMem} (hm : m.Sized N) (real imag : List ℝ) (l1 : real.length = N) (l2 : imag.length = N) :
    ∃ s', Chroma.processFreq m s real imag = some s' ∧ ChromaOk cfg N uK s' ∧
      s'.chroma = chromaVector cfg N (uK / cfg.bpo) (fun k => ⟨real.getD k 0, imag.getD k 0⟩) := by
  have e1 := withKernel_ok hc hi h hm
  have e2 := C45_split N uK (kernel N uK cfg.thresh (kernelOf cfg N)) real imag s.cqRe s.cqIm (C59_valid N uK cfg.thresh _) l1 l2 h.cqRe h.cqIm
  have hbin : ∀ j, j < uK → kabs (innerRe (kernel N uK cfg.thresh (kernelOf cfg N)) j (mirror N) (fun k => real.getD k 0) (fun k => imag.getD k 0))
      (innerIm (kernel N uK cfg.thresh (kernelOf cfg N)) j (mirror N) (fun k => real.getD k 0) (fun k => imag.getD k 0)) =
      ‖cqValue N cfg.thresh (kernelOf cfg N j) (fun k => ⟨real.getD k 0, imag.getD k 0⟩)‖ := by
    intro j hj
    unfold cqValue
    rw [← C59_bin (N := N) cfg.thresh (kernelOf cfg N) hj (fun k => real.getD k 0) (fun k => imag.getD k 0), Complex.norm_def, Complex.normSq_mk]
    rfl
  generalize hA : (fun row => innerRe (kernel N uK cfg.thresh (kernelOf cfg N)) row (mirror N) (fun k => real.getD k 0) (fun k => imag.getD k 0)) = A at e2
  generalize hB : (fun row => innerIm (kernel N uK cfg.thresh (kernelOf cfg N)) row (mirror N) (fun k => real.getD k 0) (fun k => imag.getD k 0)) = B at e2
  have e3 := C46_foldOctaves kabs uK cfg.bpo _ _ s.chroma (show ((List.range uK).map A).length = uK by simp) (show ((List.range uK).map B).length = uK by simp) h.chroma
  have hraw : (List.range cfg.bpo).map (fun b => ∑ oct ∈ range (uK / cfg.bpo),
      kabs (((List.range uK).map A).getD (oct * cfg.bpo + b) 0) (((List.range uK).map B).getD (oct * cfg.bpo + b) 0)) =
      rawChroma cfg N (uK / cfg.bpo) (fun k => ⟨real.getD k 0, imag.getD k 0⟩) := by
    unfold rawChroma chromaValue
    refine List.map_congr_left fun b hb => sum_congr rfl fun oct hoct => ?_
    have hb := List.mem_range.mp hb
    have hoct := mem_range.mp hoct
    have hlt : oct * cfg.bpo + b < uK := by
      calc oct * cfg.bpo + b < oct * cfg.bpo + cfg.bpo := by omega
        _ = (oct + 1) * cfg.bpo := (Nat.succ_mul _ _).symm
        _ ≤ uK / cfg.bpo * cfg.bpo := Nat.mul_le_mul_right _ (by omega)
        _ ≤ uK := Nat.div_mul_le_self _ _
    rw [List.getD_eq_getElem?_getD, List.getD_eq_getElem?_getD, List.getElem?_map, List.getElem?_map, List.getElem?_range hlt]
    rw [← hbin _ hlt, ← hA, ← hB]
    rfl
  rw [hraw] at e3
  have hn : MathReal.normaliseArr (rawChroma cfg N (uK / cfg.bpo) (fun k => ⟨real.getD k 0, imag.getD k 0⟩)) cfg.bpo cfg.norm =
      chromaVector cfg N (uK / cfg.bpo) (fun k => ⟨real.getD k 0, imag.getD k 0⟩) := by
    rw [(MathReal.C06_overloads _ _ (by simp [rawChroma]) _).1, List.take_of_length_le (by simp [rawChroma]), List.drop_of_length_le (by simp [rawChroma]), List.append_nil]
    rfl
  refine ⟨⟨cfg, s.dQ, uK, N, some (kernel N uK cfg.thresh (kernelOf cfg N)), s.window, s.fft, s.re, s.im, (List.range uK).map A, (List.range uK).map B,
      chromaVector cfg N (uK / cfg.bpo) (fun k => ⟨real.getD k 0, imag.getD k 0⟩)⟩, ?_,
    ⟨rfl, h.hdQ, rfl, rfl, fun c hk => (Option.some.inj hk).symm, h.window, h.fft, h.re, h.im, by simp, by simp, ?_⟩, rfl⟩
  · unfold Chroma.processFreq
    rw [bind_ok e1, h.hN, h.huK, bind_ok e2]
    dsimp only
    rw [h.hcfg, bind_ok e3, hn]
    rfl
  · unfold chromaVector MathReal.normaliseVec
    cases cfg.norm <;> dsimp only <;> (try split_ifs) <;> simp [rawChroma]

theorem windowed_ok (hN : N % 2 = 0) {win data buf : List ℝ} (hw : Window.encache .hamming N = some win) (l1 : data.length = N) (l2 : buf.length = N) :
    ∃ b, windowed N win data buf = some b ∧ Holds N (fun n => data.getD ((n + N / 2) % N) 0 * Window.shape .hamming N ((n + N / 2) % N)) b := by
  obtain ⟨win', w1, w2, w3⟩ := Window.encache_ok .hamming N
  obtain rfl : win' = win := Option.some.inj (w1.symm.trans hw)
  obtain ⟨b1, e1, g1⟩ := fill_part (new := fun n => data.getD n 0) (f := fun i buf => do
      let d ← data[i]?
      wr buf i d) (holds_of_length l2 0) (by
    intro i ys hi _
    rw [bind_ok (get_getD data i 0 (by omega))])
  obtain ⟨b2, e2, g2⟩ := fill_part (new := fun n => data.getD n 0 * Window.shape .hamming N n) (f := fun i src => do
      let s ← src[i]?
      let c ← win'[i]?
      wr src i (s * c)) g1 (by
    intro i ys hi hp
    rw [bind_ok (hp.get hi), bind_ok (w3 i hi)])
  obtain ⟨b3, e3, g3⟩ := shift_ok g2 (Or.inr hN)
  refine ⟨b3, ?_, g3⟩
  unfold windowed Window.cutInPlace
  rw [bind_ok e1, bind_ok e2]
  exact e3

theorem processTime_ok (hc : cfg.Fine) (hi : chromaInitialise cfg.fs cfg.fmin cfg.fmax cfg.bpo = some (dQ, uK, N)) (h2 : 2 ≤ N) {s : Chroma}
    (h : ChromaOk cfg N uK s) {m : KernelMem} (hm : m.Sized N) (data : List ℝ) (l1 : data.length = N) :
    ∃ s', Chroma.processTime m s data = some s' ∧ ChromaOk cfg N uK s' ∧
      s'.chroma = chromaVector cfg N (uK / cfg.bpo) (centredSpectrum N (fun n => data.getD n 0)) := by
  obtain ⟨rfl, n1, n2, n3, n4⟩ := chroma_facts hc hi
  have hN : N % 2 = 0 := by omega
  have e1 := withKernel_ok hc hi h hm
  obtain ⟨w, e2, w1, w2⟩ := withWindow_ok h hm
  obtain ⟨b, e3, g3⟩ := windowed_ok hN w1 l1 w2
  obtain ⟨d', ro', io', e4, r, a1, a2, a3, _⟩ := FFT.C24_forward N hN h2 (by omega) h.fft b s.re s.im (by rw [g3.1]) (by rw [h.re]) (by rw [h.im])
  have ok : ChromaOk cfg N uK { s with kernel := some (kernel N uK cfg.thresh (kernelOf cfg N)), window := some (w.1, b), fft := d', re := ro', im := io' } :=
    ⟨h.hcfg, h.hdQ, h.huK, h.hN, fun c hk => (Option.some.inj hk).symm, (fun v hv => by cases hv; exact ⟨w1, g3.1⟩), r, by rw [← h.re]; exact a1, by rw [← h.im]; exact a2,
      h.cqRe, h.cqIm, h.chroma⟩
  obtain ⟨s', e5, q1, q2⟩ := processFreq_ok hc hi ok hm ro' io' ok.re ok.im
  refine ⟨s', ?_, q1, ?_⟩
  · unfold Chroma.processTime
    rw [bind_ok e1, bind_ok e2, bind_ok (show windowed s.N w.1 data w.2 = some b by rw [h.hN]; exact e3), bind_ok e4]
    exact e5
  · rw [q2]
    unfold chromaVector rawChroma chromaValue cqValue
    congr 1
    refine List.map_congr_left fun b' _ => sum_congr rfl fun oct _ => ?_
    congr 1
    refine sum_congr rfl fun i hi => ?_
    have hi := mem_range.mp hi
    split_ifs with hcond
    · congr 1
      obtain ⟨x, y, q1, q2, q3⟩ := a3 (N - i) (by omega)
      beta_reduce
      rw [List.getD_eq_getElem?_getD, List.getD_eq_getElem?_getD, q1, q2]
      show (⟨x, y⟩ : ℂ) = _
      rw [q3]
      unfold centredSpectrum dft
      refine sum_congr rfl fun n hn => ?_
      dsimp only
      rw [show b.getD n 0 = b[n]?.getD 0 from List.getD_eq_getElem?_getD, g3.2 n (mem_range.mp hn)]
      rfl
    · rfl

theorem make_ok (hc : cfg.Fine) (hi : chromaInitialise cfg.fs cfg.fmin cfg.fmax cfg.bpo = some (dQ, uK, N)) (h2 : 2 ≤ N) {m : ChromaMem} (hm : m.Sized N uK cfg.bpo) :
    ∃ s, Chroma.make cfg m = some s ∧ ChromaOk cfg N uK s := by
  obtain ⟨rfl, n1, n2, n3, n4⟩ := chroma_facts hc hi
  obtain ⟨fft, e3, g3⟩ := FFT.C24_even_accepted N m.u (by omega) h2 (by omega)
  refine ⟨⟨cfg, quality cfg.bpo, uK, N, none, none, fft, m.re, m.im, m.cqRe, m.cqIm, m.chroma⟩, ?_, rfl, rfl, rfl, rfl, (fun c h => nomatch h), (fun c h => nomatch h), g3, hm.re, hm.im, hm.cqRe, hm.cqIm, hm.chroma⟩
  unfold Chroma.make
  rw [bind_ok hi, bind_ok e3]
  rfl

theorem reach_chroma (hc : cfg.Fine) (hi : chromaInitialise cfg.fs cfg.fmin cfg.fmax cfg.bpo = some (dQ, uK, N)) (h2 : 2 ≤ N) {s : Chroma}
    (h : ChromaReach cfg N uK s) : ChromaOk cfg N uK s := by
  induction h with
  | make hm e =>
    obtain ⟨s', e', ok⟩ := make_ok hc hi h2 hm
    obtain rfl := Option.some.inj (e'.symm.trans e)
    exact ok
  | time _ hm hl e ih =>
    obtain ⟨s', e', ok, _⟩ := processTime_ok hc hi h2 ih hm _ hl
    obtain rfl := Option.some.inj (e'.symm.trans e)
    exact ok
  | freq _ hm hl hl' e ih =>
    obtain ⟨s', e', ok, _⟩ := processFreq_ok hc hi ih hm _ _ hl hl'
    obtain rfl := Option.some.inj (e'.symm.trans e)
    exact ok

/-! ## The theorems -/

/-- **C72** Every usable configuration can be constructed, whatever the new arrays hold. The range is extended to whole octaves. -/
theorem C72_construct (hc : cfg.Fine) (hlong : 1 < quality cfg.bpo * cfg.fs / cfg.fmin) :
    ∃ uK N : Nat, chromaInitialise cfg.fs cfg.fmin cfg.fmax cfg.bpo = some (quality cfg.bpo, uK, N) ∧ 2 ≤ N ∧
      (uK : Int) = cfg.bpo * ⌈Real.log (cfg.fmax / cfg.fmin) / Real.log 2⌉ ∧ IsLeast {p : Int | MathInt.IsPow2 p ∧ ⌈quality cfg.bpo * cfg.fs / cfg.fmin⌉ ≤ p} N ∧
      ∀ m : ChromaMem, m.Sized N uK cfg.bpo → ∃ s, Chroma.make cfg m = some s ∧ ChromaReach cfg N uK s := by
  have hle : cfg.fmin ≤ cfg.fmin * (2 : ℝ) ^ (⌈Real.log (cfg.fmax / cfg.fmin) / Real.log 2⌉ : ℝ) := by
    refine le_mul_of_one_le_right hc.fmin.le (Real.one_le_rpow (by norm_num) ?_)
    exact_mod_cast Int.ceil_nonneg (div_nonneg (Real.log_nonneg ((one_le_div hc.fmin).mpr hc.range)) (Real.log_nonneg (by norm_num)))
  obtain ⟨uK, N, e, _, hl⟩ := C59_initialise cfg.fs cfg.fmin _ cfg.bpo hc.fs hc.fmin hle hc.bpo hc.size
  have hN : 2 ≤ N := by
    have h1 : 2 ≤ ⌈quality cfg.bpo * cfg.fs / cfg.fmin⌉ := by
      have : (1 : Int) < ⌈quality cfg.bpo * cfg.fs / cfg.fmin⌉ := Int.lt_ceil.mpr (by simpa using hlong)
      omega
    have := hl.1.2
    omega
  refine ⟨uK, N, e, hN, (C46_whole_octaves _ _ _ _ _ _ _ hc.fmin e).1, hl, fun m hm => ?_⟩
  obtain ⟨s, e', _⟩ := make_ok hc e hN hm
  exact ⟨s, e', .make hm e'⟩

/-- **C72** A call of the time-domain overload, after any history of calls of both: it succeeds, and the result depends on this frame only. It is the sum
over the octaves of the magnitudes of the constant-Q transform of the frame under a Hamming window centred in the frame, normalised as asked. -/
theorem C72_time (hc : cfg.Fine) (hi : chromaInitialise cfg.fs cfg.fmin cfg.fmax cfg.bpo = some (dQ, uK, N)) (h2 : 2 ≤ N) {s : Chroma}
    (h : ChromaReach cfg N uK s) {m : KernelMem} (hm : m.Sized N) (data : List ℝ) (hl : data.length = N) :
    ∃ s', Chroma.processTime m s data = some s' ∧ ChromaReach cfg N uK s' ∧
      s'.chroma = chromaVector cfg N (uK / cfg.bpo) (centredSpectrum N (fun n => data.getD n 0)) := by
  obtain ⟨s', e, _, q⟩ := processTime_ok hc hi h2 (reach_chroma hc hi h2 h) hm data hl
  exact ⟨s', e, .time h hm hl e, q⟩

/-- **C72** A call of the frequency-domain overload, after any history. -/
theorem C72_freq (hc : cfg.Fine) (hi : chromaInitialise cfg.fs cfg.fmin cfg.fmax cfg.bpo = some (dQ, uK, N)) (h2 : 2 ≤ N) {s : Chroma}
    (h : ChromaReach cfg N uK s) {m : KernelMem} (hm : m.Sized N) (real imag : List ℝ) (l1 : real.length = N) (l2 : imag.length = N) :
    ∃ s', Chroma.processFreq m s real imag = some s' ∧ ChromaReach cfg N uK s' ∧
      s'.chroma = chromaVector cfg N (uK / cfg.bpo) (fun k => ⟨real.getD k 0, imag.getD k 0⟩) := by
  obtain ⟨s', e, _, q⟩ := processFreq_ok hc hi (reach_chroma hc hi h2 h) hm real imag l1 l2
  exact ⟨s', e, .freq h hm l1 l2 e, q⟩

/-- **C72** Giving the frequency-domain overload the spectrum of the centred windowed frame is the same as giving the frame to the other. -/
theorem C72_overloads_agree (octaves : Nat) (x : Nat → ℝ) (real imag : List ℝ)
    (h : ∀ k, k < N → (⟨real.getD k 0, imag.getD k 0⟩ : ℂ) = centredSpectrum N x k) :
    chromaVector cfg N octaves (fun k => ⟨real.getD k 0, imag.getD k 0⟩) = chromaVector cfg N octaves (centredSpectrum N x) := by
  unfold chromaVector rawChroma chromaValue cqValue
  congr 1
  refine List.map_congr_left fun b' _ => sum_congr rfl fun oct _ => ?_
  congr 1
  refine sum_congr rfl fun i hi => ?_
  have hi := mem_range.mp hi
  split_ifs with hcond
  · congr 1
    exact h (N - i) (by omega)
  · rfl

end

section
variable {cfg : ChromaConfig}

theorem cqValue_smul (N : Nat) (thresh : ℝ) (W X : Nat → ℂ) (c : ℂ) : cqValue N thresh W (fun k => c * X k) = c * cqValue N thresh W X := by
  unfold cqValue
  rw [mul_sum]
  refine sum_congr rfl fun i _ => ?_
  split_ifs
  · ring
  · rw [mul_zero]

theorem centredSpectrum_smul (N : Nat) (x : Nat → ℝ) (c : ℝ) : centredSpectrum N (fun n => c * x n) = fun k => (c : ℂ) * centredSpectrum N x k := by
  funext k
  unfold centredSpectrum dft
  rw [mul_sum]
  refine sum_congr rfl fun j _ => ?_
  push_cast
  ring

theorem rawChroma_smul (N octaves : Nat) (X : Nat → ℂ) (c : ℂ) :
    rawChroma cfg N octaves (fun k => c * X k) = (rawChroma cfg N octaves X).map (‖c‖ * ·) := by
  unfold rawChroma chromaValue
  rw [List.map_map]
  refine List.map_congr_left fun b _ => ?_
  rw [Function.comp, mul_sum]
  refine sum_congr rfl fun oct _ => ?_
  rw [cqValue_smul, norm_mul]

theorem maxAbs_smul (c : ℝ) (l : List ℝ) : MathReal.maxAbs (l.map (c * ·)) = |c| * MathReal.maxAbs l := by
  obtain ⟨a0, a1, a2⟩ := MathReal.maxAbs_spec l
  obtain ⟨b0, b1, b2⟩ := MathReal.maxAbs_spec (l.map (c * ·))
  apply le_antisymm
  · rcases b2 with h | ⟨x, hx, h⟩
    · rw [h]; exact mul_nonneg (abs_nonneg _) a0
    · obtain ⟨y, hy, rfl⟩ := List.mem_map.mp hx
      rw [h, abs_mul]
      exact mul_le_mul_of_nonneg_left (a1 y hy) (abs_nonneg _)
  · rcases a2 with h | ⟨x, hx, h⟩
    · rw [h, mul_zero]; exact b0
    · rw [h, ← abs_mul]
      exact b1 _ (List.mem_map.mpr ⟨x, hx, rfl⟩)

theorem sum_smul_list (c : ℝ) (l : List ℝ) : MathReal.sum (l.map (c * ·)) = c * MathReal.sum l := by
  rw [MathReal.sum_eq, MathReal.sum_eq]
  induction l with
  | nil => simp
  | cons a l ih => rw [List.map_cons, List.sum_cons, List.sum_cons, ih]; ring

theorem rawChroma_nonneg (N octaves : Nat) (X : Nat → ℂ) : ∀ v ∈ rawChroma cfg N octaves X, 0 ≤ v := by
  intro v hv
  obtain ⟨b, _, rfl⟩ := List.mem_map.mp hv
  exact sum_nonneg fun _ _ => norm_nonneg _

theorem all_zero_of_sum {l : List ℝ} (h : ∀ v ∈ l, 0 ≤ v) (h0 : l.sum = 0) : ∀ v ∈ l, v = 0 := by
  induction l with
  | nil => intro v hv; cases hv
  | cons a l ih =>
    have h1 := h a (by simp)
    have h2 : 0 ≤ l.sum := List.sum_nonneg fun v hv => h v (by simp [hv])
    rw [List.sum_cons] at h0
    intro v hv
    rcases List.mem_cons.mp hv with rfl | hv
    · linarith
    · exact ih (fun v hv => h v (by simp [hv])) (by linarith) v hv

/-- **C72** The level of the audio only scales the chroma; with either normalisation it does not matter at all. -/
theorem C72_level (N octaves : Nat) (x : Nat → ℝ) (c : ℝ) (hc : c ≠ 0) :
    (cfg.norm = .none → chromaVector cfg N octaves (centredSpectrum N (fun n => c * x n)) = (chromaVector cfg N octaves (centredSpectrum N x)).map (|c| * ·)) ∧
    (cfg.norm ≠ .none → chromaVector cfg N octaves (centredSpectrum N (fun n => c * x n)) = chromaVector cfg N octaves (centredSpectrum N x)) := by
  have hc' : |c| ≠ 0 := abs_ne_zero.mpr hc
  have hnn := rawChroma_nonneg (cfg := cfg) N octaves (centredSpectrum N x)
  rw [centredSpectrum_smul]
  unfold chromaVector
  rw [rawChroma_smul, Complex.norm_real, Real.norm_eq_abs]
  revert hnn
  generalize rawChroma cfg N octaves (centredSpectrum N x) = l
  intro hnn
  have hz : (∀ v ∈ l, v = 0) → l.map (|c| * ·) = l := fun h => by
    rw [List.map_congr_left (g := id) (fun v hv => by rw [h v hv]; simp), List.map_id]
  refine ⟨fun hn => by rw [hn]; rfl, fun hn => ?_⟩
  cases hn' : cfg.norm with
  | none => exact absurd hn' hn
  | unitSum =>
    unfold MathReal.normaliseVec
    dsimp only
    rw [sum_smul_list]
    by_cases h0 : MathReal.sum l = 0
    · rw [if_neg (fun h => h (by rw [h0, mul_zero])), if_neg (fun h => h h0)]
      exact hz (all_zero_of_sum hnn (by rw [← MathReal.sum_eq]; exact h0))
    · rw [if_pos (mul_ne_zero hc' h0), if_pos h0, List.map_map]
      exact List.map_congr_left fun v _ => mul_div_mul_left _ _ hc'
  | unitMax =>
    unfold MathReal.normaliseVec
    dsimp only
    rw [maxAbs_smul, abs_abs]
    by_cases h0 : MathReal.maxAbs l = 0
    · rw [if_neg (fun h => h (by rw [h0, mul_zero])), if_neg (fun h => h h0)]
      exact hz fun v hv => abs_eq_zero.mp (le_antisymm (h0 ▸ (MathReal.maxAbs_spec l).2.1 v hv) (abs_nonneg v))
    · rw [if_pos (mul_ne_zero hc' h0), if_pos h0, List.map_map]
      exact List.map_congr_left fun v _ => mul_div_mul_left _ _ hc'

/-- **C72** The range of the values: never negative; with the greatest normalised to 1, at most 1, and 1 is reached unless all are zero; with the sum
normalised, they add up to 1 unless all are zero. -/
theorem C72_values (N octaves : Nat) (X : Nat → ℂ) :
    (chromaVector cfg N octaves X).length = cfg.bpo ∧ (∀ v ∈ chromaVector cfg N octaves X, 0 ≤ v) ∧
    (cfg.norm = .unitMax → (∀ v ∈ chromaVector cfg N octaves X, v ≤ 1) ∧ ((∃ v ∈ chromaVector cfg N octaves X, v = 1) ∨ ∀ v ∈ chromaVector cfg N octaves X, v = 0)) ∧
    (cfg.norm = .unitSum → (chromaVector cfg N octaves X).sum = 1 ∨ ∀ v ∈ chromaVector cfg N octaves X, v = 0) := by
  have hnn := rawChroma_nonneg (cfg := cfg) N octaves X
  have hlen : (rawChroma cfg N octaves X).length = cfg.bpo := by simp [rawChroma]
  unfold chromaVector
  revert hnn hlen
  generalize rawChroma cfg N octaves X = l
  intro hnn hlen
  have h0 : ∀ v ∈ MathReal.normaliseVec l cfg.norm, 0 ≤ v := by
    intro v hv
    unfold MathReal.normaliseVec at hv
    cases hn : cfg.norm with
    | none => rw [hn] at hv; exact hnn v hv
    | unitSum =>
      rw [hn] at hv
      dsimp only at hv
      split_ifs at hv
      · obtain ⟨w, hw, rfl⟩ := List.mem_map.mp hv
        exact div_nonneg (hnn w hw) (by rw [MathReal.sum_eq]; exact List.sum_nonneg hnn)
      · exact hnn v hv
    | unitMax =>
      rw [hn] at hv
      dsimp only at hv
      split_ifs at hv
      · obtain ⟨w, hw, rfl⟩ := List.mem_map.mp hv
        exact div_nonneg (hnn w hw) (MathReal.maxAbs_spec l).1
      · exact hnn v hv
  refine ⟨?_, h0, fun hn => ?_, fun hn => ?_⟩
  · unfold MathReal.normaliseVec
    cases cfg.norm <;> dsimp only <;> (try split_ifs) <;> simp [hlen]
  · rw [hn] at h0 ⊢
    obtain ⟨q1, q2⟩ := MathReal.C06_unitMax l
    by_cases hex : ∃ x ∈ l, x ≠ 0
    · obtain ⟨r1, ⟨y, hy, r2⟩, _⟩ := q1 hex
      exact ⟨fun v hv => le_trans (le_abs_self v) (r1 v hv), Or.inl ⟨y, hy, by rw [← r2, abs_of_nonneg (h0 y hy)]⟩⟩
    · have hz : ∀ v ∈ l, v = 0 := fun v hv => by by_contra h; exact hex ⟨v, hv, h⟩
      rw [q2 hz]
      exact ⟨fun v hv => by rw [hz v hv]; norm_num, Or.inr hz⟩
  · rw [hn]
    obtain ⟨q1, q2⟩ := MathReal.C06_unitSum l
    by_cases hs : l.sum = 0
    · rw [q2 hs]
      exact Or.inr (all_zero_of_sum hnn hs)
    · exact Or.inl (q1 hs).1

/-- **C72** Silence gives zeros, with every normalisation. -/
theorem C72_silence (N octaves : Nat) : ∀ v ∈ chromaVector cfg N octaves (centredSpectrum N (fun _ => 0)), v = 0 := by
  have hX : centredSpectrum N (fun _ => 0) = fun k => 0 * centredSpectrum N (fun _ => 0) k := by
    funext k
    unfold centredSpectrum dft
    simp
  have hz : ∀ v ∈ rawChroma cfg N octaves (centredSpectrum N (fun _ => 0)), v = 0 := by
    rw [hX, rawChroma_smul]
    intro v hv
    obtain ⟨w, _, rfl⟩ := List.mem_map.mp hv
    simp
  have hsum : (rawChroma cfg N octaves (centredSpectrum N (fun _ => 0))).sum = 0 := by
    rw [List.sum_eq_zero]; exact hz
  unfold chromaVector
  cases cfg.norm with
  | none => exact hz
  | unitSum => rw [(MathReal.C06_unitSum _).2 hsum]; exact hz
  | unitMax => rw [(MathReal.C06_unitMax _).2 hz]; exact hz

/-- **C72** `unityNormalise` divides by the greatest value, so it divides by zero when that is 0, for instance after silence. -/
theorem C72_unityNormalise (bpo : Nat) (src : List ℝ) (h : src.length = bpo) (hb : 0 < bpo) :
    ((∀ v ∈ src, v ≤ 0) → (∃ v ∈ src, v = 0) → unityNormalise bpo src = none) ∧
    ((∃ v ∈ src, 0 < v) → ∃ mx ∈ src, (∀ v ∈ src, v ≤ mx) ∧ unityNormalise bpo src = some (src.map (· / mx))) := by
  have hne : src ≠ [] := fun e => by rw [e] at h; simp at h; omega
  obtain ⟨_, m2, m3⟩ := (MathReal.C04_getFrameMinMax src).2 hne
  have ht : src.take bpo = src := List.take_of_length_le (by omega)
  unfold unityNormalise
  rw [ht]
  generalize hM : (MathReal.getFrameMinMax src).2 = M at *
  constructor
  · rintro hle ⟨v, hv, rfl⟩
    have : M = 0 := le_antisymm (hle M m2) (m3 0 hv).2
    refine loop_none_of_le (m := 1) (by omega) ?_
    obtain ⟨a, ha⟩ : ∃ a, src[0]? = some a := ⟨_, List.getElem?_eq_getElem (by omega)⟩
    rw [loop, loop, Option.bind_some]
    rw [bind_ok ha, if_pos this]
  · rintro ⟨v, hv, hpos⟩
    have hM0 : M ≠ 0 := (lt_of_lt_of_le hpos (m3 v hv).2).ne'
    obtain ⟨ys, e, g⟩ := fill_part (new := fun i => src.getD i 0 / M) (f := fun i (s : List ℝ) => do
        let v ← s[i]?
        if M = 0 then none else wr s i (v / M)) (holds_of_length h 0) (by
      intro i ys hi hp
      rw [bind_ok (hp.get hi), if_neg hM0])
    refine ⟨M, m2, fun v hv => (m3 v hv).2, ?_⟩
    rw [e]
    congr 1
    refine List.ext_getElem? fun i => ?_
    by_cases hi : i < bpo
    · rw [g.2 i hi, List.getElem?_map, get_getD src i 0 (by omega)]
      rfl
    · rw [List.getElem?_eq_none (by rw [g.1]; omega), List.getElem?_eq_none (by simp; omega)]

end

/-! ## A concrete case: one class in each of two octaves from 1 Hz, at 3 samples per second -/

/-- The configuration of the example. -/
noncomputable def demoConfig : ChromaConfig := ⟨3, 1, 4, 1, 0, .unitMax⟩

theorem demo_chroma : chromaInitialise demoConfig.fs demoConfig.fmin demoConfig.fmax demoConfig.bpo = some (quality 1, 2, 4) := by
  obtain ⟨uK, N, e, rfl, rfl⟩ := demo_initialise
  have h4 : Real.log 4 = 2 * Real.log 2 := by
    rw [show (4 : ℝ) = 2 ^ 2 by norm_num, Real.log_pow]; norm_num
  have hl2 : Real.log 2 ≠ 0 := (Real.log_pos (by norm_num)).ne'
  have h2 : Real.log (4 / 1) / Real.log 2 = 2 := by
    rw [div_one, h4]; field_simp
  unfold chromaInitialise demoConfig
  dsimp only
  rw [h2]
  have : (1 : ℝ) * (2 : ℝ) ^ ((⌈(2 : ℝ)⌉ : Int) : ℝ) = 4 := by
    rw [show ⌈(2 : ℝ)⌉ = 2 by norm_num]
    norm_num
  rw [this]
  exact e

theorem demo_fine : demoConfig.Fine := by
  have hq : quality 1 = 1 := by unfold quality; norm_num
  refine ⟨?_, ?_, ?_, ?_, ?_⟩ <;> unfold demoConfig <;> dsimp only <;> try norm_num
  rw [hq]
  norm_num

example : ∃ s s' : Chroma, Chroma.make demoConfig ⟨[9, 9, 9, 9], [9, 9, 9, 9], [9, 9], [9, 9], [9], 9⟩ = some s ∧
    Chroma.processTime ⟨[9, 9, 9, 9], [9, 9, 9, 9], [9, 9, 9, 9], [9, 9, 9, 9], 9, 9, [9, 9, 9, 9]⟩ s [1, 2, 3, 4] = some s' ∧
    s'.chroma = chromaVector demoConfig 4 2 (centredSpectrum 4 (fun n => [1, 2, 3, 4].getD n 0)) := by
  have hm : ChromaMem.Sized 4 2 demoConfig.bpo ⟨[9, 9, 9, 9], [9, 9, 9, 9], [9, 9], [9, 9], [9], 9⟩ := ⟨rfl, rfl, rfl, rfl, rfl⟩
  obtain ⟨s, e, _⟩ := make_ok demo_fine demo_chroma (by norm_num) hm
  obtain ⟨s', e', _, q⟩ := C72_time demo_fine demo_chroma (by norm_num) (.make hm e)
    (m := ⟨[9, 9, 9, 9], [9, 9, 9, 9], [9, 9, 9, 9], [9, 9, 9, 9], 9, 9, [9, 9, 9, 9]⟩) ⟨rfl, rfl, rfl, rfl, rfl⟩ [1, 2, 3, 4] rfl
  exact ⟨s, s', e, e', q⟩

example : unityNormalise 2 [0, 0] = none := (C72_unityNormalise 2 [0, 0] rfl (by norm_num)).1 (by simp) ⟨0, by simp⟩

end QM.ConstantQ
