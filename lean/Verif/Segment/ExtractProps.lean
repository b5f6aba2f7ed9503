import Verif.Segment.ExtractRun

/-! # C71: from audio to feature vectors to segments -/

namespace QM.Segment

open Finset QM.DFT QM.Decimator QM.ConstantQ

/-! ## Calls of `extractFeatures` one after another -/

/-- A block of audio, with the contents of the memory allocated during the call. -/
structure Call where
  q : QWork
  m : MWork
  audio : List ℝ

/-- Successive calls. -/
noncomputable def extractAll (p : Params) : List Call → Segmenter Analysis → Option (Segmenter Analysis)
  | [], s => some s
  | c :: rest, s => do
    let s ← extractFeatures p c.q c.m c.audio s
    extractAll p rest s

/-- The audio of all calls. -/
def audio (calls : List Call) : List ℝ := (calls.map Call.audio).flatten

/-- `y` is the audio after the decimation filter for factor `f`; for factor 1 there is no filter. -/
def Filtered (f : Nat) (x y : List ℝ) : Prop := (f ≠ 1 → Filter.DiffEq (bOf f) (aOf f) x y) ∧ (f = 1 → y = x)

/-- The spectrum of the kernel of bin `j` at the rate `rate`. -/
noncomputable def kernelSpectrum (p : Params) (rate : Int) (N j : Nat) : Nat → ℂ :=
  dft false N (atomC N (windowLength (quality p.nbins) rate p.fmin p.nbins j) (quality p.nbins))

/-- The constant-Q threshold. -/
noncomputable def cqThresh : ℝ := 0.0054

/-- The feature vector for the values `x` of a decimated block of `n` samples. -/
noncomputable def cqVector (p : Params) (rate : Int) (N uK n : Nat) (x : Nat → ℝ) : List ℝ :=
  (List.range uK).map (fun j => cqFeature N cqThresh (kernelSpectrum p rate N j) n x)

/-- The same for cepstra. -/
noncomputable def mfVector (rate : Int) (n : Nat) (x : Nat → ℝ) : List ℝ := (List.range 20).map (fun j => mfFeature rate 2048 n x j)

/-- **C71** The window size in samples is the product of the seconds and the rate plus 0.001, cut to an integer, if that is neither negative nor too large for
an `int`; otherwise there is no defined size. -/
theorem C71_window_size (p : Params) (fs : Int) (L : Nat) :
    windowSize p fs = some L ↔ Pitch.trunc (p.windowSize * fs + 0.001) = L ∧ L ≤ 2147483647 := by
  unfold windowSize samplesIn
  split_ifs with h
  · rw [Option.some_inj]
    omega
  · refine ⟨fun h => (by cases h), fun h' => absurd ?_ h⟩
    omega

/-- 0.6 s at 44100 Hz. -/
example : windowSize ⟨.constq, 0.2, 0.6, 62, 16000, 8, 40, 10, 20, 20⟩ 44100 = some 26460 := by
  rw [C71_window_size]
  refine ⟨?_, by norm_num⟩
  norm_num [Pitch.trunc]

/-! ## After initialisation -/

/-- A segmenter initialised for constant-Q or chroma features that has heard `xs`. -/
structure ReadyQ (p : Params) (fs : Int) (f L N uK : Nat) (xs ys : List ℝ) (s : Segmenter Analysis) : Prop where
  ftype : s.ftype = .constq ∨ s.ftype = .chroma
  rate : s.samplerate = fs
  size : windowSize p fs = some L
  ncoeff : s.ncoeff = uK
  even : N % 2 = 0
  two : 2 ≤ N
  int : N ≤ 2147483647
  pos : 0 < f
  objects : ∃ fft win dec, s.analysis = some ⟨.constq ⟨N, uK, kernel N uK cqThresh (kernelSpectrum p (fs.tdiv f) N)⟩ fft win, dec⟩ ∧ FFT.RReach N fft ∧
    (∀ w, win = some w → Window.encache .hamming N = some w) ∧ DecOk L f dec xs ys

/-- A segmenter initialised for cepstra that has heard `xs`. -/
structure ReadyM (p : Params) (fs : Int) (f L : Nat) (xs ys : List ℝ) (s : Segmenter Analysis) : Prop where
  ftype : s.ftype = .mfcc
  rate : s.samplerate = fs
  size : windowSize p fs = some L
  ncoeff : s.ncoeff = 20
  pos : 0 < f
  objects : ∃ m dec, s.analysis = some ⟨.mfcc m, dec⟩ ∧ Mfcc.Reach (mfccConfig (fs.tdiv f)) m ∧ DecOk L f dec xs ys

theorem mkDecimator_ok {p : Params} {fs : Int} {f L : Nat} (hf : 0 < f) (hL : windowSize p fs = some L) :
    ∃ dec, mkDecimator p fs f none = some dec ∧ DecOk L f dec [] [] := by
  unfold mkDecimator
  by_cases h : f > 1
  · have hd : Decimator.new (K := ℝ) L f = some _ := if_neg (by omega)
    refine ⟨_, ?_, Or.inr ⟨by omega, _, rfl, new_running L f _ hd⟩⟩
    rw [if_pos h, bind_ok hL, bind_ok hd]
    rfl
  · exact ⟨none, if_neg h, Or.inl ⟨by omega, rfl, rfl⟩⟩

theorem factor_facts {fs : Int} (hfs : 0 < fs) {r : Int} (hr : 8 ≤ r) {f : Nat} (h : decimationFactor (fs.toNat + 2) r fs = some f) :
    0 < f ∧ 0 < fs.tdiv f := by
  obtain ⟨f', q, e, h1, h2, h3⟩ := C44_decimationFactor (fs.toNat + 2) r fs (by omega) (by omega)
  obtain rfl : f' = f := Option.some.inj (e.symm.trans h)
  refine ⟨by omega, ?_⟩
  rw [Int.tdiv_eq_ediv_of_nonneg hfs.le]
  have hle : (f' : Int) ≤ fs := by
    by_contra hlt
    have h0 : fs / r = 0 := Int.ediv_eq_zero_of_lt hfs.le (by omega)
    have := h2.2 (show 1 ∈ {p : Nat | (∃ i : Nat, p = 2 ^ i) ∧ fs / r ≤ p} from ⟨⟨0, rfl⟩, by rw [h0]; decide⟩)
    omega
  have : 1 ≤ fs / (f' : Int) := (Int.le_ediv_iff_mul_le (by omega)).mpr (by omega)
  omega

/-- **C71** Initialising a new object for constant-Q or chroma features, for every rate and every configuration whose longest constant-Q window has from 2 to
2^30 samples: it succeeds, and prepares the decimation of C44, the transform of C59 at the decimated rate, and an FFT of its length. -/
theorem C71_initialise_constq (p : Params) (fs : Int) (s : Segmenter Analysis) (hty : s.ftype = .constq ∨ s.ftype = .chroma) (hnew : s.analysis = none)
    (hfs : 0 < fs) (h1 : 0 < p.fmin) (h2 : p.fmin ≤ p.fmax) (h3 : 0 < p.nbins) {f L uK N : Nat} {dQ : ℝ} (hf : decimationFactor (fs.toNat + 2) 11025 fs = some f)
    (hL : windowSize p fs = some L) (h4 : ⌈quality p.nbins * (fs.tdiv f : Int) / p.fmin⌉ ≤ 2 ^ 30)
    (hq : ConstantQ.initialise (fs.tdiv f : Int) p.fmin p.fmax p.nbins = some (dQ, uK, N)) (hN : 2 ≤ N)
    (w : IWork) (l1 : w.wRe.length = N) (l2 : w.wIm.length = N) (l3 : w.tRe.length = N) (l4 : w.tIm.length = N) :
    ∃ a, initialise p fs w s = some { s with analysis := some a, ncoeff := uK, samplerate := fs, hop := samplesIn p.hopSize fs } ∧
      ReadyQ p fs f L N uK [] [] { s with analysis := some a, ncoeff := uK, samplerate := fs, hop := samplesIn p.hopSize fs } := by
  obtain ⟨f0, f1⟩ := factor_facts hfs (by decide) hf
  obtain ⟨dec, e1, g1⟩ := mkDecimator_ok f0 hL
  have r0 : (0 : ℝ) < (fs.tdiv f : Int) := by exact_mod_cast f1
  have r1 : (0 : ℝ) < p.fmin := by exact_mod_cast h1
  have r2 : (p.fmin : ℝ) ≤ p.fmax := by exact_mod_cast h2
  obtain ⟨rfl, n1, n2, n3, n4⟩ := init_facts r0 r1 r2 h3 h4 hq
  have e2 := sparsekernel_ok n3 n1 (by omega) (quality p.nbins) (fs.tdiv f : Int) p.fmin cqThresh p.nbins n4 w.wRe w.wIm w.tRe w.tIm w.k1 w.k2 l1 l2 l3 l4 (uK := uK)
  have n3' : N % 2 = 0 := by omega
  obtain ⟨fft, e3, g3⟩ := FFT.C24_even_accepted N w.u n3' hN (by omega)
  refine ⟨⟨.constq ⟨N, uK, kernel N uK cqThresh (kernelSpectrum p (fs.tdiv f) N)⟩ fft none, dec⟩, ?_, hty, rfl, hL, rfl, n3', hN, by omega, f0,
    fft, none, dec, rfl, g3, (fun _ h => nomatch h), g1⟩
  have : initialiseConstQ p fs w s = some { s with
      analysis := some ⟨.constq ⟨N, uK, kernel N uK cqThresh (kernelSpectrum p (fs.tdiv f) N)⟩ fft none, dec⟩
      ncoeff := uK, samplerate := fs, hop := samplesIn p.hopSize fs } := by
    unfold initialiseConstQ
    rw [bind_ok hf, hnew, bind_ok e1, bind_ok hq]
    dsimp only
    rw [bind_ok (show sparsekernel N uK (quality p.nbins) (fs.tdiv f : Int) p.fmin 0.0054 p.nbins w.wRe w.wIm w.tRe w.tIm w.k1 w.k2 = _ from e2), bind_ok e3]
    rfl
  rw [← this]
  unfold initialise
  rcases hty with h | h <;> rw [h]

/-- **C71** Initialising a new object for cepstra, for every rate. -/
theorem C71_initialise_mfcc (p : Params) (fs : Int) (s : Segmenter Analysis) (hty : s.ftype = .mfcc) (hnew : s.analysis = none) (hfs : 0 < fs) {f L : Nat}
    (hf : decimationFactor (fs.toNat + 2) 22050 fs = some f) (hL : windowSize p fs = some L) (w : IWork) :
    ∃ a, initialise p fs w s = some { s with analysis := some a, ncoeff := 20, samplerate := fs, hop := samplesIn p.hopSize fs } ∧
      ReadyM p fs f L [] [] { s with analysis := some a, ncoeff := 20, samplerate := fs, hop := samplesIn p.hopSize fs } := by
  obtain ⟨f0, f1⟩ := factor_facts hfs (by decide) hf
  obtain ⟨dec, e1, g1⟩ := mkDecimator_ok f0 hL
  obtain ⟨m, e2⟩ := Mfcc.C64_make (mfccConfig (fs.tdiv f)) (show 2048 % 2 = 0 by decide) (show 2 ≤ 2048 by decide) (show 2048 ≤ 2147483647 by decide) w.u
  refine ⟨⟨.mfcc m, dec⟩, ?_, hty, rfl, hL, rfl, f0, m, dec, rfl, .make e2, g1⟩
  rw [show initialise p fs w s = initialiseMfcc p fs w s by unfold initialise; rw [hty]]
  unfold initialiseMfcc
  rw [bind_ok hf, hnew, bind_ok e1, bind_ok e2]
  rfl

/-! ## One call -/

theorem plain (rate : Int) : Plain (mfccConfig rate) :=
  ⟨show 2048 % 2 = 0 by decide, show 2 ≤ 2048 by decide, show 2048 ≤ 2147483647 by decide, rfl, rfl, rfl⟩

/-- The memory for a call has the right sizes. -/
structure QSizes (N uK : Nat) (w : QWork) : Prop where
  frame : w.frame.length = N
  real : w.real.length = N
  imag : w.imag.length = N
  cqre : w.cqre.length = uK
  cqim : w.cqim.length = uK

/-- The memory for a call has the right sizes. -/
structure MSizes (w : MWork) : Prop where
  frame : w.frame.length = 2048
  ccout : w.ccout.length = 20
  junk : ∀ k, (w.junk k).length = 2048

/-- **C71** A call with at least the required number of samples, whatever was heard before, as long as the frames do not reach beyond what the decimator
writes: one vector is added to the features, the mean over the frames of the magnitudes of the constant-Q transform of the filtered and decimated audio.

Full statement: the same for every call with at least the required number of samples, and with the window centred on the middle of the frame. See
`C71_unwritten_violation` and `C71_window_violation`. -/
theorem C71_call_constq_partial {p : Params} {fs : Int} {f L N uK : Nat} {xs ys : List ℝ} {s : Segmenter Analysis} (h : ReadyQ p fs f L N uK xs ys s)
    (c : Call) (hw : QSizes N uK c.q) (hlen : L ≤ c.audio.length) (hr : reach N (c.audio.length / f) ≤ written L f c.audio.length) :
    ∃ a y, extractFeatures p c.q c.m c.audio s = some { s with
        analysis := some a
        features := s.features ++ [cqVector p (fs.tdiv f) N uK (c.audio.length / f) (fun i => y.getD (f * i) 0)] } ∧
      y.length = (heard L f c.audio).length ∧
      ReadyQ p fs f L N uK (xs ++ heard L f c.audio) (ys ++ y) { s with
        analysis := some a
        features := s.features ++ [cqVector p (fs.tdiv f) N uK (c.audio.length / f) (fun i => y.getD (f * i) 0)] } := by
  obtain ⟨fft, win, dec, ha, o1, o2, o3⟩ := h.objects
  obtain ⟨fft', win', dec', y, e, q1, q2, q3, q4⟩ := extractConstQ_ok h.even h.two h.int h.pos cqThresh (kernelSpectrum p (fs.tdiv f) N) o1 o2 o3 c.q
    hw.frame hw.real hw.imag hw.cqre hw.cqim c.audio hlen hr s h.ncoeff
  refine ⟨⟨.constq ⟨N, uK, kernel N uK cqThresh (kernelSpectrum p (fs.tdiv f) N)⟩ fft' (some win'), dec'⟩, y, ?_, q3, h.ftype, h.rate, h.size, h.ncoeff, h.even, h.two, h.int, h.pos, fft', some win', dec', rfl, q1, (fun w hw => by cases hw; exact q2), q4⟩
  unfold extractFeatures
  rw [if_neg (by rcases h.ftype with h | h <;> rw [h] <;> decide), ha]
  dsimp only
  rw [bind_ok (show windowSize p s.samplerate = some L by rw [h.rate]; exact h.size), if_neg (by omega)]
  exact e

/-- **C71** The same for cepstra. -/
theorem C71_call_mfcc_partial {p : Params} {fs : Int} {f L : Nat} {xs ys : List ℝ} {s : Segmenter Analysis} (h : ReadyM p fs f L xs ys s)
    (c : Call) (hw : MSizes c.m) (hlen : L ≤ c.audio.length) (hr : reach 2048 (c.audio.length / f) ≤ written L f c.audio.length) :
    ∃ a y, extractFeatures p c.q c.m c.audio s = some { s with
        analysis := some a
        features := s.features ++ [mfVector (fs.tdiv f) (c.audio.length / f) (fun i => y.getD (f * i) 0)] } ∧
      y.length = (heard L f c.audio).length ∧
      ReadyM p fs f L (xs ++ heard L f c.audio) (ys ++ y) { s with
        analysis := some a
        features := s.features ++ [mfVector (fs.tdiv f) (c.audio.length / f) (fun i => y.getD (f * i) 0)] } := by
  obtain ⟨m, dec, ha, o1, o2⟩ := h.objects
  obtain ⟨m', dec', y, e, q1, q2, q3⟩ := extractMfcc_ok (plain (fs.tdiv f)) h.pos o1 o2 c.m hw.frame hw.ccout hw.junk c.audio hlen hr s h.ncoeff
  refine ⟨⟨.mfcc m', dec'⟩, y, ?_, q2, h.ftype, h.rate, h.size, h.ncoeff, h.pos, m', dec', rfl, q1, q3⟩
  unfold extractFeatures
  rw [if_neg (by rw [h.ftype]; decide), ha]
  dsimp only
  rw [bind_ok (show windowSize p s.samplerate = some L by rw [h.rate]; exact h.size), if_neg (by omega)]
  exact e

/-- **C71** A call with so many samples that the frames reach beyond what the decimator writes reads memory that was never written, although more samples than
required are accepted. -/
theorem C71_unwritten_violation {p : Params} {fs : Int} {f L N uK : Nat} {xs ys : List ℝ} {s : Segmenter Analysis} (h : ReadyQ p fs f L N uK xs ys s)
    (c : Call) (hlen : L ≤ c.audio.length) (hr : written L f c.audio.length < reach N (c.audio.length / f)) :
    extractFeatures p c.q c.m c.audio s = none := by
  obtain ⟨fft, win, dec, ha, o1, o2, o3⟩ := h.objects
  unfold extractFeatures
  rw [if_neg (by rcases h.ftype with h | h <;> rw [h] <;> decide), ha]
  dsimp only
  rw [bind_ok (show windowSize p s.samplerate = some L by rw [h.rate]; exact h.size), if_neg (by omega)]
  exact extractConstQ_none h.two h.pos _ o3 c.q c.audio hlen hr s

/-- **C71** The same for cepstra. -/
theorem C71_unwritten_mfcc_violation {p : Params} {fs : Int} {f L : Nat} {xs ys : List ℝ} {s : Segmenter Analysis} (h : ReadyM p fs f L xs ys s)
    (c : Call) (hlen : L ≤ c.audio.length) (hr : written L f c.audio.length < reach 2048 (c.audio.length / f)) :
    extractFeatures p c.q c.m c.audio s = none := by
  obtain ⟨m, dec, ha, o1, o2⟩ := h.objects
  have hsz : m.fftSize = 2048 := (Mfcc.reach_ok (plain _).even (plain _).two (plain _).int o1).size
  unfold extractFeatures
  rw [if_neg (by rw [h.ftype]; decide), ha]
  dsimp only
  rw [bind_ok (show windowSize p s.samplerate = some L by rw [h.rate]; exact h.size), if_neg (by omega)]
  exact extractMfcc_none h.pos (by rw [hsz]; decide) o2 c.m c.audio hlen (by rw [hsz]; exact hr) s

/-- **C71** Calls with fewer samples than required, before `initialise`, after `segment` or after the caller has provided features change nothing. -/
theorem C71_ignored (p : Params) (q : QWork) (m : MWork) (x : List ℝ) (s : Segmenter Analysis) :
    (s.analysis = none → extractFeatures p q m x s = some s) ∧ (s.ftype = .unknown → extractFeatures p q m x s = some s) ∧
    (∀ L, windowSize p s.samplerate = some L → x.length < L → extractFeatures p q m x s = some s) := by
  refine ⟨fun h => ?_, fun h => if_pos h, fun L hL hx => ?_⟩
  · unfold extractFeatures
    rw [h]
    exact ite_self _
  · unfold extractFeatures
    split_ifs
    · rfl
    · cases s.analysis with
      | none => rfl
      | some a =>
        dsimp only
        rw [bind_ok hL, if_pos hx]

/-- **C71** After `segment()` blocks of audio are ignored until the object is initialised again. -/
theorem C71_after_segment {inv : List (List ℝ) → List (List ℝ) × ℝ} {pca : List (List ℝ) → Nat → Nat → Option (List (List ℝ))} {rnd : Rand} {w : SWork}
    {s s' : Segmenter Analysis} (h : segment inv pca rnd w s = some s') (p : Params) (calls : List Call) : extractAll p calls s' = some s' := by
  have ha : s'.analysis = none := by
    unfold segment at h
    split_ifs at h
    · cases h; rfl
    · obtain ⟨q, _, h⟩ := Option.bind_eq_some_iff.mp h
      obtain ⟨q, _, h⟩ := Option.bind_eq_some_iff.mp h
      cases h; rfl
  induction calls with
  | nil => rfl
  | cons c rest ih =>
    rw [extractAll, bind_ok ((C71_ignored p c.q c.m c.audio s').1 ha)]
    exact ih

/-! ## All calls -/

theorem decOk_filtered {L f : Nat} {dec : Option (Decimator.State ℝ)} {xs ys : List ℝ} (h : DecOk L f dec xs ys) : Filtered f xs ys := by
  rcases h with ⟨h1, _, h2⟩ | ⟨h1, d, _, hr⟩
  · exact ⟨fun h => absurd h1 h, fun _ => h2⟩
  · exact ⟨hr.hd, fun h => absurd h h1⟩

theorem heard_exact {L f : Nat} {x : List ℝ} (h : x.length = L) : heard L f x = x := by
  unfold heard
  split_ifs
  · rfl
  · rw [← h, List.take_length]

theorem reach_exact (n L f : Nat) : reach n (L / f) ≤ written L f L := by
  unfold written
  split_ifs with h
  · subst h
    rw [Nat.div_one]
    exact min_le_left _ _
  · exact min_le_left _ _

theorem getD_append_at (y1 y2 : List ℝ) (L b n : Nat) (h : y1.length = L) : (y1 ++ y2).getD ((b + 1) * L + n) 0 = y2.getD (b * L + n) 0 := by
  rw [List.getD_eq_getElem?_getD, List.getD_eq_getElem?_getD, List.getElem?_append_right (by rw [h, Nat.succ_mul]; omega), h]
  congr 3
  rw [Nat.succ_mul]; omega

/-- What the calls give, block by block, from an object that is ready. -/
theorem calls_ok {p : Params} {R : List ℝ → List ℝ → Segmenter Analysis → Prop} {L f : Nat} (hf : 0 < f) (V : (Nat → ℝ) → List ℝ)
    (hV : ∀ x x', (∀ i, i < L / f → x i = x' i) → V x = V x') (Sz : Call → Prop)
    (one : ∀ xs ys s c, R xs ys s → c.audio.length = L → Sz c → ∃ a y, extractFeatures p c.q c.m c.audio s = some { s with
        analysis := some a, features := s.features ++ [V (fun i => y.getD (f * i) 0)] } ∧ y.length = L ∧
      R (xs ++ c.audio) (ys ++ y) { s with analysis := some a, features := s.features ++ [V (fun i => y.getD (f * i) 0)] }) :
    ∀ (calls : List Call) (xs ys : List ℝ) (s : Segmenter Analysis), R xs ys s → (∀ c ∈ calls, c.audio.length = L ∧ Sz c) →
      ∃ a y, extractAll p calls s = some { s with
          analysis := a
          features := s.features ++ (List.range calls.length).map (fun b => V (fun i => y.getD (b * L + f * i) 0)) } ∧
        y.length = calls.length * L ∧ R (xs ++ audio calls) (ys ++ y) { s with
          analysis := a
          features := s.features ++ (List.range calls.length).map (fun b => V (fun i => y.getD (b * L + f * i) 0)) }
  | [], xs, ys, s, h, _ => ⟨s.analysis, [], by simp [extractAll], by simp, by simpa [audio] using h⟩
  | c :: rest, xs, ys, s, h, hc => by
    obtain ⟨c1, c2⟩ := hc c (by simp)
    obtain ⟨a1, y1, e1, l1, r1⟩ := one xs ys s c h c1 c2
    obtain ⟨a2, y2, e2, l2, r2⟩ := calls_ok hf V hV Sz one rest _ _ _ r1 (fun c h => hc c (by simp [h]))
    have hfeat : s.features ++ [V (fun i => y1.getD (f * i) 0)] ++ (List.range rest.length).map (fun b => V (fun i => y2.getD (b * L + f * i) 0)) =
        s.features ++ (List.range (c :: rest).length).map (fun b => V (fun i => (y1 ++ y2).getD (b * L + f * i) 0)) := by
      rw [List.length_cons, List.range_succ_eq_map, List.map_cons, List.map_map, List.append_assoc]
      congr 1
      rw [List.singleton_append]
      congr 1
      · refine hV _ _ fun i hi => ?_
        have : f * i < y1.length := by
          rw [l1]
          calc f * i < f * (L / f) := Nat.mul_lt_mul_of_pos_left hi hf
            _ ≤ L := Nat.mul_div_le L f
        rw [Nat.zero_mul, Nat.zero_add, List.getD_eq_getElem?_getD, List.getD_eq_getElem?_getD, List.getElem?_append_left this]
      · refine List.map_congr_left fun b _ => ?_
        refine hV _ _ fun i hi => ?_
        rw [Nat.succ_eq_add_one, getD_append_at y1 y2 L b (f * i) l1]
    rw [hfeat] at e2 r2
    refine ⟨a2, y1 ++ y2, ?_, ?_, ?_⟩
    · rw [extractAll, bind_ok e1]
      exact e2
    · rw [List.length_append, l1, l2, List.length_cons, Nat.succ_mul]; omega
    · rw [show audio (c :: rest) = c.audio ++ audio rest from rfl, ← List.append_assoc, ← List.append_assoc]
      exact r2

theorem frameAt_congr {n p : Nat} {x x' : Nat → ℝ} (h : ∀ i, i < p → x i = x' i) : frameAt n p x = frameAt n p x' := by
  funext k i
  unfold frameAt
  split_ifs with hi
  · exact h _ hi
  · rfl

/-- **C71** A hop or window length that is meant to be `n` samples is `n` samples, although its product with the sample rate may come out a
little below `n`. -/
theorem C71_samples {secs : ℝ} {fs : Int} {n : Nat} (h1 : (n : ℝ) - 0.001 ≤ secs * fs) (h2 : secs * fs < n + 0.999) : samplesIn secs fs = n := by
  unfold samplesIn Pitch.trunc
  rw [if_pos (by have : (0 : ℝ) ≤ n := Nat.cast_nonneg n
                 linarith), Int.floor_eq_iff]
  push_cast
  constructor <;> linarith

/-- The default hop of 0.2 s at 44100 Hz, a little less than that in the computer. -/
example : samplesIn (0.2 - 1e-17) 44100 = 8820 := C71_samples (n := 8820) (by norm_num) (by norm_num)

/-- **C71** From a new object to features, constant Q: `initialise` and then any number of blocks of the required size succeed, for all memory contents. There is one
continuous stream `y`, the audio through the decimation filter, and vector `b` is computed from every `f`-th value of block `b` of it: value `j` is the
mean, over frames of `N` samples half overlapping, of the magnitude of bin `j` of the constant-Q transform. -/
theorem C71_features_constq_partial (p : Params) (fs : Int) (s : Segmenter Analysis) (hty : s.ftype = .constq ∨ s.ftype = .chroma) (hnew : s.analysis = none)
    (hfs : 0 < fs) (h1 : 0 < p.fmin) (h2 : p.fmin ≤ p.fmax) (h3 : 0 < p.nbins) {f L uK N : Nat} {dQ : ℝ} (hf : decimationFactor (fs.toNat + 2) 11025 fs = some f)
    (hL : windowSize p fs = some L) (h4 : ⌈quality p.nbins * (fs.tdiv f : Int) / p.fmin⌉ ≤ 2 ^ 30)
    (hq : ConstantQ.initialise (fs.tdiv f : Int) p.fmin p.fmax p.nbins = some (dQ, uK, N)) (hN : 2 ≤ N)
    (w : IWork) (l1 : w.wRe.length = N) (l2 : w.wIm.length = N) (l3 : w.tRe.length = N) (l4 : w.tIm.length = N)
    (calls : List Call) (hc : ∀ c ∈ calls, c.audio.length = L ∧ QSizes N uK c.q) :
    ∃ a y, ((initialise p fs w s).bind (extractAll p calls)) = some { s with
        analysis := a, ncoeff := uK, samplerate := fs, hop := samplesIn p.hopSize fs
        features := s.features ++ (List.range calls.length).map (fun b => cqVector p (fs.tdiv f) N uK (L / f) (fun i => y.getD (b * L + f * i) 0)) } ∧
      y.length = calls.length * L ∧ Filtered f (audio calls) y := by
  obtain ⟨a, e, r⟩ := C71_initialise_constq p fs s hty hnew hfs h1 h2 h3 hf hL h4 hq hN w l1 l2 l3 l4
  obtain ⟨a', y, e', ly, r'⟩ := calls_ok (p := p) (R := fun xs ys s => ReadyQ p fs f L N uK xs ys s) r.pos
    (fun x => cqVector p (fs.tdiv f) N uK (L / f) x) (fun x x' h => by
      unfold cqVector cqFeature
      rw [frameAt_congr h]) (fun c => QSizes N uK c.q) (fun xs ys s c h hl hs => by
      obtain ⟨a, y, g1, g2, g3⟩ := C71_call_constq_partial h c hs (by omega) (by rw [hl]; exact reach_exact N L f)
      rw [heard_exact hl] at g2 g3
      rw [hl] at g1 g2 g3
      exact ⟨a, y, g1, g2, g3⟩) calls [] [] _ r hc
  obtain ⟨_, _, dec, _, _, _, hd⟩ := r'.objects
  refine ⟨a', y, ?_, ly, by simpa using decOk_filtered hd⟩
  rw [e]
  exact e'

/-- **C71** The same for cepstra. -/
theorem C71_features_mfcc (p : Params) (fs : Int) (s : Segmenter Analysis) (hty : s.ftype = .mfcc) (hnew : s.analysis = none) (hfs : 0 < fs) {f L : Nat}
    (hf : decimationFactor (fs.toNat + 2) 22050 fs = some f) (hL : windowSize p fs = some L) (w : IWork)
    (calls : List Call) (hc : ∀ c ∈ calls, c.audio.length = L ∧ MSizes c.m) :
    ∃ a y, ((initialise p fs w s).bind (extractAll p calls)) = some { s with
        analysis := a, ncoeff := 20, samplerate := fs, hop := samplesIn p.hopSize fs
        features := s.features ++ (List.range calls.length).map (fun b => mfVector (fs.tdiv f) (L / f) (fun i => y.getD (b * L + f * i) 0)) } ∧
      y.length = calls.length * L ∧ Filtered f (audio calls) y := by
  obtain ⟨a, e, r⟩ := C71_initialise_mfcc p fs s hty hnew hfs hf hL w
  obtain ⟨a', y, e', ly, r'⟩ := calls_ok (p := p) (R := fun xs ys s => ReadyM p fs f L xs ys s) r.pos
    (fun x => mfVector (fs.tdiv f) (L / f) x) (fun x x' h => by
      unfold mfVector mfFeature
      rw [frameAt_congr h]) (fun c => MSizes c.m) (fun xs ys s c h hl hs => by
      obtain ⟨a, y, g1, g2, g3⟩ := C71_call_mfcc_partial h c hs (by omega) (by rw [hl]; exact reach_exact 2048 L f)
      rw [heard_exact hl] at g2 g3
      rw [hl] at g1 g2 g3
      exact ⟨a, y, g1, g2, g3⟩) calls [] [] _ r hc
  obtain ⟨_, dec, _, _, hd⟩ := r'.objects
  refine ⟨a', y, ?_, ly, by simpa using decOk_filtered hd⟩
  rw [e]
  exact e'

/-! ## To segments -/

theorem mfVector_length (rate : Int) (n : Nat) (x : Nat → ℝ) : (mfVector rate n x).length = 20 := by simp [mfVector]

theorem cqVector_length (p : Params) (rate : Int) (N uK n : Nat) (x : Nat → ℝ) : (cqVector p rate N uK n x).length = uK := by simp [cqVector]

theorem cqVector_nonneg (p : Params) (rate : Int) (N uK n : Nat) (x : Nat → ℝ) : ∀ v ∈ cqVector p rate N uK n x, 0 ≤ v := by
  intro v hv
  obtain ⟨j, _, rfl⟩ := List.mem_map.mp hv
  exact div_nonneg (sum_nonneg fun _ _ => _root_.norm_nonneg _) (Nat.cast_nonneg _)

variable {inv : List (List ℝ) → List (List ℝ) × ℝ} {pca : List (List ℝ) → Nat → Nat → Option (List (List ℝ))} {rnd : Rand} {sw : SWork}

/-- **C71** From audio to segments with cepstra, in one run of the real sequence of calls: construct, initialise, extract features block by block, segment. -/
theorem C71_segments_mfcc (p : Params) (fs r0 h0 : Int) (n0 t0 : Nat) (g0 : Int) (hty : p.ftype = .mfcc) (hfs : 0 < fs) {f L : Nat}
    (hf : decimationFactor (fs.toNat + 2) 22050 fs = some f) (hL : windowSize p fs = some L) (w : IWork)
    (calls : List Call) (hc : ∀ c ∈ calls, c.audio.length = L ∧ MSizes c.m) (hn : 2 ≤ calls.length) (hh : p.hlen ≤ calls.length)
    (hN : 0 < p.states) (hk : 1 ≤ p.nclusters) (hhop : 0 < samplesIn p.hopSize fs) (hinv : Inverts 20 inv)
    (hr : rnd.Valid) (ha : Shape2 calls.length 21 sw.arr) (hq : sw.q.length = calls.length) (hw : CSizes calls.length 20 p.states p.nclusters sw.c) :
    ∃ s y s', ((initialise p fs w (create p r0 h0 n0 t0 g0)).bind (extractAll p calls)) = some s ∧ Filtered f (audio calls) y ∧ y.length = calls.length * L ∧
      s.features = (List.range calls.length).map (fun b => mfVector (fs.tdiv f) (L / f) (fun i => y.getD (b * L + f * i) 0)) ∧
      segment inv pca rnd sw s = some s' ∧
      Tiles 0 s'.segments ((calls.length : Int) * samplesIn p.hopSize fs) ∧ TypesDiffer s'.segments ∧
      (∀ g ∈ s'.segments, 1 ≤ g.type ∧ g.type ≤ (p.nclusters : Int)) ∧ s'.segrate = fs ∧ s'.nsegtypes = p.nclusters := by
  obtain ⟨a, y, e, ly, hy⟩ := C71_features_mfcc p fs (create p r0 h0 n0 t0 g0) hty rfl hfs hf hL w calls hc
  have hlen : ((create p r0 h0 n0 t0 g0).features ++ (List.range calls.length).map (fun b => mfVector (fs.tdiv f) (L / f) (fun i => y.getD (b * L + f * i) 0))).length =
      calls.length := by simp [create]
  obtain ⟨s', q1, q2, q3, q4, q5⟩ := C68_mfcc (inv := inv) (pca := pca) (rnd := rnd) (sw := sw)
    (s := { create p r0 h0 n0 t0 g0 with
      analysis := a, ncoeff := 20, samplerate := fs, hop := samplesIn p.hopSize fs
      features := (create p r0 h0 n0 t0 g0).features ++ (List.range calls.length).map (fun b => mfVector (fs.tdiv f) (L / f) (fun i => y.getD (b * L + f * i) 0)) })
    hty (by dsimp only; rw [hlen]; exact hn) (by dsimp only; rw [hlen]; exact hh) (by
      intro r hr
      dsimp only at hr
      obtain ⟨b, _, rfl⟩ := List.mem_map.mp hr
      exact mfVector_length _ _ _) hN hk hhop hinv hr (by dsimp only; rw [hlen]; exact ha) (by dsimp only; rw [hlen]; exact hq) (by dsimp only; rw [hlen]; exact hw)
  dsimp only at q2
  rw [hlen] at q2
  refine ⟨_, y, s', e, hy, ly, rfl, q1, q2, q3, fun g hg => (q4 g hg).1, ?_, ?_⟩ <;> rw [q5] <;> rfl

/-- **C71** From audio to segments with chroma features. -/
theorem C71_segments_chroma_partial (p : Params) (fs r0 h0 : Int) (n0 t0 : Nat) (g0 : Int) (hty : p.ftype = .chroma) (hfs : 0 < fs)
    (h1 : 0 < p.fmin) (h2 : p.fmin ≤ p.fmax) (h3 : 0 < p.nbins) {f L uK N : Nat} {dQ : ℝ} (hf : decimationFactor (fs.toNat + 2) 11025 fs = some f)
    (hL : windowSize p fs = some L) (h4 : ⌈quality p.nbins * (fs.tdiv f : Int) / p.fmin⌉ ≤ 2 ^ 30)
    (hcq : ConstantQ.initialise (fs.tdiv f : Int) p.fmin p.fmax p.nbins = some (dQ, uK, N)) (hN2 : 2 ≤ N)
    (w : IWork) (l1 : w.wRe.length = N) (l2 : w.wIm.length = N) (l3 : w.tRe.length = N) (l4 : w.tIm.length = N)
    (calls : List Call) (hc : ∀ c ∈ calls, c.audio.length = L ∧ QSizes N uK c.q) (hn : 2 ≤ calls.length) (hh : p.hlen ≤ calls.length)
    (hN : 0 < p.states) (hk : 1 ≤ p.nclusters) (hhop : 0 < samplesIn p.hopSize fs) (hinv : Inverts p.nbins inv)
    (hr : rnd.Valid) (ha : Shape2 calls.length (uK + 1) sw.arr) (hq : sw.q.length = calls.length) (hch : Shape2 calls.length p.nbins sw.chroma)
    (hw : CSizes calls.length p.nbins p.states p.nclusters sw.c) :
    ∃ s y s', ((initialise p fs w (create p r0 h0 n0 t0 g0)).bind (extractAll p calls)) = some s ∧ Filtered f (audio calls) y ∧ y.length = calls.length * L ∧
      s.features = (List.range calls.length).map (fun b => cqVector p (fs.tdiv f) N uK (L / f) (fun i => y.getD (b * L + f * i) 0)) ∧
      segment inv pca rnd sw s = some s' ∧
      Tiles 0 s'.segments ((calls.length : Int) * samplesIn p.hopSize fs) ∧ TypesDiffer s'.segments ∧
      (∀ g ∈ s'.segments, 1 ≤ g.type ∧ g.type ≤ (p.nclusters : Int)) ∧ s'.segrate = fs ∧ s'.nsegtypes = p.nclusters := by
  obtain ⟨a, y, e, ly, hy⟩ := C71_features_constq_partial p fs (create p r0 h0 n0 t0 g0) (Or.inr hty) rfl hfs h1 h2 h3 hf hL h4 hcq hN2 w l1 l2 l3 l4 calls hc
  have hlen : ((create p r0 h0 n0 t0 g0).features ++
      (List.range calls.length).map (fun b => cqVector p (fs.tdiv f) N uK (L / f) (fun i => y.getD (b * L + f * i) 0))).length = calls.length := by simp [create]
  obtain ⟨s', q1, q2, q3, q4, q5⟩ := C68_chroma (inv := inv) (pca := pca) (rnd := rnd) (sw := sw)
    (s := { create p r0 h0 n0 t0 g0 with
      analysis := a, ncoeff := uK, samplerate := fs, hop := samplesIn p.hopSize fs
      features := (create p r0 h0 n0 t0 g0).features ++
        (List.range calls.length).map (fun b => cqVector p (fs.tdiv f) N uK (L / f) (fun i => y.getD (b * L + f * i) 0)) })
    hty (by dsimp only; rw [hlen]; exact hn) (by dsimp only; rw [hlen]; exact hh) (by
      intro r hr
      dsimp only at hr
      obtain ⟨b, _, rfl⟩ := List.mem_map.mp hr
      exact cqVector_length _ _ _ _ _ _) hN hk hhop hinv hr (by dsimp only; rw [hlen]; exact ha) (by dsimp only; rw [hlen]; exact hq)
      (by dsimp only; rw [hlen]; exact hch) (by dsimp only; rw [hlen]; exact hw)
  dsimp only at q2
  rw [hlen] at q2
  refine ⟨_, y, s', e, hy, ly, rfl, q1, q2, q3, fun g hg => (q4 g hg).1, ?_, ?_⟩ <;> rw [q5] <;> rfl

/-- **C71** From audio to segments with constant-Q features, of which there must be at least 20. The vectors must not be all zero decibels, see C67. -/
theorem C71_segments_constq_partial (p : Params) (fs r0 h0 : Int) (n0 t0 : Nat) (g0 : Int) (hty : p.ftype = .constq) (hfs : 0 < fs)
    (h1 : 0 < p.fmin) (h2 : p.fmin ≤ p.fmax) (h3 : 0 < p.nbins) {f L uK N : Nat} {dQ : ℝ} (hf : decimationFactor (fs.toNat + 2) 11025 fs = some f)
    (hL : windowSize p fs = some L) (h4 : ⌈quality p.nbins * (fs.tdiv f : Int) / p.fmin⌉ ≤ 2 ^ 30)
    (hcq : ConstantQ.initialise (fs.tdiv f : Int) p.fmin p.fmax p.nbins = some (dQ, uK, N)) (hN2 : 2 ≤ N) (h20 : 20 ≤ uK)
    (w : IWork) (l1 : w.wRe.length = N) (l2 : w.wIm.length = N) (l3 : w.tRe.length = N) (l4 : w.tIm.length = N)
    (calls : List Call) (hc : ∀ c ∈ calls, c.audio.length = L ∧ QSizes N uK c.q) (hn : 2 ≤ calls.length) (hh : p.hlen ≤ calls.length)
    (hdb : ∀ y, Filtered f (audio calls) y → ∀ b, b < calls.length →
      ∃ v ∈ cqVector p (fs.tdiv f) N uK (L / f) (fun i => y.getD (b * L + f * i) 0), decibels v ≠ 0)
    (hN : 0 < p.states) (hk : 1 ≤ p.nclusters) (hhop : 0 < samplesIn p.hopSize fs) (hinv : Inverts 21 inv)
    (hpca : ∀ x, Shape2 calls.length (uK + 1) x → ∃ z, pca x calls.length uK = some z ∧ Shape2 calls.length (uK + 1) z)
    (hr : rnd.Valid) (ha : Shape2 calls.length (uK + 1) sw.arr) (hq : sw.q.length = calls.length)
    (hw : CSizes calls.length 21 p.states p.nclusters sw.c) :
    ∃ s y s', ((initialise p fs w (create p r0 h0 n0 t0 g0)).bind (extractAll p calls)) = some s ∧ Filtered f (audio calls) y ∧ y.length = calls.length * L ∧
      s.features = (List.range calls.length).map (fun b => cqVector p (fs.tdiv f) N uK (L / f) (fun i => y.getD (b * L + f * i) 0)) ∧
      segment inv pca rnd sw s = some s' ∧
      Tiles 0 s'.segments ((calls.length : Int) * samplesIn p.hopSize fs) ∧ TypesDiffer s'.segments ∧
      (∀ g ∈ s'.segments, 1 ≤ g.type ∧ g.type ≤ (p.nclusters : Int)) ∧ s'.segrate = fs ∧ s'.nsegtypes = p.nclusters := by
  obtain ⟨a, y, e, ly, hy⟩ := C71_features_constq_partial p fs (create p r0 h0 n0 t0 g0) (Or.inl hty) rfl hfs h1 h2 h3 hf hL h4 hcq hN2 w l1 l2 l3 l4 calls hc
  have hlen : ((create p r0 h0 n0 t0 g0).features ++
      (List.range calls.length).map (fun b => cqVector p (fs.tdiv f) N uK (L / f) (fun i => y.getD (b * L + f * i) 0))).length = calls.length := by simp [create]
  obtain ⟨s', q1, q2, q3, q4, q5⟩ := C68_constq (inv := inv) (pca := pca) (rnd := rnd) (sw := sw)
    (s := { create p r0 h0 n0 t0 g0 with
      analysis := a, ncoeff := uK, samplerate := fs, hop := samplesIn p.hopSize fs
      features := (create p r0 h0 n0 t0 g0).features ++
        (List.range calls.length).map (fun b => cqVector p (fs.tdiv f) N uK (L / f) (fun i => y.getD (b * L + f * i) 0)) })
    hty (by dsimp only; rw [hlen]; exact hn) (by dsimp only; rw [hlen]; exact hh) (by
      intro r hr
      dsimp only at hr
      obtain ⟨b, _, rfl⟩ := List.mem_map.mp hr
      exact cqVector_length _ _ _ _ _ _) h20 (by
      intro r hr
      dsimp only at hr
      obtain ⟨b, _, rfl⟩ := List.mem_map.mp hr
      exact cqVector_nonneg _ _ _ _ _ _) (by
      intro r hr
      dsimp only at hr
      obtain ⟨b, hb, rfl⟩ := List.mem_map.mp hr
      exact hdb y hy b (List.mem_range.mp hb)) hN hk hhop hinv (by dsimp only; rw [hlen]; exact hpca) hr (by dsimp only; rw [hlen]; exact ha)
      (by dsimp only; rw [hlen]; exact hq) (by dsimp only; rw [hlen]; exact hw)
  dsimp only at q2
  rw [hlen] at q2
  refine ⟨_, y, s', e, hy, ly, rfl, q1, q2, q3, fun g hg => (q4 g hg).1, ?_, ?_⟩ <;> rw [q5] <;> rfl

/-! ## What goes wrong -/

/-- **C71** The window is applied after the halves of the frame have been exchanged: a click in the middle of a frame is heard with weight 0.08, a click at its
start with weight 1. The chromagram does it the other way round, C46. -/
theorem C71_window_violation (N : Nat) (h2 : 2 ≤ N) (he : N % 2 = 0) (k : Nat) :
    ‖cqSpectrum N (fun i => if i = N / 2 then 1 else 0) k‖ = 0.08 ∧ ‖cqSpectrum N (fun i => if i = 0 then 1 else 0) k‖ = 1 := by
  have hroot : ‖root false N‖ = 1 := by
    have h := conj_root false N
    have h0 : root false N ≠ 0 := Complex.exp_ne_zero _
    have h1 : (starRingEnd ℂ) (root false N) * root false N = 1 := by rw [h, inv_mul_cancel₀ h0]
    rw [← Complex.normSq_eq_conj_mul_self] at h1
    have h3 : Complex.normSq (root false N) = 1 := by exact_mod_cast h1
    rw [Complex.normSq_eq_norm_sq] at h3
    nlinarith [_root_.norm_nonneg (root false N)]
  have key : ∀ (m c : Nat), c < N → (∀ n, n < N → ((n + N / 2) % N = m ↔ n = c)) →
      ‖cqSpectrum N (fun i => if i = m then 1 else 0) k‖ = |Window.shape .hamming N c| := by
    intro m c hc h
    unfold cqSpectrum
    rw [dft_eq, sum_eq_single c]
    · beta_reduce
      rw [if_pos ((h c hc).mpr rfl), one_mul, norm_mul, norm_pow, hroot, one_pow, mul_one, Complex.norm_real, Real.norm_eq_abs]
    · intro n hn hne
      beta_reduce
      rw [if_neg (fun hh => hne ((h n (mem_range.mp hn)).mp hh))]
      simp
    · intro hh
      exact absurd (mem_range.mpr hc) hh
  constructor
  · rw [key (N / 2) 0 (by omega)]
    · rw [show Window.shape .hamming N 0 = 0.08 by
        unfold Window.shape
        dsimp only
        rw [if_neg (by omega)]
        simp
        norm_num]
      norm_num
    · intro n hn
      constructor
      · intro h
        by_cases h' : n + N / 2 < N
        · rw [Nat.mod_eq_of_lt h'] at h; omega
        · rw [Nat.mod_eq_sub_mod (by omega), Nat.mod_eq_of_lt (by omega)] at h; omega
      · rintro rfl
        rw [Nat.zero_add, Nat.mod_eq_of_lt (by omega)]
  · rw [key 0 (N / 2) (by omega)]
    · rw [show Window.shape .hamming N (N / 2) = 1 by
        unfold Window.shape
        dsimp only
        rw [if_neg (by omega)]
        have : 2 * Real.pi * ((N / 2 : Nat) : ℝ) / N = Real.pi := by
          have hN : (N : ℝ) = 2 * ((N / 2 : Nat) : ℝ) := by exact_mod_cast (show N = 2 * (N / 2) by omega)
          have h0 : ((N / 2 : Nat) : ℝ) ≠ 0 := by exact_mod_cast (show N / 2 ≠ 0 by omega)
          rw [hN]
          field_simp
        rw [this, Real.cos_pi]
        norm_num]
      norm_num
    · intro n hn
      constructor
      · intro h
        by_cases h' : n + N / 2 < N
        · rw [Nat.mod_eq_of_lt h'] at h; omega
        · rw [Nat.mod_eq_sub_mod (by omega), Nat.mod_eq_of_lt (by omega)] at h; omega
      · rintro rfl
        rw [show N / 2 + N / 2 = N by omega, Nat.mod_self]

/-- **C71** An object that has a decimator and is initialised again, before `segment()`, at a rate that needs none keeps the old decimator, which is given blocks
of the new size. When those are shorter, calls with exactly the required number of samples run over the ends of the arrays. -/
theorem C71_stale_decimator_violation {p : Params} {fs fs' : Int} {f L L' : Nat} {xs ys : List ℝ} {s : Segmenter Analysis} (h : ReadyM p fs f L xs ys s) (hf : f ≠ 1)
    (hf' : decimationFactor (fs'.toNat + 2) 22050 fs' = some 1) (hL' : windowSize p fs' = some L') (hlt : L' / f < L / f) (w : IWork) :
    ∃ s', initialise p fs' w s = some s' ∧ s'.samplerate = fs' ∧ ∀ c : Call, c.audio.length = L' → extractFeatures p c.q c.m c.audio s' = none := by
  obtain ⟨m, dec, ha, _, o2⟩ := h.objects
  obtain ⟨d, rfl, hr⟩ : ∃ d, dec = some d ∧ Running L f d xs ys := by
    rcases o2 with ⟨h1, _⟩ | ⟨_, d, h1, h2⟩
    · exact absurd h1 hf
    · exact ⟨d, h1, h2⟩
  obtain ⟨m', e2⟩ := Mfcc.C64_make (mfccConfig (fs'.tdiv (1 : Nat))) (show 2048 % 2 = 0 by decide) (show 2 ≤ 2048 by decide) (show 2048 ≤ 2147483647 by decide) w.u
  refine ⟨{ s with analysis := some ⟨.mfcc m', some d⟩, ncoeff := 20, samplerate := fs', hop := samplesIn p.hopSize fs' }, ?_, rfl, ?_⟩
  · rw [show initialise p fs' w s = initialiseMfcc p fs' w s by unfold initialise; rw [h.ftype]]
    unfold initialiseMfcc
    rw [bind_ok hf', bind_ok (show mkDecimator p fs' 1 s.analysis = some (some d) by unfold mkDecimator; rw [if_neg (by omega), ha]; rfl), bind_ok e2]
    rfl
  · intro c hc
    unfold extractFeatures
    rw [if_neg (by rw [show _ = FeatureType.mfcc from h.ftype]; decide)]
    dsimp only
    rw [bind_ok hL', if_neg (by omega)]
    unfold extractMfcc source
    dsimp only
    rw [hr.hf, hr.hO, hc, if_pos (Or.inr hlt)]
    rfl

/-! ## Examples -/

/-- Cepstra from windows of a second every half second. -/
noncomputable def demoParams : Params := ⟨.mfcc, 1 / 2, 1, 1, 3, 1, 3, 2, 2, 3⟩

theorem demo_factor : decimationFactor ((44100 : Int).toNat + 2) 22050 44100 = some 2 := by decide +kernel

theorem demo_size : windowSize demoParams 44100 = some 44100 := by
  have h : samplesIn demoParams.windowSize 44100 = 44100 := by
    unfold samplesIn Pitch.trunc demoParams
    norm_num
  unfold windowSize
  rw [h]
  rfl

theorem demo_hop : samplesIn demoParams.hopSize 44100 = 22050 := by
  unfold samplesIn Pitch.trunc demoParams
  norm_num

noncomputable def demoIWork (N : Nat) : IWork := ⟨List.replicate N 5, List.replicate N 6, List.replicate N 7, List.replicate N 8, 9, 10, 11⟩

/-- A block of a rising ramp. -/
noncomputable def demoCall (n N uK : Nat) : Call where
  q := ⟨List.replicate N 1, List.replicate N 2, List.replicate N 3, List.replicate uK 4, List.replicate uK 5⟩
  m := ⟨List.replicate 2048 1, List.replicate 20 2, fun _ => List.replicate 2048 3⟩
  audio := (List.range n).map (fun i : Nat => (i : ℝ))

theorem demo_msizes (n N uK : Nat) : MSizes (demoCall n N uK).m :=
  ⟨List.length_replicate .., List.length_replicate .., fun _ => List.length_replicate ..⟩

theorem demo_audio (n N uK : Nat) : (demoCall n N uK).audio.length = n := by
  rw [show (demoCall n N uK).audio = (List.range n).map (fun i : Nat => (i : ℝ)) from rfl, List.length_map, List.length_range]

theorem of_mem_two {c a : Call} (h : c ∈ [a, a]) : c = a := by simpa using h

/-- Two seconds of audio at 44100 Hz, decimated by two, become segments. -/
example : ∃ s y s', ((initialise demoParams 44100 (demoIWork 2) (create demoParams 0 0 0 0 0)).bind
      (extractAll demoParams [demoCall 44100 0 0, demoCall 44100 0 0])) = some s ∧
    Filtered 2 (audio [demoCall 44100 0 0, demoCall 44100 0 0]) y ∧ y.length = 2 * 44100 ∧
    s.features = (List.range 2).map (fun b => mfVector ((44100 : Int).tdiv (2 : Nat)) (44100 / 2) (fun i => y.getD (b * 44100 + 2 * i) 0)) ∧
    segment (fun _ => (grid 20 20 1, 1)) (fun x _ _ => some x) demoRand ⟨grid 2 21 7, List.replicate 2 7, [], work 2 20 3 2⟩ s = some s' ∧
    Tiles 0 s'.segments ((2 : Nat) * samplesIn demoParams.hopSize 44100) ∧ TypesDiffer s'.segments ∧
    (∀ g ∈ s'.segments, 1 ≤ g.type ∧ g.type ≤ ((2 : Nat) : Int)) ∧ s'.segrate = 44100 ∧ s'.nsegtypes = 2 :=
  C71_segments_mfcc demoParams 44100 0 0 0 0 0 rfl (by decide) demo_factor demo_size _ [demoCall 44100 0 0, demoCall 44100 0 0] (by
    intro c hc
    obtain rfl : c = demoCall 44100 0 0 := of_mem_two hc
    exact ⟨demo_audio _ _ _, demo_msizes _ _ _⟩) (by simp) (by simp [demoParams]) (by simp [demoParams]) (by simp [demoParams])
    (by rw [demo_hop]; decide) (demo_inverts 20) demoRand_valid (grid_shape _ _ _) rfl (work_sizes 2 20 3 2)

/-- A call with twice as many samples as required reads memory that was never written. -/
example : ∃ s, initialise demoParams 44100 (demoIWork 2) (create demoParams 0 0 0 0 0) = some s ∧
    extractFeatures demoParams (demoCall 88200 0 0).q (demoCall 88200 0 0).m (demoCall 88200 0 0).audio s = none := by
  obtain ⟨a, e, r⟩ := C71_initialise_mfcc demoParams 44100 (create demoParams 0 0 0 0 0) rfl rfl (by decide) demo_factor demo_size (demoIWork 2)
  refine ⟨_, e, C71_unwritten_mfcc_violation r (demoCall 88200 0 0) ?_ ?_⟩
  · rw [demo_audio]; omega
  · rw [demo_audio]
    decide

/-- An object used at 44100 Hz and initialised again for 22050 Hz overruns its arrays at the first block. -/
example : ∃ s s', initialise demoParams 44100 (demoIWork 2) (create demoParams 0 0 0 0 0) = some s ∧ initialise demoParams 22050 (demoIWork 2) s = some s' ∧
    extractFeatures demoParams (demoCall 22050 0 0).q (demoCall 22050 0 0).m (demoCall 22050 0 0).audio s' = none := by
  obtain ⟨a, e, r⟩ := C71_initialise_mfcc demoParams 44100 (create demoParams 0 0 0 0 0) rfl rfl (by decide) demo_factor demo_size (demoIWork 2)
  have hs : windowSize demoParams 22050 = some 22050 := by
    have h : samplesIn demoParams.windowSize 22050 = 22050 := by
      unfold samplesIn Pitch.trunc demoParams
      norm_num
    unfold windowSize
    rw [h]
    rfl
  obtain ⟨s', e', _, h⟩ := C71_stale_decimator_violation r (by decide) (fs' := 22050) (by decide +kernel) hs (by decide) (demoIWork 2)
  exact ⟨_, s', e, e', h _ (demo_audio _ _ _)⟩

/-- Constant-Q features of two octaves from blocks of twelve samples at 3 Hz. -/
noncomputable def demoQ : Params := ⟨.chroma, 2, 4, 1, 4, 1, 3, 2, 2, 3⟩

example : ∃ a y, ((initialise demoQ 3 (demoIWork 4) (create demoQ 0 0 0 0 0)).bind (extractAll demoQ [demoCall 12 4 2, demoCall 12 4 2])) =
      some { create demoQ 0 0 0 0 0 with
        analysis := a, ncoeff := 2, samplerate := 3, hop := samplesIn demoQ.hopSize 3
        features := [] ++ (List.range 2).map (fun b => cqVector demoQ ((3 : Int).tdiv (1 : Nat)) 4 2 (12 / 1) (fun i => y.getD (b * 12 + 1 * i) 0)) } ∧
      y.length = 2 * 12 ∧ Filtered 1 (audio [demoCall 12 4 2, demoCall 12 4 2]) y := by
  obtain ⟨uK, N, h, rfl, rfl⟩ := demo_initialise
  have hq : quality demoQ.nbins = 1 := by unfold quality demoQ; norm_num
  have hs : windowSize demoQ 3 = some 12 := by
    have h : samplesIn demoQ.windowSize 3 = 12 := by
      unfold samplesIn Pitch.trunc demoQ
      norm_num
    unfold windowSize
    rw [h]
    rfl
  exact C71_features_constq_partial demoQ 3 (create demoQ 0 0 0 0 0) (Or.inr rfl) rfl (by decide) (by simp [demoQ]) (by simp [demoQ]) (by simp [demoQ])
    (f := 1) (by decide +kernel) hs (by rw [hq]; norm_num [demoQ]) (dQ := quality 1) (uK := 2) (N := 4)
    (by simpa [demoQ] using h) (by decide) (demoIWork 4) rfl rfl rfl rfl
    [demoCall 12 4 2, demoCall 12 4 2] (by
      intro c hc
      obtain rfl : c = demoCall 12 4 2 := by simpa using hc
      exact ⟨demo_audio _ _ _, ⟨rfl, rfl, rfl, rfl, rfl⟩⟩)

end QM.Segment
