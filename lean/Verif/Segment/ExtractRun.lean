import Verif.Segment.ExtractLemmas

/-! # The extraction of features, frame by frame -/

namespace QM.Segment

open Finset QM.DFT QM.Decimator QM.ConstantQ

/-! ## Constant Q -/

theorem frameSpectrum_ok {N : Nat} (hN : N % 2 = 0) (h1 : 2 ≤ N) (h2 : N ≤ 2147483647) {fft : FFT.RD} (hd : FFT.RReach N fft) {win : List ℝ}
    (hw : Window.encache .hamming N = some win) {g : Nat → ℝ} {frame real imag : List ℝ} (hf : Holds N g frame) (l3 : real.length = N) (l4 : imag.length = N) :
    ∃ frame' fft' re im, frameSpectrum N win fft frame real imag = some (frame', fft', re, im) ∧ frame'.length = N ∧ FFT.RReach N fft' ∧ re.length = N ∧
      im.length = N ∧ ∀ k, k < N → (⟨re.getD k 0, im.getD k 0⟩ : ℂ) = cqSpectrum N g k := by
  obtain ⟨win', w1, w2, w3⟩ := Window.encache_ok .hamming N
  obtain rfl : win' = win := Option.some.inj (w1.symm.trans hw)
  obtain ⟨b1, e1, g1⟩ := ConstantQ.shift_ok hf (Or.inr hN)
  obtain ⟨b2, e2, g2⟩ := fill_part (new := fun n => g ((n + N / 2) % N) * Window.shape .hamming N n) (f := fun i src => do
      let s ← src[i]?
      let c ← win'[i]?
      wr src i (s * c)) g1 (by
    intro i ys hi hp
    rw [bind_ok (hp.get hi), bind_ok (w3 i hi)])
  obtain ⟨d', ro', io', e4, r, a1, a2, a3, _⟩ := FFT.C24_forward N hN h1 h2 hd b2 real imag (by rw [g2.1]) (by omega) (by omega)
  refine ⟨b2, d', ro', io', ?_, g2.1, r, by omega, by omega, fun k hk => ?_⟩
  · unfold frameSpectrum
    rw [bind_ok e1]
    unfold Window.cutInPlace
    rw [bind_ok e2, bind_ok e4]
    rfl
  · obtain ⟨a, b, q1, q2, q3⟩ := a3 k hk
    rw [List.getD_eq_getElem?_getD, List.getD_eq_getElem?_getD, q1, q2]
    show (⟨a, b⟩ : ℂ) = _
    rw [q3]
    unfold cqSpectrum dft
    refine sum_congr rfl fun n hn => ?_
    dsimp only
    rw [show b2.getD n 0 = b2[n]?.getD 0 from List.getD_eq_getElem?_getD, g2.2 n (mem_range.mp hn)]
    rfl

/-- The state between frames: `G` is the sum so far. -/
structure QOk (N uK : Nat) (G : Nat → ℝ) (s : QState) : Prop where
  fft : FFT.RReach N s.fft
  frame : s.work.frame.length = N
  real : s.work.real.length = N
  imag : s.work.imag.length = N
  cqre : s.work.cqre.length = uK
  cqim : s.work.cqim.length = uK
  cq : Holds uK G s.cq

theorem addMagnitudes_ok {m : Nat} {A B G : Nat → ℝ} {a b v : List ℝ} (ha : Holds m A a) (hb : Holds m B b) (hv : Holds m G v) :
    ∃ v', addMagnitudes m a b v = some v' ∧ Holds m (fun j => G j + ‖(⟨A j, B j⟩ : ℂ)‖) v' := by
  refine fill_part (new := fun j => G j + ‖(⟨A j, B j⟩ : ℂ)‖) (f := fun i (cq : List ℝ) => do
    let v ← cq[i]?
    let x ← a[i]?
    let y ← b[i]?
    wr cq i (v + Real.sqrt (x * x + y * y))) hv (fun i ys hi hp => ?_)
  rw [bind_ok (hp.get hi), bind_ok (ha.2 i hi), bind_ok (hb.2 i hi), Complex.norm_def, Complex.normSq_mk]

theorem cqStep_ok {N uK : Nat} (hN : N % 2 = 0) (h1 : 2 ≤ N) (h2 : N ≤ 2147483647) {win : List ℝ} (hw : Window.encache .hamming N = some win) (thresh : ℝ)
    (W : Nat → Nat → ℂ) {p k : Nat} {src : List (Option ℝ)} {x : Nat → ℝ} (hsrc : ∀ i, i < reach N p → src[i]? = some (some (x i)))
    (hk : k < frameCount N p) {G : Nat → ℝ} {s : QState} (hs : QOk N uK G s) :
    ∃ s', cqStep ⟨N, uK, kernel N uK thresh W⟩ uK win p src (k * (N / 2)) s = some s' ∧
      QOk N uK (fun j => G j + ‖cqValue N thresh (W j) (cqSpectrum N (frameAt N p x k))‖) s' := by
  obtain ⟨f, e1, g1⟩ := fillFrame_ok hsrc hk hs.frame
  obtain ⟨f', fft', re, im, e2, g2, g3, g4, g5, g6⟩ := frameSpectrum_ok hN h1 h2 hs.fft hw g1 hs.real hs.imag
  have e3 := C45_split N uK (kernel N uK thresh W) re im s.work.cqre s.work.cqim (C59_valid N uK thresh W) g4 g5 hs.cqre hs.cqim
  have hR : ∀ F : Nat → ℝ, Holds uK F ((List.range uK).map F) := fun F =>
    ⟨by simp, fun j hj => by rw [List.getElem?_map, List.getElem?_range hj]; rfl⟩
  obtain ⟨cq, e4, g7⟩ := addMagnitudes_ok (hR (fun row => innerRe (kernel N uK thresh W) row (mirror N) (fun k => re.getD k 0) (fun k => im.getD k 0)))
    (hR (fun row => innerIm (kernel N uK thresh W) row (mirror N) (fun k => re.getD k 0) (fun k => im.getD k 0))) hs.cq
  refine ⟨⟨fft', ⟨f', re, im,
      (List.range uK).map (fun row => innerRe (kernel N uK thresh W) row (mirror N) (fun k => re.getD k 0) (fun k => im.getD k 0)),
      (List.range uK).map (fun row => innerIm (kernel N uK thresh W) row (mirror N) (fun k => re.getD k 0) (fun k => im.getD k 0))⟩, cq⟩, ?_, g3, g2, g4, g5, (hR _).1, (hR _).1, g7.congr fun j hj => ?_⟩
  · unfold cqStep
    rw [bind_ok e1, bind_ok e2, bind_ok e3, bind_ok e4]
    rfl
  · beta_reduce
    rw [C59_bin thresh W hj]
    congr 2
    unfold cqValue
    refine sum_congr rfl fun i hi => ?_
    have hi := mem_range.mp hi
    by_cases h : thresh * thresh < Complex.normSq (W j i) ∧ i ≠ 0
    · rw [if_pos h, if_pos h, g6 (N - i) (by omega)]
    · rw [if_neg h, if_neg h]

/-- One call for constant-Q features. -/
theorem extractConstQ_ok {N uK L f : Nat} (hN : N % 2 = 0) (h1 : 2 ≤ N) (h2 : N ≤ 2147483647) (hf : 0 < f) (thresh : ℝ) (W : Nat → Nat → ℂ) {fft : FFT.RD}
    (hfft : FFT.RReach N fft) {win : Option (List ℝ)} (hwin : ∀ w, win = some w → Window.encache .hamming N = some w)
    {dec : Option (Decimator.State ℝ)} {xs ys : List ℝ} (hdec : DecOk L f dec xs ys) (w : QWork) (l1 : w.frame.length = N) (l2 : w.real.length = N)
    (l3 : w.imag.length = N) (l4 : w.cqre.length = uK) (l5 : w.cqim.length = uK) (blk : List ℝ) (hb : L ≤ blk.length)
    (hr : reach N (blk.length / f) ≤ written L f blk.length) (s : Segmenter Analysis) (hn : s.ncoeff = uK) :
    ∃ fft' win' dec' y, extractConstQ w blk ⟨N, uK, kernel N uK thresh W⟩ fft win dec s = some { s with
        analysis := some ⟨.constq ⟨N, uK, kernel N uK thresh W⟩ fft' (some win'), dec'⟩
        features := s.features ++ [(List.range uK).map (fun j => cqFeature N thresh (W j) (blk.length / f) (fun i => y.getD (f * i) 0))] } ∧
      FFT.RReach N fft' ∧ Window.encache .hamming N = some win' ∧ y.length = (heard L f blk).length ∧ DecOk L f dec' (xs ++ heard L f blk) (ys ++ y) := by
  obtain ⟨win', hw', hm⟩ : ∃ win', Window.encache .hamming N = some win' ∧ mkWindow N win = some win' := by
    cases win with
    | some w => exact ⟨w, hwin w rfl, rfl⟩
    | none =>
      obtain ⟨w, a, _⟩ := Window.encache_ok .hamming N
      exact ⟨w, a, a⟩
  obtain ⟨dec', src, y, e1, q1, q2, q3, q4⟩ := source_ok hf hdec blk hb
  have hsrc : ∀ i, i < reach N (blk.length / f) → src[i]? = some (some (y.getD (f * i) 0)) := fun i hi => q3 i (by omega)
  obtain ⟨s', e2, hs'⟩ := frames_ok (p := blk.length / f) h1 (fun _ => cqStep ⟨N, uK, kernel N uK thresh W⟩ uK win' (blk.length / f) src)
    (fun k s => QOk N uK (fun j => ∑ k ∈ range k, ‖cqValue N thresh (W j) (cqSpectrum N (frameAt N (blk.length / f) (fun i => y.getD (f * i) 0) k))‖) s)
    (fun k s hk hs => by
      obtain ⟨s', e, g⟩ := cqStep_ok hN h1 h2 hw' thresh W hsrc hk hs
      exact ⟨s', e, g.fft, g.frame, g.real, g.imag, g.cqre, g.cqim, g.cq.congr fun j _ => by rw [sum_range_succ]⟩)
    (frameCount N (blk.length / f)) (blk.length / f + 2) 0 ⟨fft, w, List.replicate uK 0⟩ (by omega) (by have := @frameCount_le N (blk.length / f); omega)
    ⟨hfft, l1, l2, l3, l4, l5, (holds_replicate uK 0).congr fun j _ => by simp⟩
  rw [Nat.zero_mul] at e2
  obtain ⟨cq, e3, hcq⟩ := divideBy_ok (frameCount_pos N (blk.length / f)).ne' hs'.cq
  have hcq' : cq = (List.range uK).map (fun j => cqFeature N thresh (W j) (blk.length / f) (fun i => y.getD (f * i) 0)) :=
    Holds.ext hcq ⟨by simp, fun j hj => by rw [List.getElem?_map, List.getElem?_range hj]; rfl⟩
  refine ⟨s'.fft, win', dec', y, ?_, hs'.fft, hw', q1, q2⟩
  unfold extractConstQ
  rw [bind_ok hm, bind_ok e1]
  dsimp only
  rw [hn, bind_ok e2, bind_ok e3, hcq']
  rfl

/-- One call that reaches samples the decimator did not write. -/
theorem extractConstQ_none {N uK L f : Nat} (h1 : 2 ≤ N) (hf : 0 < f) (cells : List (Cell ℝ)) {fft : FFT.RD} {win : Option (List ℝ)}
    {dec : Option (Decimator.State ℝ)} {xs ys : List ℝ} (hdec : DecOk L f dec xs ys) (w : QWork) (blk : List ℝ) (hb : L ≤ blk.length)
    (hr : written L f blk.length < reach N (blk.length / f)) (s : Segmenter Analysis) : extractConstQ w blk ⟨N, uK, cells⟩ fft win dec s = none := by
  obtain ⟨dec', src, y, e1, q1, q2, q3, q4⟩ := source_ok hf hdec blk hb
  unfold extractConstQ
  cases mkWindow N win with
  | none => rfl
  | some win =>
    rw [Option.bind_eq_bind, Option.bind_some, bind_ok e1]
    dsimp only
    have hc := frameCount_pos N (blk.length / f)
    have : ∀ fuel s0, frames N (blk.length / f) (fun _ => cqStep ⟨N, uK, cells⟩ s.ncoeff win (blk.length / f) src) fuel 0 0 s0 = none := by
      intro fuel s0
      have := frames_none (p := blk.length / f) h1 (fun _ => cqStep ⟨N, uK, cells⟩ s.ncoeff win (blk.length / f) src) (fun _ => True) (fun _ _ _ _ _ _ => trivial)
        (frameCount N (blk.length / f) - 1) (by omega) (fun s _ => by
          unfold cqStep
          dsimp only
          rw [fillFrame_unwritten h1 q4 hr]
          rfl) (frameCount N (blk.length / f) - 1) fuel 0 s0 (by omega) trivial
      rwa [Nat.zero_mul] at this
    rw [this]
    rfl

/-! ## Cepstra -/

/-- The state between frames: `G` is the sum so far. -/
structure MOk (c : Mfcc.Config) (G : Nat → ℝ) (s : MState) : Prop where
  m : Mfcc.Reach c s.m
  frame : s.frame.length = c.fftsize
  ccout : s.ccout.length = Mfcc.nout c
  cc : Holds (Mfcc.nout c) G s.cc

theorem addCepstra_ok {m : Nat} {A G : Nat → ℝ} {a v : List ℝ} (ha : Holds m A a) (hv : Holds m G v) :
    ∃ v', addCepstra m a v = some v' ∧ Holds m (fun j => G j + A j) v' := by
  refine fill_part (new := fun j => G j + A j) (f := fun i (cc : List ℝ) => do
    let v ← cc[i]?
    let x ← a[i]?
    wr cc i (v + x)) hv (fun i ys hi hp => ?_)
  rw [bind_ok (hp.get hi), bind_ok (ha.2 i hi)]

/-- A configuration of the kind the segmenter uses. -/
structure Plain (c : Mfcc.Config) : Prop where
  even : c.fftsize % 2 = 0
  two : 2 ≤ c.fftsize
  int : c.fftsize ≤ 2147483647
  power : c.logpower = none
  c0 : c.wantC0 = true
  window : c.window = .hamming

theorem mfStep_ok {c : Mfcc.Config} (hc : Plain c) {p k : Nat} {src : List (Option ℝ)} {x : Nat → ℝ} (hsrc : ∀ i, i < reach c.fftsize p → src[i]? = some (some (x i)))
    (hk : k < frameCount c.fftsize p) {junk : Nat → List ℝ} (hj : ∀ k, (junk k).length = c.fftsize) {G : Nat → ℝ} {s : MState} (hs : MOk c G s) :
    ∃ s', mfStep (Mfcc.nout c) junk p src k (k * (c.fftsize / 2)) s = some s' ∧ MOk c (fun j => G j +
      Mfcc.coeff id c.fs c.fftsize (fun b => ‖dft false c.fftsize (fun i => ((frameAt c.fftsize p x k i * Window.shape .hamming c.fftsize i : ℝ) : ℂ)) b‖) j) s' := by
  have hsz : s.m.fftSize = c.fftsize := (Mfcc.reach_ok hc.even hc.two hc.int hs.m).size
  obtain ⟨f, e1, g1⟩ := fillFrame_ok hsrc hk hs.frame
  obtain ⟨m', out', e2, g2, g3, g4, _⟩ := Mfcc.C64_frame hc.even hc.two hc.int hs.m f (junk k) s.ccout
    (by rw [g1.1]) (hj k) (by rw [hs.ccout])
  obtain ⟨cc, e3, g5⟩ := addCepstra_ok (m := Mfcc.nout c) (A := fun j => Mfcc.coeff id c.fs c.fftsize
      (fun b => ‖dft false c.fftsize (fun i => ((frameAt c.fftsize p x k i * Window.shape .hamming c.fftsize i : ℝ) : ℂ)) b‖) j) (a := out') (by
    refine ⟨by rw [g3, hs.ccout], fun j hj => ?_⟩
    rw [g4 j hj, show Mfcc.power c = id by unfold Mfcc.power; rw [hc.power]; rfl, show Mfcc.order c j = j by unfold Mfcc.order; rw [hc.c0]; rfl, hc.window]
    congr 2
    funext b
    congr 1
    unfold dft
    refine sum_congr rfl fun i hi => ?_
    have := g1.2 i (mem_range.mp hi)
    simp only [List.getD_eq_getElem?_getD, this, Option.getD_some]) hs.cc
  refine ⟨⟨m', f, out', cc⟩, ?_, g2, g1.1, by rw [g3, hs.ccout], g5⟩
  unfold mfStep
  rw [hsz, bind_ok e1, bind_ok e2, bind_ok e3]
  rfl

/-- One call for cepstral features. -/
theorem extractMfcc_ok {c : Mfcc.Config} (hc : Plain c) {L f : Nat} (hf : 0 < f) {m : Mfcc.MFCC} (hm : Mfcc.Reach c m)
    {dec : Option (Decimator.State ℝ)} {xs ys : List ℝ} (hdec : DecOk L f dec xs ys) (w : MWork) (l1 : w.frame.length = c.fftsize) (l2 : w.ccout.length = Mfcc.nout c)
    (l3 : ∀ k, (w.junk k).length = c.fftsize) (blk : List ℝ) (hb : L ≤ blk.length)
    (hr : reach c.fftsize (blk.length / f) ≤ written L f blk.length) (s : Segmenter Analysis) (hn : s.ncoeff = Mfcc.nout c) :
    ∃ m' dec' y, extractMfcc w blk m dec s = some { s with
        analysis := some ⟨.mfcc m', dec'⟩
        features := s.features ++ [(List.range (Mfcc.nout c)).map (fun j => mfFeature c.fs c.fftsize (blk.length / f) (fun i => y.getD (f * i) 0) j)] } ∧
      Mfcc.Reach c m' ∧ y.length = (heard L f blk).length ∧ DecOk L f dec' (xs ++ heard L f blk) (ys ++ y) := by
  have hsz : m.fftSize = c.fftsize := (Mfcc.reach_ok hc.even hc.two hc.int hm).size
  obtain ⟨dec', src, y, e1, q1, q2, q3, q4⟩ := source_ok hf hdec blk hb
  have hsrc : ∀ i, i < reach c.fftsize (blk.length / f) → src[i]? = some (some (y.getD (f * i) 0)) := fun i hi => q3 i (by omega)
  obtain ⟨s', e2, hs'⟩ := frames_ok (n := c.fftsize) (p := blk.length / f) hc.two (mfStep (Mfcc.nout c) w.junk (blk.length / f) src)
    (fun k s => MOk c (fun j => ∑ k ∈ range k, Mfcc.coeff id c.fs c.fftsize
      (fun b => ‖dft false c.fftsize (fun i => ((frameAt c.fftsize (blk.length / f) (fun i => y.getD (f * i) 0) k i * Window.shape .hamming c.fftsize i : ℝ) : ℂ)) b‖) j) s)
    (fun k s hk hs => by
      obtain ⟨s', e, g⟩ := mfStep_ok hc hsrc hk l3 hs
      exact ⟨s', e, g.m, g.frame, g.ccout, g.cc.congr fun j _ => by rw [sum_range_succ]⟩)
    (frameCount c.fftsize (blk.length / f)) (blk.length / f + 2) 0 ⟨m, w.frame, w.ccout, List.replicate (Mfcc.nout c) 0⟩ (by omega)
    (by have := @frameCount_le c.fftsize (blk.length / f); omega)
    ⟨hm, l1, l2, (holds_replicate (Mfcc.nout c) 0).congr fun j _ => by simp⟩
  rw [Nat.zero_mul] at e2
  obtain ⟨cc, e3, hcc⟩ := divideBy_ok (frameCount_pos c.fftsize (blk.length / f)).ne' hs'.cc
  have hcc' : cc = (List.range (Mfcc.nout c)).map (fun j => mfFeature c.fs c.fftsize (blk.length / f) (fun i => y.getD (f * i) 0) j) :=
    Holds.ext hcc ⟨by simp, fun j hj => by rw [List.getElem?_map, List.getElem?_range hj]; rfl⟩
  refine ⟨s'.m, dec', y, ?_, hs'.m, q1, q2⟩
  unfold extractMfcc
  rw [bind_ok e1]
  dsimp only
  rw [hn, hsz, bind_ok e2]
  dsimp only
  rw [bind_ok e3, hcc']
  rfl

theorem process_size (m : Mfcc.MFCC) (frame junk out : List ℝ) (r : Mfcc.MFCC × List ℝ × Nat) (h : m.process frame junk out = some r) :
    r.1.fftSize = m.fftSize := by
  unfold Mfcc.MFCC.process at h
  obtain ⟨d, _, h⟩ := Option.bind_eq_some_iff.mp h
  obtain ⟨d, _, h⟩ := Option.bind_eq_some_iff.mp h
  obtain ⟨d, _, h⟩ := Option.bind_eq_some_iff.mp h
  unfold Mfcc.MFCC.processSpectrum at h
  obtain ⟨d, _, h⟩ := Option.bind_eq_some_iff.mp h
  obtain ⟨d, _, h⟩ := Option.bind_eq_some_iff.mp h
  obtain ⟨d, _, h⟩ := Option.bind_eq_some_iff.mp h
  cases h
  rfl

/-- One call that reaches samples the decimator did not write. -/
theorem extractMfcc_none {L f : Nat} (hf : 0 < f) {m : Mfcc.MFCC} (h1 : 2 ≤ m.fftSize)
    {dec : Option (Decimator.State ℝ)} {xs ys : List ℝ} (hdec : DecOk L f dec xs ys) (w : MWork) (blk : List ℝ) (hb : L ≤ blk.length)
    (hr : written L f blk.length < reach m.fftSize (blk.length / f)) (s : Segmenter Analysis) : extractMfcc w blk m dec s = none := by
  obtain ⟨dec', src, y, e1, q1, q2, q3, q4⟩ := source_ok hf hdec blk hb
  unfold extractMfcc
  rw [bind_ok e1]
  dsimp only
  have hc := frameCount_pos m.fftSize (blk.length / f)
  have := frames_none (p := blk.length / f) h1 (mfStep s.ncoeff w.junk (blk.length / f) src) (fun t => t.m.fftSize = m.fftSize)
    (fun k o t t' ht h => by
      unfold mfStep at h
      obtain ⟨d, _, h⟩ := Option.bind_eq_some_iff.mp h
      obtain ⟨r, hr, h⟩ := Option.bind_eq_some_iff.mp h
      obtain ⟨d, _, h⟩ := Option.bind_eq_some_iff.mp h
      cases h
      exact (process_size _ _ _ _ _ hr).trans ht)
    (frameCount m.fftSize (blk.length / f) - 1) (by omega) (fun t ht => by
      unfold mfStep
      rw [ht, fillFrame_unwritten h1 q4 hr]
      rfl) (frameCount m.fftSize (blk.length / f) - 1) (blk.length / f + 2) 0 ⟨m, w.frame, w.ccout, List.replicate s.ncoeff 0⟩ (by omega) rfl
  rw [Nat.zero_mul] at this
  rw [this]
  rfl

end QM.Segment
