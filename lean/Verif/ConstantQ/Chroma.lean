import Verif.ConstantQ.Model

/-! # The `Chromagram` object, dsp/chromagram/Chromagram.h and Chromagram.cpp

The contents of freshly allocated arrays are arguments, for all values of which the theorems hold. -/

namespace QM.ConstantQ

/-- `ChromaConfig`, dsp/chromagram/Chromagram.h:22-29. -/
structure ChromaConfig where
  fs : ℝ
  fmin : ℝ
  fmax : ℝ
  bpo : Nat
  thresh : ℝ
  norm : MathReal.NormaliseType

/-- The members of `Chromagram` and those of its `ConstantQ` that are used, dsp/chromagram/Chromagram.h:74-100. `kernel = none`: not `m_skGenerated`;
`window = none`: `m_window` is null. -/
structure Chroma where
  cfg : ChromaConfig
  dQ : ℝ
  uK : Nat
  N : Nat
  kernel : Option (List (Cell ℝ))
  window : Option (List ℝ × List ℝ)
  fft : FFT.RD
  re : List ℝ
  im : List ℝ
  cqRe : List ℝ
  cqIm : List ℝ
  chroma : List ℝ

/-- What the arrays made by the constructor hold. -/
structure ChromaMem where
  re : List ℝ
  im : List ℝ
  cqRe : List ℝ
  cqIm : List ℝ
  chroma : List ℝ
  u : ℂ

/-- What the arrays made at the first call hold: those of `sparsekernel`, and `m_windowbuf`. -/
structure KernelMem where
  wRe : List ℝ
  wIm : List ℝ
  tRe : List ℝ
  tIm : List ℝ
  k1 : ℂ
  k2 : ℂ
  buf : List ℝ

/-- Constructor and `initialise`, dsp/chromagram/Chromagram.cpp:22-76. -/
noncomputable def Chroma.make (cfg : ChromaConfig) (m : ChromaMem) : Option Chroma := do
  let c ← chromaInitialise cfg.fs cfg.fmin cfg.fmax cfg.bpo
  let fft ← FFT.RD.make c.2.2 m.u
  pure ⟨cfg, c.1, c.2.1, c.2.2, none, none, fft, m.re, m.im, m.cqRe, m.cqIm, m.chroma⟩

/-- The kernel is made once, dsp/chromagram/Chromagram.cpp:126-130 and 157-161. -/
noncomputable def Chroma.withKernel (m : KernelMem) (s : Chroma) : Option (List (Cell ℝ)) :=
  match s.kernel with
  | some cells => some cells
  | none => sparsekernel s.N s.uK s.dQ s.cfg.fs s.cfg.fmin s.cfg.thresh s.cfg.bpo m.wRe m.wIm m.tRe m.tIm m.k1 m.k2

/-- The window is made once, dsp/chromagram/Chromagram.cpp:132-135: the window and `m_windowbuf`. -/
noncomputable def Chroma.withWindow (m : KernelMem) (s : Chroma) : Option (List ℝ × List ℝ) :=
  match s.window with
  | some w => some w
  | none => do
    let w ← Window.encache .hamming s.N
    pure (w, m.buf)

/-- `kabs`, dsp/chromagram/Chromagram.cpp:99-105. -/
noncomputable def kabs (x y : ℝ) : ℝ := Real.sqrt (x * x + y * y)

/-- `process(const double *, const double *)`, dsp/chromagram/Chromagram.cpp:155-182. The result is `m_chromadata`. -/
noncomputable def Chroma.processFreq (m : KernelMem) (s : Chroma) (real imag : List ℝ) : Option Chroma := do
  let cells ← s.withKernel m
  let cq ← processSplit s.N s.uK (some cells) real imag (s.cqRe, s.cqIm)
  let chroma ← foldOctaves kabs s.uK s.cfg.bpo cq.1 cq.2 s.chroma
  pure { s with kernel := some cells, cqRe := cq.1, cqIm := cq.2, chroma := MathReal.normaliseArr chroma s.cfg.bpo s.cfg.norm }

/-- The shifted and windowed frame in `process(const double *)`, dsp/chromagram/Chromagram.cpp:137-148. -/
noncomputable def windowed (N : Nat) (win data buf : List ℝ) : Option (List ℝ) := do
  let buf ← loop N (fun i buf => do
    let d ← data[i]?
    wr buf i d) buf
  let buf ← Window.cutInPlace N win buf
  shift N buf

/-- `process(const double *)`, dsp/chromagram/Chromagram.cpp:124-153. -/
noncomputable def Chroma.processTime (m : KernelMem) (s : Chroma) (data : List ℝ) : Option Chroma := do
  let cells ← s.withKernel m
  let w ← s.withWindow m
  let buf ← windowed s.N w.1 data w.2
  let r ← s.fft.forward buf s.re s.im
  Chroma.processFreq m { s with kernel := some cells, window := some (w.1, buf), fft := r.1, re := r.2.1, im := r.2.2 } r.2.1 r.2.2

/-- `unityNormalise`, dsp/chromagram/Chromagram.cpp:109-121. `none`: division by zero. -/
noncomputable def unityNormalise (bpo : Nat) (src : List ℝ) : Option (List ℝ) :=
  loop bpo (fun i (s : List ℝ) => do
    let v ← s[i]?
    if (MathReal.getFrameMinMax (src.take bpo)).2 = 0 then none else wr s i (v / (MathReal.getFrameMinMax (src.take bpo)).2)) src

end QM.ConstantQ
