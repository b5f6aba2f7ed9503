import Verif.Common.Loop
import Verif.FFT.Model
import Verif.Window.Model
import Verif.MathReal.Model
import Mathlib.Analysis.SpecialFunctions.Log.Base

/-! # dsp/chromagram/ConstantQ.cpp and Chromagram.cpp

Reads and writes outside the arrays are `none`. -/

namespace QM.ConstantQ

/-! ## The transform -/

/-- An entry of the sparse kernel, dsp/chromagram/ConstantQ.h:70-75: the four vectors, which always have the same length, as one. -/
structure Cell (K : Type) where
  fftbin : Int
  cqbin : Int
  re : K
  im : K
deriving DecidableEq, Repr

section transform
variable {K : Type} [CommRing K]

/-- One round of the loop over the cells in the interleaved `process`, dsp/chromagram/ConstantQ.cpp:179-190. -/
def cellInterleaved (N : Nat) (fftdata : List K) (c : Cell K) (cq : List K) : Option (List K) :=
  if c.fftbin = 0 then some cq
  else do
    let r2 ← rdI fftdata (2 * N - 2 * c.fftbin - 2)
    let i2 ← rdI fftdata (2 * N - 2 * c.fftbin - 2 + 1)
    let v ← rdI cq (2 * c.cqbin)
    let cq ← wrI cq (2 * c.cqbin) (v + (c.re * r2 - c.im * i2))
    let w ← rdI cq (2 * c.cqbin + 1)
    wrI cq (2 * c.cqbin + 1) (w + (c.re * i2 + c.im * r2))

/-- `ConstantQ::process(const double *)`, dsp/chromagram/ConstantQ.cpp:160-193. `sk = none`: no kernel yet. `cq` is what `m_CQdata`, of
length `2 * uK`, holds. Taking the address of the first element of vectors that may be empty, lines 173-176, is left out. -/
def processInterleaved (N uK : Nat) (sk : Option (List (Cell K))) (fftdata cq : List K) : Option (List K) :=
  match sk with
  | none => some cq
  | some cells => do
    let cq ← loop (2 * uK) (fun row cq => do
      let cq ← wr cq row 0
      wr cq (row + 1) 0) cq
    loop cells.length (fun i cq => do
      let c ← cells[i]?
      cellInterleaved N fftdata c cq) cq

/-- One round of the loop over the cells in the other `process`, dsp/chromagram/ConstantQ.cpp:216-227. -/
def cellSplit (N : Nat) (fftRe fftIm : List K) (c : Cell K) (s : List K × List K) : Option (List K × List K) :=
  if c.fftbin = 0 then some s
  else do
    let r2 ← rdI fftRe (N - c.fftbin)
    let i2 ← rdI fftIm (N - c.fftbin)
    let v ← rdI s.1 c.cqbin
    let re ← wrI s.1 c.cqbin (v + (c.re * r2 - c.im * i2))
    let w ← rdI s.2 c.cqbin
    let im ← wrI s.2 c.cqbin (w + (c.re * i2 + c.im * r2))
    pure (re, im)

/-- `ConstantQ::process(const double *, const double *, double *, double *)`, dsp/chromagram/ConstantQ.cpp:195-228. -/
def processSplit (N uK : Nat) (sk : Option (List (Cell K))) (fftRe fftIm : List K) (s : List K × List K) : Option (List K × List K) :=
  match sk with
  | none => some s
  | some cells => do
    let s ← loop uK (fun row (s : List K × List K) => do
      let re ← wr s.1 row 0
      let im ← wr s.2 row 0
      pure (re, im)) s
    loop cells.length (fun i s => do
      let c ← cells[i]?
      cellSplit N fftRe fftIm c s) s

end transform

/-! ## Chromagram -/

/-- The sum over octaves in `Chromagram::process(const double *, const double *)`, dsp/chromagram/Chromagram.cpp:163-177, with `mag` for
`kabs` (lines 101-106) and `uK` values of the transform. `chroma` is what `m_chromadata` holds. -/
def foldOctaves {K : Type} [Field K] (mag : K → K → K) (uK bpo : Nat) (cqRe cqIm chroma : List K) : Option (List K) := do
  let chroma ← loop bpo (fun i chroma => wr chroma i 0) chroma
  loop (uK / bpo) (fun octave chroma => loop bpo (fun i chroma => do
    let c ← chroma[i]?
    let re ← cqRe[octave * bpo + i]?
    let im ← cqIm[octave * bpo + i]?
    wr chroma i (c + mag re im)) chroma) chroma

/-- `Chromagram::process(const double *, const double *)`, dsp/chromagram/Chromagram.cpp:155-182, once there is a kernel. Returns `m_chromadata`. -/
def chromaOf {K : Type} [Field K] [LinearOrder K] [IsStrictOrderedRing K] (mag : K → K → K) (N uK bpo : Nat) (cells : List (Cell K))
    (norm : MathReal.NormaliseType) (real imag : List K) (cq : List K × List K) (chroma : List K) : Option (List K) := do
  let cq ← processSplit N uK (some cells) real imag cq
  let chroma ← foldOctaves mag uK bpo cq.1 cq.2 chroma
  pure (MathReal.normaliseArr chroma bpo norm)

/-! ## The kernel -/

/-- `ConstantQ::initialise`, dsp/chromagram/ConstantQ.cpp:129-151: Q, the number of bins and the length of the transform. `none`: the power of two
does not fit an `int`, or the number of bins is negative. -/
noncomputable def initialise (fs fmin fmax : ℝ) (bpo : Nat) : Option (ℝ × Nat × Nat) := do
  let dQ : ℝ := 1 / ((2 : ℝ) ^ (1 / (bpo : ℝ)) - 1)
  let uK := ⌈bpo * Real.log (fmax / fmin) / Real.log 2⌉
  let N ← MathInt.nextPowerOfTwo ⌈dQ * fs / fmin⌉
  if uK < 0 then none else pure (dQ, uK.toNat, N.toNat)

/-- What `Chromagram::initialise` passes on, dsp/chromagram/Chromagram.cpp:35-51: the range is first extended to whole octaves. -/
noncomputable def chromaInitialise (fs fmin fmax : ℝ) (bpo : Nat) : Option (ℝ × Nat × Nat) :=
  initialise fs fmin (fmin * (2 : ℝ) ^ (⌈Real.log (fmax / fmin) / Real.log 2⌉ : ℝ)) bpo

/-- The length of the window of bin `j`, dsp/chromagram/ConstantQ.cpp:65-66. -/
noncomputable def windowLength (dQ fs fmin : ℝ) (bpo j : Nat) : Nat := ⌈dQ * fs / (fmin * (2 : ℝ) ^ ((j : ℝ) / (bpo : ℝ)))⌉.toNat

/-- The halves are exchanged, dsp/chromagram/ConstantQ.cpp:91-100 and dsp/chromagram/Chromagram.cpp:142-148. -/
def shift {K : Type} (N : Nat) (buf : List K) : Option (List K) :=
  loop (N / 2) (fun i buf => do
    let a ← buf[i]?
    let b ← buf[i + N / 2]?
    let buf ← wr buf i b
    wr buf (i + N / 2) a) buf

/-- `Chromagram::process(const double *)`, dsp/chromagram/Chromagram.cpp:124-153, up to the call of the other `process`: the spectrum of a frame. `win`
is the window made at the first call. -/
noncomputable def spectrum (N : Nat) (win : List ℝ) (fft : FFT.RD) (data windowbuf ro io : List ℝ) : Option (FFT.RD × List ℝ × List ℝ) := do
  let buf ← loop N (fun i buf => do
    let d ← data[i]?
    wr buf i d) windowbuf
  let buf ← Window.cutInPlace N win buf
  let buf ← shift N buf
  fft.forward buf ro io

/-- The real (`trig` the cosine) or the imaginary part (the sine) of the kernel of a bin, as it is passed to the FFT, dsp/chromagram/ConstantQ.cpp:57-100.
The two parts are made by interleaved statements that do not depend on one another. `ham` is the Hamming window of length `wl`. -/
noncomputable def temporal (N wl : Nat) (dQ : ℝ) (ham : List ℝ) (trig : ℝ → ℝ) (buf : List ℝ) : Option (List ℝ) := do
  let buf ← loop N (fun i buf => wr buf i 0) buf
  let origin : Int := (N / 2 : Nat) - (wl / 2 : Nat)
  let buf ← loop wl (fun i buf => wrI buf (origin + i) (trig (2 * Real.pi * dQ * i / wl))) buf
  let buf ← loop wl (fun i buf => do
    let v ← rdI buf (origin + i)
    let w ← ham[i]?
    wrI buf (origin + i) (v * w)) buf
  let buf ← loop wl (fun i (buf : List ℝ) => do
    let v ← rdI buf (origin + i)
    wrI buf (origin + i) (v / wl)) buf
  shift N buf

/-- The four work arrays and the FFT object of `sparsekernel`, and the cells so far. -/
structure Work where
  wRe : List ℝ
  wIm : List ℝ
  tRe : List ℝ
  tIm : List ℝ
  fft : FFT.D
  cells : List (Cell ℝ)

/-- Conversion to sparse form, dsp/chromagram/ConstantQ.cpp:104-118. -/
noncomputable def sparse (N : Nat) (thresh : ℝ) (j : Nat) (tRe tIm : List ℝ) (cells : List (Cell ℝ)) : Option (List (Cell ℝ)) :=
  loop N (fun i cells => do
    let re ← tRe[i]?
    let im ← tIm[i]?
    if re * re + im * im ≤ thresh * thresh then pure cells
    else pure (cells ++ [⟨i, j, re / N, -im / N⟩])) cells

/-- One bin, dsp/chromagram/ConstantQ.cpp:55-119. -/
noncomputable def binStep (N : Nat) (dQ fs fmin thresh : ℝ) (bpo j : Nat) (s : Work) : Option Work := do
  let wl := windowLength dQ fs fmin bpo j
  let ham ← Window.encache .hamming wl
  let wRe ← temporal N wl dQ ham Real.cos s.wRe
  let wIm ← temporal N wl dQ ham Real.sin s.wIm
  let r ← s.fft.process false wRe (some wIm) s.tRe s.tIm
  let cells ← sparse N thresh j r.2.1 r.2.2 s.cells
  pure ⟨wRe, wIm, r.2.1, r.2.2, r.1, cells⟩

/-- `ConstantQ::sparsekernel`, dsp/chromagram/ConstantQ.cpp:38-127. `w` is what the fresh arrays hold, `k1` and `k2` what those of the FFT hold. -/
noncomputable def sparsekernel (N uK : Nat) (dQ fs fmin thresh : ℝ) (bpo : Nat) (wRe wIm tRe tIm : List ℝ) (k1 k2 : ℂ) : Option (List (Cell ℝ)) := do
  let fft ← FFT.D.make N k1 k2
  let s ← loop uK (fun t s => binStep N dQ fs fmin thresh bpo (uK - 1 - t) s) ⟨wRe, wIm, tRe, tIm, fft, []⟩
  pure s.cells

end QM.ConstantQ
