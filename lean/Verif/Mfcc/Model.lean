import Verif.Common.Mat
import Verif.FFT.Model
import Verif.Window.Model
import Mathlib.Analysis.SpecialFunctions.Log.Base

/-!
# Model of `MFCC` (dsp/mfcc/MFCC)

Doubles are real numbers. `config.nceps` and `config.fftsize` are not negative. Accesses outside the arrays
are `none`. The member `ceps` is allocated but never used and is left out.
-/

namespace QM.Mfcc

/-- `MFCCConfig`, dsp/mfcc/MFCC.h:22-32. `logpower` is `none` for the value 1.0 and otherwise the function
`x ↦ pow(x, logpower)`, about which nothing is assumed. -/
structure Config where
  fs : Int
  fftsize : Nat
  nceps : Nat
  logpower : Option (ℝ → ℝ)
  wantC0 : Bool
  window : Window.WindowType

/-- Data members of `MFCC`, dsp/mfcc/MFCC.h:57-93. -/
structure MFCC where
  fftSize : Nat
  nceps : Nat
  logPower : Option (ℝ → ℝ)
  wantC0 : Bool
  dctMatrix : List (List ℝ)
  weights : List (List ℝ)
  window : List ℝ
  fft : FFT.RD
  realOut : List ℝ
  imagOut : List ℝ
  earMag : List ℝ
  fftMag : List ℝ

/-- The array `freqs`, dsp/mfcc/MFCC.cpp:70, 79-86. -/
noncomputable def mkFreqs : Option (List ℝ) := do
  let freqs ← loop 13 (fun i freqs => wr freqs i (66.6666666 + (i : ℝ) * 66.66666666)) (List.replicate 42 0)
  loop 29 (fun t (freqs : List ℝ) => do
    let last ← freqs[12]?
    wr freqs (13 + t) (last * (1.0711703 : ℝ) ^ (13 + t - 13 + 1))) freqs

/-- `triangleHeight`, dsp/mfcc/MFCC.cpp:93-95. -/
noncomputable def mkHeight (lower upper : List ℝ) : Option (List ℝ) :=
  loop 40 (fun i h => do
    let u ← upper[i]?
    let l ← lower[i]?
    wr h i (2 / (u - l))) (List.replicate 40 0)

/-- `fftFreqs`, dsp/mfcc/MFCC.cpp:97-100. -/
noncomputable def mkFftFreqs (n : Nat) (fs : Int) : Option (List ℝ) :=
  loop n (fun i f => wr f i ((i : ℝ) / (n : ℝ) * (fs : ℝ))) (List.replicate n 0)

/-- One weight, dsp/mfcc/MFCC.cpp:107-129. -/
noncomputable def weight (h lo ce up f : ℝ) : ℝ :=
  let w := if f > lo ∧ f ≤ ce then h * (f - lo) / (ce - lo) else 0
  if f > ce ∧ f < up then w + h * (up - f) / (up - ce) else w + 0

/-- `mfccFilterWeights`, dsp/mfcc/MFCC.cpp:65-68, 103-132; the two assignments to an element are one write here. -/
noncomputable def mkWeights (n : Nat) (lower center upper height fftFreqs : List ℝ) : Option (List (List ℝ)) :=
  loop 40 (fun i M => loop n (fun j M => do
    let f ← fftFreqs[j]?
    let l ← lower[i]?
    let c ← center[i]?
    let u ← upper[i]?
    let h ← height[i]?
    wr2 M i j (weight h l c u f)) M) (List.replicate 40 (List.replicate n 0))

/-- `mfccDCTMatrix`, dsp/mfcc/MFCC.cpp:60-63, 139-148. -/
noncomputable def mkDct (nceps : Nat) : Option (List (List ℝ)) := do
  let D ← loop (nceps + 1) (fun i D => loop 40 (fun j D =>
    wr2 D i j ((1 / Real.sqrt (40 / 2)) * Real.cos ((i : ℝ) * ((j : ℝ) + 0.5) / 40 * Real.pi))) D)
    (List.replicate (nceps + 1) (List.replicate 40 0))
  loop 40 (fun j D => do
    let v ← rd2 D 0 j
    wr2 D 0 j ((Real.sqrt 2 / 2) * v)) D

/-- Constructor, dsp/mfcc/MFCC.cpp:24-166. The `memcpy` calls of lines 89-91 copy forty elements starting at
0, 1 and 2. `u` is the content of the memory the FFT allocates. -/
noncomputable def MFCC.make (c : Config) (u : ℂ) : Option MFCC := do
  let fft ← FFT.RD.make c.fftsize u
  let freqs ← mkFreqs
  let lower := freqs.take 40
  let center := (freqs.drop 1).take 40
  let upper := (freqs.drop 2).take 40
  let height ← mkHeight lower upper
  let fftFreqs ← mkFftFreqs c.fftsize c.fs
  let weights ← mkWeights c.fftsize lower center upper height fftFreqs
  let dct ← mkDct c.nceps
  let window ← Window.encache c.window c.fftsize
  some ⟨c.fftsize, c.nceps, c.logpower, c.wantC0, dct, weights, window, fft,
    List.replicate c.fftsize 0, List.replicate c.fftsize 0, List.replicate 40 0, List.replicate (c.fftsize / 2) 0⟩

/-- `fftMag`, dsp/mfcc/MFCC.cpp:224-226. -/
noncomputable def magnitudes (n : Nat) (re im mag : List ℝ) : Option (List ℝ) :=
  loop n (fun i mag => do
    let a ← re[i]?
    let b ← im[i]?
    wr mag i (Real.sqrt (a * a + b * b))) mag

/-- `earMag[i]` before the power, dsp/mfcc/MFCC.cpp:238-239. -/
noncomputable def ear (t : ℝ) : ℝ := if t > 0 then Real.logb 10 t else 0

/-- dsp/mfcc/MFCC.cpp:241-243. -/
def applyPower (p : Option (ℝ → ℝ)) (x : ℝ) : ℝ :=
  match p with
  | none => x
  | some f => f x

/-- `earMag`, dsp/mfcc/MFCC.cpp:228-244. -/
noncomputable def ears (n : Nat) (p : Option (ℝ → ℝ)) (weights : List (List ℝ)) (mag earMag : List ℝ) : Option (List ℝ) := do
  let earMag ← loop 40 (fun i e => wr e i 0) earMag
  loop 40 (fun i e => do
    let t ← loop n (fun j acc => do
      let w ← rd2 weights i j
      let m ← mag[j]?
      some (acc + w * m)) (0 : ℝ)
    wr e i (applyPower p (ear t))) earMag

/-- One row of the cosine transform, dsp/mfcc/MFCC.cpp:256-259 and 264-267. -/
noncomputable def dctRow (D : List (List ℝ)) (e : List ℝ) (i : Nat) : Option ℝ :=
  loop 40 (fun j acc => do
    let d ← rd2 D i j
    let x ← e[j]?
    some (acc + d * x)) (0 : ℝ)

/-- dsp/mfcc/MFCC.cpp:253-270. -/
noncomputable def cepstra (wantC0 : Bool) (nceps : Nat) (D : List (List ℝ)) (e out : List ℝ) : Option (List ℝ) :=
  if wantC0 then
    loop (nceps + 1) (fun i out => do
      let t ← dctRow D e i
      wr out i t) out
  else
    loop nceps (fun k out => do
      let t ← dctRow D e (k + 1)
      wr out (k + 1 - 1) t) out

/-- `MFCC::process(real, imag, outceps)`, dsp/mfcc/MFCC.cpp:220-273: the object afterwards, `outceps` and the
returned value. -/
noncomputable def MFCC.processSpectrum (m : MFCC) (re im out : List ℝ) : Option (MFCC × List ℝ × Nat) := do
  let mag ← magnitudes (m.fftSize / 2) re im m.fftMag
  let e ← ears (m.fftSize / 2) m.logPower m.weights mag m.earMag
  let out ← cepstra m.wantC0 m.nceps m.dctMatrix e out
  some ({ m with fftMag := mag, earMag := e }, out, m.nceps)

/-- `inputData[i] = inframe[i]`, dsp/mfcc/MFCC.cpp:207-208. -/
noncomputable def copyFrame (n : Nat) (frame junk : List ℝ) : Option (List ℝ) :=
  loop n (fun i d => do
    let x ← frame[i]?
    wr d i x) junk

/-- `MFCC::process(inframe, outceps)`, dsp/mfcc/MFCC.cpp:205-218. `junk` is the content of the memory
allocated at line 207. -/
noncomputable def MFCC.process (m : MFCC) (frame junk out : List ℝ) : Option (MFCC × List ℝ × Nat) := do
  let d ← copyFrame m.fftSize frame junk
  let d ← Window.cutInPlace m.fftSize m.window d
  let r ← m.fft.forward d m.realOut m.imagOut
  MFCC.processSpectrum { m with fft := r.1, realOut := r.2.1, imagOut := r.2.2 } r.2.1 r.2.2 out

end QM.Mfcc
