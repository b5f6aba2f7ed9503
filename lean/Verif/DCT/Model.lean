import Verif.FFT.Model

/-!
# Model of `dsp/transforms/DCT.cpp`

Doubles are real numbers. An access outside an array is `none`.
-/

namespace QM.DCT

open QM.FFT

/-- A `DCT` object, dsp/transforms/DCT.h:79-86. -/
structure T where
  n : Nat
  scale : ℝ
  scaled : List ℝ
  time2 : List ℝ
  freq2r : List ℝ
  freq2i : List ℝ
  fft : RD

/-- `DCT::DCT`, dsp/transforms/DCT.cpp:20-29. `u` is uninitialised memory of the FFT. -/
noncomputable def make (n : Nat) (u : ℂ) : Option T := do
  let fft ← RD.make (n * 4) u
  pure ⟨n, n * Real.sqrt (2 / n), List.replicate n 0, List.replicate (n * 4) 0, List.replicate (n * 4) 0,
    List.replicate (n * 4) 0, fft⟩

/-- `DCT::forward`, dsp/transforms/DCT.cpp:35-48. -/
noncomputable def forward (d : T) (inp out : List ℝ) : Option (T × List ℝ) := do
  let time2 ← loop d.n (fun i t => do
    let v ← inp[i]?
    let t ← wr t (i * 2 + 1) v
    wr t (d.n * 4 - i * 2 - 1) v) d.time2
  let (fft, fr, fi) ← d.fft.forward time2 d.freq2r d.freq2i
  let out ← loop d.n (fun i o => do
    let v ← fr[i]?
    wr o i v) out
  pure (⟨d.n, d.scale, d.scaled, time2, fr, fi, fft⟩, out)

/-- `DCT::forwardUnitary`, dsp/transforms/DCT.cpp:50-58. -/
noncomputable def forwardUnitary (d : T) (inp out : List ℝ) : Option (T × List ℝ) := do
  let (d', out) ← forward d inp out
  let out ← loop d.n (fun i o => do
    let v ← o[i]?
    wr o i (v / d.scale)) out
  let v ← out[0]?
  let out ← wr out 0 (v / Real.sqrt 2)
  pure (d', out)

/-- `DCT::inverse`, dsp/transforms/DCT.cpp:60-80. -/
noncomputable def inverse (d : T) (inp out : List ℝ) : Option (T × List ℝ) := do
  let fr ← loop d.n (fun i f => do
    let v ← inp[i]?
    wr f i v) d.freq2r
  let fr ← loop d.n (fun i f => do
    let v ← inp[i]?
    wr f (d.n * 2 - i) (-v)) fr
  let fr ← wr fr d.n 0
  let fi ← loop (d.n * 2 + 1) (fun i f => wr f i 0) d.freq2i
  let (fft, time2) ← d.fft.inverse fr fi d.time2
  let out ← loop d.n (fun i o => do
    let v ← time2[i * 2 + 1]?
    wr o i v) out
  pure (⟨d.n, d.scale, d.scaled, time2, fr, fi, fft⟩, out)

/-- `DCT::inverseUnitary`, dsp/transforms/DCT.cpp:82-90. -/
noncomputable def inverseUnitary (d : T) (inp out : List ℝ) : Option (T × List ℝ) := do
  let scaled ← loop d.n (fun i s => do
    let v ← inp[i]?
    wr s i (v * d.scale)) d.scaled
  let v ← scaled[0]?
  let scaled ← wr scaled 0 (v * Real.sqrt 2)
  inverse { d with scaled := scaled } scaled out

end QM.DCT
