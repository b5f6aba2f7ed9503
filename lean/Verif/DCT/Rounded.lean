import Verif.DCT.Model
import Verif.FFT.Rounded

/-!
# `dsp/transforms/DCT.cpp` in double precision

The same statements as in `Verif/DCT/Model.lean`, with the transform of `Verif/FFT/Rounded.lean` and with `fl` after every operation. Copies and changes of
sign are exact. `sqrt` is correctly rounded, as IEEE 754 requires.
-/

namespace QM.DCT

open QM.FFT

noncomputable section

variable (fl cosF sinF : ℝ → ℝ)

/-- `DCT::DCT`, dsp/transforms/DCT.cpp:20-29, in double precision. -/
def makeF (n : Nat) (u : ℂ) : Option T := do
  let fft ← RD.makeF fl cosF sinF (n * 4) u
  pure ⟨n, fl (n * fl (Real.sqrt (fl (2 / n)))), List.replicate n 0, List.replicate (n * 4) 0, List.replicate (n * 4) 0,
    List.replicate (n * 4) 0, fft⟩

/-- `DCT::forward`, dsp/transforms/DCT.cpp:35-48, in double precision. -/
def forwardF (d : T) (inp out : List ℝ) : Option (T × List ℝ) := do
  let time2 ← loop d.n (fun i t => do
    let v ← inp[i]?
    let t ← wr t (i * 2 + 1) v
    wr t (d.n * 4 - i * 2 - 1) v) d.time2
  let (fft, fr, fi) ← d.fft.forwardF fl time2 d.freq2r d.freq2i
  let out ← loop d.n (fun i o => do
    let v ← fr[i]?
    wr o i v) out
  pure (⟨d.n, d.scale, d.scaled, time2, fr, fi, fft⟩, out)

/-- `DCT::inverse`, dsp/transforms/DCT.cpp:60-80, in double precision. -/
def inverseF (d : T) (inp out : List ℝ) : Option (T × List ℝ) := do
  let fr ← loop d.n (fun i f => do
    let v ← inp[i]?
    wr f i v) d.freq2r
  let fr ← loop d.n (fun i f => do
    let v ← inp[i]?
    wr f (d.n * 2 - i) (-v)) fr
  let fr ← wr fr d.n 0
  let fi ← loop (d.n * 2 + 1) (fun i f => wr f i 0) d.freq2i
  let (fft, time2) ← d.fft.inverseF fl fr fi d.time2
  let out ← loop d.n (fun i o => do
    let v ← time2[i * 2 + 1]?
    wr o i v) out
  pure (⟨d.n, d.scale, d.scaled, time2, fr, fi, fft⟩, out)

end

/-! ## Without rounding -/

theorem makeF_id (n : Nat) (u : ℂ) : makeF id Real.cos Real.sin n u = make n u := by
  simp only [makeF, make, rmakeF_id, id_eq]

theorem forwardF_id (d : T) : forwardF id d = forward d := by
  funext inp out; simp only [forwardF, forward, QM.FFT.forwardF_id]

theorem inverseF_id (d : T) : inverseF id d = inverse d := by
  funext inp out; simp only [inverseF, inverse, QM.FFT.inverseF_id]

end QM.DCT
