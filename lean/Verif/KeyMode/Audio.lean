import Verif.KeyMode.Model
import Verif.ConstantQ.Chroma
import Verif.Decimator.Model
import Verif.Pitch.Model

/-! # `GetKeyMode` from the audio, dsp/keydetection/GetKeyMode.cpp

The part of `process` after the chromagram is `QM.KeyMode.process`. `none` is an access outside an array, a division by zero or a negative
array size. -/

namespace QM.KeyMode

/-- `GetKeyMode::Config`, dsp/keydetection/GetKeyMode.h:22-40. -/
structure Config where
  sampleRate : ℝ
  tuning : ℝ
  hpcpAverage : ℝ
  medianAverage : ℝ
  overlap : Nat
  factor : Nat

/-- `chromaConfig`, dsp/keydetection/GetKeyMode.cpp:68-86. -/
noncomputable def Config.chroma (cfg : Config) : ConstantQ.ChromaConfig where
  fs := if cfg.sampleRate / (cfg.factor : ℝ) < 1 then 1 else cfg.sampleRate / (cfg.factor : ℝ)
  fmin := Pitch.getFrequencyForPitch 48 0 cfg.tuning
  fmax := Pitch.getFrequencyForPitch 96 0 cfg.tuning
  bpo := 36
  thresh := 0.0054
  norm := .unitMax

/-- The members of `GetKeyMode`, dsp/keydetection/GetKeyMode.h:77-113. -/
structure Audio where
  cfg : Config
  chroma : ConstantQ.Chroma
  hop : Nat
  dec : Decimator.State ℝ
  buf : List ℝ
  km : KM

/-- The constructor, dsp/keydetection/GetKeyMode.cpp:54-145; `m`, `u` and `buf` are the contents of new arrays. -/
noncomputable def Audio.make (cfg : Config) (m : ConstantQ.ChromaMem) (u : ℝ) (buf : List ℝ) : Option Audio :=
  if cfg.factor = 0 ∨ cfg.overlap = 0 then none
  else do
    let chroma ← ConstantQ.Chroma.make cfg.chroma m
    let cs := bufSize cfg.hpcpAverage cfg.chroma.fs chroma.N
    let ms := bufSize cfg.medianAverage cfg.chroma.fs chroma.N
    if cs < 0 ∨ ms < 0 then none
    else do
      let km ← KeyMode.make cs.toNat ms.toNat u
      let dec ← Decimator.new (chroma.N * cfg.factor) cfg.factor
      pure ⟨cfg, chroma, chroma.N / cfg.overlap, dec, buf, km⟩

/-- `getBlockSize`, dsp/keydetection/GetKeyMode.h:64-66. -/
def Audio.blockSize (s : Audio) : Nat := s.chroma.N * s.cfg.factor

/-- `getHopSize`, dsp/keydetection/GetKeyMode.h:67-69. -/
def Audio.hopSize (s : Audio) : Nat := s.hop * s.cfg.factor

/-- `GetKeyMode::process`, dsp/keydetection/GetKeyMode.cpp:192-290. -/
noncomputable def Audio.process (m : ConstantQ.KernelMem) (s : Audio) (pcm : List ℝ) : Option (Audio × Nat) := do
  let d ← Decimator.process s.dec pcm s.buf
  let chroma ← ConstantQ.Chroma.processTime m s.chroma d.2
  let r ← KeyMode.process s.km chroma.chroma
  pure ({ s with dec := d.1, buf := d.2, chroma := chroma, km := r.1 }, r.2)

end QM.KeyMode
