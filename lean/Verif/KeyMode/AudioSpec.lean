import Verif.KeyMode.Spec
import Verif.KeyMode.Audio
import Verif.ConstantQ.ChromaProps
import Verif.Decimator.Props

/-! # Specification of key detection from audio -/

namespace QM.KeyMode

open QM.ConstantQ

/-- A usable configuration: positive durations and factors, and a concert pitch between one five-millionth of the decimated sampling rate and that rate. -/
structure Config.Usable (cfg : Config) : Prop where
  factor : 0 < cfg.factor
  overlap : 0 < cfg.overlap
  hpcp : 0 < cfg.hpcpAverage
  median : 0 < cfg.medianAverage
  tuning : 0 < cfg.tuning
  low : cfg.tuning ≤ cfg.chroma.fs
  high : cfg.chroma.fs ≤ 5000000 * cfg.tuning

/-- `y` is the audio `x` after the anti-aliasing filter for the factor; at factor 1 there is none. -/
def Filtered (f : Nat) (x y : List ℝ) : Prop := (f ≠ 1 → Filter.DiffEq (Decimator.bOf f) (Decimator.aOf f) x y) ∧ (f = 1 → y = x)

/-- The chroma of frame `j` of the filtered audio `y`, every `f`-th sample being kept, in frames of `N`. -/
noncomputable def frameChroma (cfg : Config) (N : Nat) (y : List ℝ) (j : Nat) : List ℝ :=
  chromaVector cfg.chroma N 4 (centredSpectrum N (fun i => y.getD (j * (N * cfg.factor) + cfg.factor * i) 0))

/-- `key` is the answer to the `n`-th block (from 1) of audio that is `y` when filtered: the lower median of the last `ms` raw keys, each that of the
mean of the last `cs` chroma frames. -/
def IsKey (cfg : Config) (N cs ms : Nat) (y : List ℝ) (n key : Nat) : Prop :=
  ∃ raws : List Nat, raws.length = n ∧
    (∀ j, j < n → RawKey (meanChroma cs ((List.range (j + 1)).map (frameChroma cfg N y))) (raws.getD j 0)) ∧
    IsLowerMedian (raws.drop (n - ms)) key

/-- Processing a list of blocks, each with the contents of newly allocated memory. The keys are listed. -/
noncomputable def Audio.run (s : Audio) : List (KernelMem × List ℝ) → Option (Audio × List Nat)
  | [] => some (s, [])
  | c :: rest => do
    let r ← Audio.process c.1 s c.2
    let q ← Audio.run r.1 rest
    pure (q.1, r.2 :: q.2)

end QM.KeyMode
