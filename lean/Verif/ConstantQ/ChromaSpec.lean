import Verif.Kiss.Root
import Verif.Window.Props

/-! # What a constant-Q value and a chroma value are

Written without reference to the model. -/

namespace QM.ConstantQ

open Finset QM.DFT

/-- A constant-Q value: the sum of the spectrum `X` against the conjugate of the spectrum `W` of the kernel, where that is above the threshold, except at
frequency zero. -/
noncomputable def cqValue (N : Nat) (thresh : ℝ) (W X : Nat → ℂ) : ℂ :=
  ∑ i ∈ range N, if thresh * thresh < Complex.normSq (W i) ∧ i ≠ 0 then (starRingEnd ℂ) (W i) / N * X (N - i) else 0

/-- The spectrum of a frame under a Hamming window, with the middle of the frame moved to time zero. -/
noncomputable def centredSpectrum (N : Nat) (x : Nat → ℝ) (k : Nat) : ℂ :=
  dft false N (fun n => ((x ((n + N / 2) % N) * Window.shape .hamming N ((n + N / 2) % N) : ℝ) : ℂ)) k

/-- The value of class `b` before normalisation: the sum over the octaves of the magnitudes, `W j` being the spectrum of the kernel of bin `j`. -/
noncomputable def chromaValue (N octaves bpo : Nat) (thresh : ℝ) (W : Nat → Nat → ℂ) (X : Nat → ℂ) (b : Nat) : ℝ :=
  ∑ oct ∈ range octaves, ‖cqValue N thresh (W (oct * bpo + b)) X‖

end QM.ConstantQ
