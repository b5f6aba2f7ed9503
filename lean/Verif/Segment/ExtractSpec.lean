import Verif.Kiss.Root
import Verif.Window.Props
import Verif.Mfcc.Spec
import Verif.ConstantQ.ChromaSpec

/-!
# What a feature vector is

Written without reference to the model of the segmenter.
-/

namespace QM.Segment

open Finset QM.DFT QM.ConstantQ

/-- How many frames of `n` samples, each half a frame after the one before, are taken from a signal of `p` samples: the first always, another if it
ends before the end of the signal. -/
def frameCount (n p : Nat) : Nat := 1 + (p - n - 1) / (n / 2)

/-- Sample `i` of frame `k` of a signal `x` of `p` samples, after which there is silence. -/
def frameAt (n p : Nat) (x : Nat → ℝ) (k i : Nat) : ℝ := if k * (n / 2) + i < p then x (k * (n / 2) + i) else 0

/-- How far into the signal the frames reach. -/
def reach (n p : Nat) : Nat := min p ((frameCount n p - 1) * (n / 2) + n)

/-- The mean over the frames. -/
noncomputable def meanOver (n p : Nat) (v : Nat → ℝ) : ℝ := (∑ k ∈ range (frameCount n p), v k) / frameCount n p

/-- The spectrum of a frame for the constant-Q features: of the frame with its halves exchanged, under a Hamming window. -/
noncomputable def cqSpectrum (N : Nat) (x : Nat → ℝ) (k : Nat) : ℂ :=
  dft false N (fun n => ((x ((n + N / 2) % N) * Window.shape .hamming N n : ℝ) : ℂ)) k

/-- The constant-Q feature for the kernel `W`: the mean of the magnitudes. -/
noncomputable def cqFeature (N : Nat) (thresh : ℝ) (W : Nat → ℂ) (p : Nat) (x : Nat → ℝ) : ℝ :=
  meanOver N p (fun k => ‖cqValue N thresh W (cqSpectrum N (frameAt N p x k))‖)

/-- The cepstral feature `j` at sampling rate `fs`: the mean of the coefficients. -/
noncomputable def mfFeature (fs : ℝ) (n : Nat) (p : Nat) (x : Nat → ℝ) (j : Nat) : ℝ :=
  meanOver n p (fun k => Mfcc.coeff id fs n (fun b => ‖dft false n (fun i => ((frameAt n p x k i * Window.shape .hamming n i : ℝ) : ℂ)) b‖) j)

end QM.Segment
