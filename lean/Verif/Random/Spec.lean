import Verif.Random.Model
import Verif.Segment.PipelineProps

/-! # Which random number goes where -/

namespace QM.Random

open Segment

/-- The numbers `v 0, v 1, …` in the order of the calls: for the means of `N` states with `L` features row by row, then for every state one
for the initial probability and `N` for the transitions, then for the reference histograms row by row. -/
noncomputable def randOf (top N L : Nat) (v : Nat → Nat) : Rand where
  mean i d := 1 / 2 * (v (i * L + d) : ℝ) / top - 1 / 4
  init i := (v (N * L + i * (N + 1)) : ℝ) / top
  trans i j := (v (N * L + (i * (N + 1) + (1 + j))) : ℝ) / top
  cluster i j := (v (N * L + (N * (N + 1) + (i * N + j))) : Int)

/-- How many numbers are drawn, with `k` clusters. -/
def drawn (N L k : Nat) : Nat := N * L + N * (N + 1) + k * N

/-- The number of features per frame that the model of the sound is made of. -/
def width {α : Type} (s : Segmenter α) : Nat :=
  match s.ftype with
  | .unknown | .mfcc => (s.features.headD []).length
  | .constq => 21
  | .chroma => s.nbins

end QM.Random
