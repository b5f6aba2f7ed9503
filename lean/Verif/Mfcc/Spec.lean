import Verif.DCT.Spec
import Mathlib.Analysis.SpecialFunctions.Log.Base

/-!
# Mel-frequency cepstral coefficients

Written without reference to the model of the code.
-/

namespace QM.Mfcc

/-- The edges of the bands in Hz: 13 equally spaced, then 29 in geometric progression. -/
noncomputable def edge (i : Nat) : ℝ :=
  if i < 13 then 66.6666666 + i * 66.66666666 else (66.6666666 + 12 * 66.66666666) * 1.0711703 ^ (i - 12)

/-- Band `i`: a triangle over `[edge i, edge (i + 2)]` with its apex over `edge (i + 1)` and area one. -/
noncomputable def band (i : Nat) (f : ℝ) : ℝ :=
  2 / (edge (i + 2) - edge i) *
    max 0 (min ((f - edge i) / (edge (i + 1) - edge i)) ((edge (i + 2) - f) / (edge (i + 2) - edge (i + 1))))

/-- The output of band `i` for a spectrum with magnitude `mag j` at frequency `j fs / n`. -/
noncomputable def bandOut (fs : ℝ) (n : Nat) (mag : Nat → ℝ) (i : Nat) : ℝ :=
  ∑ j ∈ Finset.range (n / 2), band i (j * fs / n) * mag j

/-- The decimal logarithm, 0 for silence. -/
noncomputable def logOut (t : ℝ) : ℝ := if 0 < t then Real.logb 10 t else 0

/-- Cepstral coefficient `k`: the unitary cosine transform of the compressed logarithms of the forty bands. -/
noncomputable def coeff (pw : ℝ → ℝ) (fs : ℝ) (n : Nat) (mag : Nat → ℝ) (k : Nat) : ℝ :=
  DCT.dctU 40 (fun i => pw (logOut (bandOut fs n mag i))) k

end QM.Mfcc
