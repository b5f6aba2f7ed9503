import Verif.Wavelet.Table
import Mathlib.Algebra.Field.Rat

/-! # dsp/wavelet/Wavelet.cpp -/

namespace QM.Wavelet

/-- `Wavelet::createDecompositionFilters`, dsp/wavelet/Wavelet.cpp:72-1851. `lpd` and `hpd` are what the vectors passed in hold. The literals are exact decimal
numbers; their rounding to `double` is not modelled. `none`: an assertion (lines 1849-1850) fails. -/
def createDecompositionFilters (t : WType) (_lpd _hpd : List ℚ) : Option (List ℚ × List ℚ) :=
  let lpd : List ℚ := (low t).foldl (fun v (c : Int) => v ++ [(c : ℚ) / 10 ^ 14]) []
  let hpd : List ℚ := (high t).foldl (fun v (c : Int) => v ++ [(c : ℚ) / 10 ^ 14]) []
  if flength t = lpd.length ∧ flength t = hpd.length then some (lpd, hpd) else none

end QM.Wavelet
