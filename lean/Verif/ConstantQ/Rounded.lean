import Verif.ConstantQ.Model
import Verif.Common.Nearest

/-!
# Model of the sizes in `dsp/chromagram/ConstantQ.cpp` and `Chromagram.cpp` in floating point

`fl` rounds to `double`; `logF` and `powF` are `log` and `pow` of the C library.
-/

namespace QM.ConstantQ.Rounded

variable (fl logF : ℝ → ℝ) (powF : ℝ → ℝ → ℝ)

/-- `m_dQ`, dsp/chromagram/ConstantQ.cpp:138. -/
noncomputable def q (bpo : Nat) : ℝ := fl (1 / fl (powF 2 (fl (1 / (bpo : ℝ))) - 1))

/-- `m_uK`, dsp/chromagram/ConstantQ.cpp:141. -/
noncomputable def bins (fmin fmax : ℝ) (bpo : Nat) : Int := ⌈fl (fl (bpo * logF (fl (fmax / fmin))) / logF 2)⌉

/-- `m_FFTLength`, dsp/chromagram/ConstantQ.cpp:144. -/
noncomputable def fftLength (fs fmin : ℝ) (bpo : Nat) : Option Int := MathInt.nextPowerOfTwo ⌈fl (fl (q fl powF bpo * fs) / fmin)⌉

/-- `windowLength` of bin `j`, dsp/chromagram/ConstantQ.cpp:65-66. -/
noncomputable def windowLength (fs fmin : ℝ) (bpo j : Nat) : Int :=
  ⌈fl (fl (q fl powF bpo * fs) / fl (fmin * powF 2 (fl ((j : ℝ) / bpo))))⌉

/-- `origin`, dsp/chromagram/ConstantQ.cpp:68. -/
def origin (N wl : Int) : Int := N.tdiv 2 - wl.tdiv 2

/-- `ceil(octaves)`, dsp/chromagram/Chromagram.cpp:36-37. -/
noncomputable def octaves (fmin fmax : ℝ) : Int := ⌈fl (logF (fl (fmax / fmin)) / logF 2)⌉

/-- `m_FMax`, dsp/chromagram/Chromagram.cpp:37. -/
noncomputable def extended (fmin fmax : ℝ) : ℝ := fl (fmin * powF 2 (octaves fl logF fmin fmax))

/-- `m_uK` of a `Chromagram`, dsp/chromagram/Chromagram.cpp:48-57. -/
noncomputable def chromaBins (fmin fmax : ℝ) (bpo : Nat) : Int := bins fl logF fmin (extended fl logF powF fmin fmax) bpo

/-- The octaves added up in `Chromagram::process`, dsp/chromagram/Chromagram.cpp:170. -/
noncomputable def chromaOctaves (fmin fmax : ℝ) (bpo : Nat) : Int := (chromaBins fl logF powF fmin fmax bpo).tdiv bpo

end QM.ConstantQ.Rounded
