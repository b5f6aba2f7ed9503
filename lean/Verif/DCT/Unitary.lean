import Verif.DCT.RoundedProps

/-!
# The unitary cosine transforms in double precision
-/

namespace QM.DCT

open QM.FFT QM.DFT QM.Kiss QM.Double Finset

noncomputable section

variable (fl cosF sinF : ℝ → ℝ)

/-- `DCT::forwardUnitary`, dsp/transforms/DCT.cpp:50-58, in double precision. -/
def forwardUnitaryF (d : T) (inp out : List ℝ) : Option (T × List ℝ) := do
  let (d', out) ← forwardF fl d inp out
  let out ← loop d.n (fun i o => do
    let v ← o[i]?
    wr o i (fl (v / d.scale))) out
  let v ← out[0]?
  let out ← wr out 0 (fl (v / fl (Real.sqrt 2)))
  pure (d', out)

/-- `DCT::inverseUnitary`, dsp/transforms/DCT.cpp:82-90, in double precision. -/
def inverseUnitaryF (d : T) (inp out : List ℝ) : Option (T × List ℝ) := do
  let scaled ← loop d.n (fun i s => do
    let v ← inp[i]?
    wr s i (fl (v * d.scale))) d.scaled
  let v ← scaled[0]?
  let scaled ← wr scaled 0 (fl (v * fl (Real.sqrt 2)))
  inverseF fl { d with scaled := scaled } scaled out

end

/-! ## Without rounding -/

theorem forwardUnitaryF_id (d : T) : forwardUnitaryF id d = forwardUnitary d := by
  funext inp out; simp only [forwardUnitaryF, forwardUnitary, forwardF_id, id_eq]

theorem inverseUnitaryF_id (d : T) : inverseUnitaryF id d = inverseUnitary d := by
  funext inp out; simp only [inverseUnitaryF, inverseUnitary, inverseF_id, id_eq]

end QM.DCT
