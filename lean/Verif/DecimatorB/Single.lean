import Verif.DecimatorB.Rounded

/-!
# The single-precision interface of the decimator by powers of two
-/

namespace QM.DecimatorB

noncomputable section

/-- `process(const float *, float *)`, dsp/rateconversion/DecimatorB.cpp:146-159: samples are converted to `double` exactly when they are read and
rounded by `g` when they are stored. -/
def processF (g fl : ℝ → ℝ) (s : State ℝ) (src dst : List ℝ) : Option (State ℝ × List ℝ) :=
  if s.decFactor = 0 then some (s, dst)
  else do
    let tmp ← loop s.inputLength (fun i tmp => do
      let v ← src[i]?
      wr tmp i v) s.tmpBuffer
    let w ← doProcessFl fl s (s.decFactor + 1) 0 1 (s.o, s.aaBuffer, tmp)
    let dst ← loop s.outputLength.toNat (fun i dst => do
      let v ← w.2.2[i]?
      wr dst i (g v)) dst
    some ({ s with o := w.1, aaBuffer := w.2.1, tmpBuffer := w.2.2 }, dst)

/-- A call to one of the two interfaces: `true` for the single-precision one. -/
def processMix (g fl : ℝ → ℝ) (s : State ℝ) (single : Bool) (src dst : List ℝ) : Option (State ℝ × List ℝ) :=
  if single then processF g fl s src dst else processFl fl s src dst

/-- Successive calls to either interface of one object. -/
def runMix (g fl : ℝ → ℝ) (s : State ℝ) : List (Bool × List ℝ × List ℝ) → Option (State ℝ × List (List ℝ))
  | [] => some (s, [])
  | (single, src, dst) :: rest => do
    let (s, o) ← processMix g fl s single src dst
    let (s, os) ← runMix g fl s rest
    some (s, o :: os)

end

end QM.DecimatorB
