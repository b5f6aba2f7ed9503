import Verif.Decimator.Model
import Mathlib.Data.Real.Basic

/-!
# Model of `Decimator` in rounded arithmetic (dsp/rateconversion/Decimator.cpp)

The same code as in `Verif/Decimator/Model.lean` with a rounding `fl` after every operation and for every constant of the source. Each
operation is rounded by itself (no fused multiply-add, no extended registers).
-/

namespace QM.Decimator

noncomputable section

/-- Constructor and `initialise`, dsp/rateconversion/Decimator.cpp:24-141: the constants are rounded when they are compiled. -/
def newFl (fl : ℝ → ℝ) (inLength decFactor : Nat) : Option (State ℝ) :=
  if decFactor = 0 then none
  else some (resetFilter
    { inputLength := inLength, outputLength := inLength / decFactor, decFactor := decFactor,
      b := (coeffs decFactor).1.map (fun q : ℚ => fl (q : ℝ)),
      a := (coeffs decFactor).2.map (fun q : ℚ => fl (q : ℝ)),
      o1 := 0, o2 := 0, o3 := 0, o4 := 0, o5 := 0, o6 := 0, o7 := 0 })

/-- One iteration of `doAntiAlias`, dsp/rateconversion/Decimator.cpp:157-172. -/
def antiAliasStepFl (fl : ℝ → ℝ) (s : State ℝ) (input : ℝ) : State ℝ × ℝ :=
  let b := fun i => s.b.getD i 0
  let a := fun i => s.a.getD i 0
  let output := fl (fl (input * b 0) + s.o1)
  let o1 := fl (fl (fl (input * b 1) - fl (output * a 1)) + s.o2)
  let o2 := fl (fl (fl (input * b 2) - fl (output * a 2)) + s.o3)
  let o3 := fl (fl (fl (input * b 3) - fl (output * a 3)) + s.o4)
  let o4 := fl (fl (fl (input * b 4) - fl (output * a 4)) + s.o5)
  let o5 := fl (fl (fl (input * b 5) - fl (output * a 5)) + s.o6)
  let o6 := fl (fl (fl (input * b 6) - fl (output * a 6)) + s.o7)
  let o7 := fl (fl (input * b 7) - fl (output * a 7))
  ({ s with o1 := o1, o2 := o2, o3 := o3, o4 := o4, o5 := o5, o6 := o6, o7 := o7 }, output)

/-- `doAntiAlias` over a block, dsp/rateconversion/Decimator.cpp:155-173. -/
def doAntiAliasFl (fl : ℝ → ℝ) (s : State ℝ) : List ℝ → State ℝ × List ℝ
  | [] => (s, [])
  | x :: xs =>
    let (s, y) := antiAliasStepFl fl s x
    let (s, ys) := doAntiAliasFl fl s xs
    (s, y :: ys)

/-- `process` with a factor other than 1, dsp/rateconversion/Decimator.cpp:204-210. -/
def processFl (fl : ℝ → ℝ) (s : State ℝ) (src dst : List ℝ) : Option (State ℝ × List ℝ) :=
  if src.length < s.inputLength then none
  else do
    let (s', decBuffer) := doAntiAliasFl fl s (src.take s.inputLength)
    let d ← loop s.outputLength (fun i dst => do
      let v ← decBuffer[s.decFactor * i]?
      wr dst i v) dst
    some (s', d)

/-- Successive `process` calls; each block comes with the caller's output buffer. -/
def runFl (fl : ℝ → ℝ) (s : State ℝ) : List (List ℝ × List ℝ) → Option (State ℝ × List (List ℝ))
  | [] => some (s, [])
  | (src, dst) :: rest => do
    let (s, o) ← processFl fl s src dst
    let (s, os) ← runFl fl s rest
    some (s, o :: os)

end

end QM.Decimator
