import Verif.DecimatorB.Model
import Mathlib.Data.Real.Basic

/-!
# Model of `DecimatorB` in rounded arithmetic (dsp/rateconversion/DecimatorB.cpp)

The same code as in `Verif/DecimatorB/Model.lean` with a rounding `fl` after every operation and for every constant of the source. Each
operation is rounded by itself (no fused multiply-add, no extended registers). This is the overload for `double`.
-/

namespace QM.DecimatorB

noncomputable section

/-- Constructor and `initialise`, dsp/rateconversion/DecimatorB.cpp:23-82: the constants are rounded when they are compiled. -/
def newFl (fl : ℝ → ℝ) (inLength : Nat) (decFactor : Int) (aa tmp : List ℝ) : Option (State ℝ) :=
  let b := bCoeffs.map (fun q : ℚ => fl (q : ℝ))
  let a := aCoeffs.map (fun q : ℚ => fl (q : ℝ))
  if decFactor = 0 then none
  else
    let outputLength := (inLength : Int).tdiv decFactor
    if decFactor < 2 ∨ MathInt.isPowerOfTwo decFactor = false then
      some ⟨inLength, outputLength, 0, [], b, a, [], []⟩
    else if (inLength : Int).tmod decFactor ≠ 0 then
      some ⟨inLength, outputLength, 0, [], b, a, [], []⟩
    else some ⟨inLength, outputLength, decFactor.toNat, filters decFactor.toNat, b, a, aa, tmp⟩

/-- One iteration of `doAntiAlias`, dsp/rateconversion/DecimatorB.cpp:97-107. -/
def antiAliasStepFl (fl : ℝ → ℝ) (b a o : List ℝ) (input : ℝ) : List ℝ × ℝ :=
  let output := fl (fl (input * b.getD 0 0) + o.getD 0 0)
  ([fl (fl (fl (input * b.getD 1 0) - fl (output * a.getD 1 0)) + o.getD 1 0),
    fl (fl (fl (input * b.getD 2 0) - fl (output * a.getD 2 0)) + o.getD 2 0),
    fl (fl (fl (input * b.getD 3 0) - fl (output * a.getD 3 0)) + o.getD 3 0),
    fl (fl (fl (input * b.getD 4 0) - fl (output * a.getD 4 0)) + o.getD 4 0),
    fl (fl (fl (input * b.getD 5 0) - fl (output * a.getD 5 0)) + o.getD 5 0),
    fl (fl (input * b.getD 6 0) - fl (output * a.getD 6 0))], output)

/-- `doAntiAlias`, dsp/rateconversion/DecimatorB.cpp:90-109. -/
def doAntiAliasFl (fl : ℝ → ℝ) (b a : List ℝ) (os : List (List ℝ)) (src dst : List ℝ) (length filteridx : Nat) :
    Option (List (List ℝ) × List ℝ) := do
  let o ← os[filteridx]?
  let s ← loop length (fun i (s : List ℝ × List ℝ) => do
    let input ← src[i]?
    let r := antiAliasStepFl fl b a s.1 input
    let dst ← wr s.2 i r.2
    some (r.1, dst)) (o, dst)
  let os ← wr os filteridx s.1
  some (os, s.2)

/-- The body of the `while` loop of `doProcess`, dsp/rateconversion/DecimatorB.cpp:118-127. -/
def passFl (fl : ℝ → ℝ) (s : State ℝ) (filteridx factorDone : Nat) (w : List (List ℝ) × List ℝ × List ℝ) :
    Option (List (List ℝ) × List ℝ × List ℝ) := do
  let r ← doAntiAliasFl fl s.b s.a w.1 w.2.2 w.2.1 (s.inputLength / factorDone) filteridx
  let tmp ← loop (s.inputLength / (factorDone * 2)) (fun i tmp => do
    let v ← r.2[i * 2]?
    wr tmp i v) w.2.2
  some (r.1, r.2, tmp)

/-- `doProcess`, dsp/rateconversion/DecimatorB.cpp:111-129; `none` also if the fuel runs out. -/
def doProcessFl (fl : ℝ → ℝ) (s : State ℝ) : Nat → Nat → Nat → List (List ℝ) × List ℝ × List ℝ →
    Option (List (List ℝ) × List ℝ × List ℝ)
  | 0, _, _, _ => none
  | fuel + 1, filteridx, factorDone, w =>
    if factorDone < s.decFactor then do
      let w ← passFl fl s filteridx factorDone w
      doProcessFl fl s fuel (filteridx + 1) (factorDone * 2) w
    else some w

/-- `process`, dsp/rateconversion/DecimatorB.cpp:131-144. -/
def processFl (fl : ℝ → ℝ) (s : State ℝ) (src dst : List ℝ) : Option (State ℝ × List ℝ) :=
  if s.decFactor = 0 then some (s, dst)
  else do
    let tmp ← loop s.inputLength (fun i tmp => do
      let v ← src[i]?
      wr tmp i v) s.tmpBuffer
    let w ← doProcessFl fl s (s.decFactor + 1) 0 1 (s.o, s.aaBuffer, tmp)
    let dst ← loop s.outputLength.toNat (fun i dst => do
      let v ← w.2.2[i]?
      wr dst i v) dst
    some ({ s with o := w.1, aaBuffer := w.2.1, tmpBuffer := w.2.2 }, dst)

/-- Successive `process` calls; each block comes with the caller's output buffer. -/
def runFl (fl : ℝ → ℝ) (s : State ℝ) : List (List ℝ × List ℝ) → Option (State ℝ × List (List ℝ))
  | [] => some (s, [])
  | (src, dst) :: rest => do
    let (s, o) ← processFl fl s src dst
    let (s, os) ← runFl fl s rest
    some (s, o :: os)

end

end QM.DecimatorB
