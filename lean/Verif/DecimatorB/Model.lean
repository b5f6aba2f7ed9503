import Verif.Common.Loop
import Verif.MathInt.Model
import Mathlib.Algebra.Field.Rat
import Mathlib.Data.Rat.Cast.Defs

/-!
# Model of `DecimatorB` (dsp/rateconversion/DecimatorB.cpp)

Samples are elements of a field (exact arithmetic); the `float` overload (lines 146-160) is the same
code with a conversion at each end. The block length is a natural number (a negative one is not
modelled). `none` is a division by zero or an access outside an array.
-/

namespace QM.DecimatorB

variable {K : Type} [Field K]

/-- `m_b`, dsp/rateconversion/DecimatorB.cpp:63-69, as exact decimals. -/
def bCoeffs : List ℚ := [0.029588223638661, 0.177529341831965, 0.443823354579912, 0.591764472773216,
  0.443823354579912, 0.177529341831965, 0.029588223638661]

/-- `m_a`, dsp/rateconversion/DecimatorB.cpp:71-77, as exact decimals. -/
def aCoeffs : List ℚ := [1, 0, 0.777695961855673, 0, 0.114199425062434, 0, 0.001750925956183]

/-- Data members, dsp/rateconversion/DecimatorB.h:52-62. -/
structure State (K : Type) where
  inputLength : Nat
  outputLength : Int
  decFactor : Nat
  o : List (List K)
  b : List K
  a : List K
  aaBuffer : List K
  tmpBuffer : List K

/-- The filter memories, one for each halving: dsp/rateconversion/DecimatorB.cpp:79-81. -/
def filters (factor : Nat) : List (List K) :=
  if factor > 1 then List.replicate 6 0 :: filters (factor / 2) else []
termination_by factor
decreasing_by omega

/-- Constructor and `initialise`, dsp/rateconversion/DecimatorB.cpp:23-82. The arrays `aa` and `tmp`
are the uninitialised contents of the two `new double[m_inputLength]`. A state with factor 0 is the
result of the two error returns. -/
def new (inLength : Nat) (decFactor : Int) (aa tmp : List K) : Option (State K) :=
  let b := bCoeffs.map (fun q : ℚ => (q : K))
  let a := aCoeffs.map (fun q : ℚ => (q : K))
  if decFactor = 0 then none
  else
    let outputLength := (inLength : Int).tdiv decFactor
    if decFactor < 2 ∨ MathInt.isPowerOfTwo decFactor = false then
      some ⟨inLength, outputLength, 0, [], b, a, [], []⟩
    else if (inLength : Int).tmod decFactor ≠ 0 then
      some ⟨inLength, outputLength, 0, [], b, a, [], []⟩
    else some ⟨inLength, outputLength, decFactor.toNat, filters decFactor.toNat, b, a, aa, tmp⟩

/-- One iteration of `doAntiAlias`, dsp/rateconversion/DecimatorB.cpp:97-107: the new filter memory and
the output. The arrays have the constant sizes 7 and 6. -/
def antiAliasStep (b a o : List K) (input : K) : List K × K :=
  let output := input * b.getD 0 0 + o.getD 0 0
  ([input * b.getD 1 0 - output * a.getD 1 0 + o.getD 1 0,
    input * b.getD 2 0 - output * a.getD 2 0 + o.getD 2 0,
    input * b.getD 3 0 - output * a.getD 3 0 + o.getD 3 0,
    input * b.getD 4 0 - output * a.getD 4 0 + o.getD 4 0,
    input * b.getD 5 0 - output * a.getD 5 0 + o.getD 5 0,
    input * b.getD 6 0 - output * a.getD 6 0], output)

/-- `doAntiAlias`, dsp/rateconversion/DecimatorB.cpp:90-109. -/
def doAntiAlias (b a : List K) (os : List (List K)) (src dst : List K) (length filteridx : Nat) :
    Option (List (List K) × List K) := do
  let o ← os[filteridx]?
  let s ← loop length (fun i (s : List K × List K) => do
    let input ← src[i]?
    let r := antiAliasStep b a s.1 input
    let dst ← wr s.2 i r.2
    some (r.1, dst)) (o, dst)
  let os ← wr os filteridx s.1
  some (os, s.2)

/-- The body of the `while` loop of `doProcess`, dsp/rateconversion/DecimatorB.cpp:118-127. The state is
`(m_o, m_aaBuffer, m_tmpBuffer)`. -/
def pass (s : State K) (filteridx factorDone : Nat) (w : List (List K) × List K × List K) :
    Option (List (List K) × List K × List K) := do
  let r ← doAntiAlias s.b s.a w.1 w.2.2 w.2.1 (s.inputLength / factorDone) filteridx
  let tmp ← loop (s.inputLength / (factorDone * 2)) (fun i tmp => do
    let v ← r.2[i * 2]?
    wr tmp i v) w.2.2
  some (r.1, r.2, tmp)

/-- `doProcess`, dsp/rateconversion/DecimatorB.cpp:111-129; `none` also if the fuel runs out. -/
def doProcess (s : State K) : Nat → Nat → Nat → List (List K) × List K × List K →
    Option (List (List K) × List K × List K)
  | 0, _, _, _ => none
  | fuel + 1, filteridx, factorDone, w =>
    if factorDone < s.decFactor then do
      let w ← pass s filteridx factorDone w
      doProcess s fuel (filteridx + 1) (factorDone * 2) w
    else some w

/-- `process`, dsp/rateconversion/DecimatorB.cpp:131-144. The number of passes is at most the factor, so
`decFactor + 1` is enough fuel. -/
def process (s : State K) (src dst : List K) : Option (State K × List K) :=
  if s.decFactor = 0 then some (s, dst)
  else do
    let tmp ← loop s.inputLength (fun i tmp => do
      let v ← src[i]?
      wr tmp i v) s.tmpBuffer
    let w ← doProcess s (s.decFactor + 1) 0 1 (s.o, s.aaBuffer, tmp)
    let dst ← loop s.outputLength.toNat (fun i dst => do
      let v ← w.2.2[i]?
      wr dst i v) dst
    some ({ s with o := w.1, aaBuffer := w.2.1, tmpBuffer := w.2.2 }, dst)

/-- `getFactor`, dsp/rateconversion/DecimatorB.h:43. -/
def getFactor (s : State K) : Nat := s.decFactor

end QM.DecimatorB
