import Verif.Common.Loop
import Mathlib.Algebra.Field.Rat
import Mathlib.Data.Rat.Cast.Defs

/-!
# Model of `Decimator` (dsp/rateconversion/Decimator.cpp)

Samples are elements of a field (exact arithmetic); the `float` overloads (lines 175-193, 213-229) are
the same code with a conversion at each end and are not modelled separately.
-/

namespace QM.Decimator

variable {K : Type} [Field K]

/-- The coefficient tables `(b, a)`, dsp/rateconversion/Decimator.cpp:49-138, as exact decimals. -/
def coeffs : Nat → List ℚ × List ℚ
  | 8 => ([0.060111378492136, -0.257323420830598, 0.420583503165928, -0.222750785197418, -0.222750785197418, 0.420583503165928, -0.257323420830598, 0.060111378492136],
      [1, -5.667654878577432, 14.062452278088417, -19.737303840697738, 16.889698874608641, -8.796600612325928, 2.577553446979888, -0.326903916815751])
  | 4 => ([0.10133306904918619, -0.2447523353702363, 0.33622528590120965, -0.13936581560633518, -0.13936581560633382, 0.3362252859012087, -0.2447523353702358, 0.10133306904918594],
      [1, -3.9035590278139427, 7.5299379980621133, -8.6890803793177511, 6.4578667096099176, -3.0242979431223631, 0.83043385136748382, -0.094420800837809335])
  | 2 => ([0.20898944260075727, 0.40011234879814367, 0.819741973072733, 1.0087419911682323, 1.0087419911682325, 0.81974197307273156, 0.40011234879814295, 0.20898944260075661],
      [1, 0.0077331184208358217, 1.9853971155964376, 0.19296739275341004, 1.2330748872852182, 0.18705341389316466, 0.23659265908013868, 0.032352924250533946])
  | _ => ([1, 0, 0, 0, 0, 0, 0, 0], [1, 0, 0, 0, 0, 0, 0, 0])

/-- Data members of `Decimator`, dsp/rateconversion/Decimator.h:63-79 (`Input`, `Output` and
`decBuffer` are temporaries). -/
structure State (K : Type) where
  inputLength : Nat
  outputLength : Nat
  decFactor : Nat
  b : List K
  a : List K
  o1 : K
  o2 : K
  o3 : K
  o4 : K
  o5 : K
  o6 : K
  o7 : K

/-- `resetFilter`, dsp/rateconversion/Decimator.cpp:148-153. -/
def resetFilter (s : State K) : State K :=
  { s with o1 := 0, o2 := 0, o3 := 0, o4 := 0, o5 := 0, o6 := 0, o7 := 0 }

/-- Constructor and `initialise`, dsp/rateconversion/Decimator.cpp:24-141. `none` is the division by
zero for factor 0. -/
def new (inLength decFactor : Nat) : Option (State K) :=
  if decFactor = 0 then none
  else some (resetFilter
    { inputLength := inLength, outputLength := inLength / decFactor, decFactor := decFactor,
      b := (coeffs decFactor).1.map (fun q : ℚ => (q : K)),
      a := (coeffs decFactor).2.map (fun q : ℚ => (q : K)),
      o1 := 0, o2 := 0, o3 := 0, o4 := 0, o5 := 0, o6 := 0, o7 := 0 })

/-- One iteration of `doAntiAlias`, dsp/rateconversion/Decimator.cpp:157-172. The coefficient arrays
have constant size 9, so reads `b[0..7]` are in bounds. -/
def antiAliasStep (s : State K) (input : K) : State K × K :=
  let b := fun i => s.b.getD i 0
  let a := fun i => s.a.getD i 0
  let output := input * b 0 + s.o1
  let o1 := input * b 1 - output * a 1 + s.o2
  let o2 := input * b 2 - output * a 2 + s.o3
  let o3 := input * b 3 - output * a 3 + s.o4
  let o4 := input * b 4 - output * a 4 + s.o5
  let o5 := input * b 5 - output * a 5 + s.o6
  let o6 := input * b 6 - output * a 6 + s.o7
  let o7 := input * b 7 - output * a 7
  ({ s with o1 := o1, o2 := o2, o3 := o3, o4 := o4, o5 := o5, o6 := o6, o7 := o7 }, output)

/-- `doAntiAlias` over a block, dsp/rateconversion/Decimator.cpp:155-173. -/
def doAntiAlias (s : State K) : List K → State K × List K
  | [] => (s, [])
  | x :: xs =>
    let (s, y) := antiAliasStep s x
    let (s, ys) := doAntiAlias s xs
    (s, y :: ys)

/-- `process`, dsp/rateconversion/Decimator.cpp:195-211. `src` must supply `m_inputLength` samples and
`dst` room for `m_outputLength`; `none` is an access outside `src`, `dst` or `decBuffer`. -/
def process (s : State K) (src dst : List K) : Option (State K × List K) :=
  if s.decFactor = 1 then do
    let d ← loop s.outputLength (fun i dst => do
      let v ← src[i]?
      wr dst i v) dst
    some (s, d)
  else
    if src.length < s.inputLength then none
    else do
      let (s', decBuffer) := doAntiAlias s (src.take s.inputLength)
      let d ← loop s.outputLength (fun i dst => do
        let v ← decBuffer[s.decFactor * i]?
        wr dst i v) dst
      some (s', d)

end QM.Decimator
