import Verif.Decimator.Rounded

/-!
# The single-precision interface of the decimator

`process(const float *, float *)` filters in double precision and converts each kept sample to `float` where it stores it. `g` is that
conversion. The samples of the input are converted to `double` exactly, so they are the same real numbers.
-/

namespace QM.Decimator

noncomputable section

/-- `process(const float *, float *)` with a factor other than 1, dsp/rateconversion/Decimator.cpp:222-231. Its `doAntiAlias`, lines 175-194, is line
for line the one of the double interface, lines 155-173. -/
def processF (g fl : ℝ → ℝ) (s : State ℝ) (src dst : List ℝ) : Option (State ℝ × List ℝ) :=
  if src.length < s.inputLength then none
  else do
    let (s', decBuffer) := doAntiAliasFl fl s (src.take s.inputLength)
    let d ← loop s.outputLength (fun i dst => do
      let v ← decBuffer[s.decFactor * i]?
      wr dst i (g v)) dst
    some (s', d)

/-- A call to one of the two interfaces: `true` for the single-precision one. -/
def processMix (g fl : ℝ → ℝ) (s : State ℝ) (single : Bool) (src dst : List ℝ) : Option (State ℝ × List ℝ) :=
  if single then processF g fl s src dst else processFl fl s src dst

/-- Successive calls to either interface of one object. -/
def runMix (g fl : ℝ → ℝ) (s : State ℝ) : List (Bool × List ℝ × List ℝ) → Option (State ℝ × List (List ℝ))
  | [] => some (s, [])
  | (single, src, dst) :: rest => do
    let (s, o) ← processMix g fl s single src dst
    let (s, os) ← runMix g fl s rest
    some (s, o :: os)

/-- The two decimators of the downbeat tracker in cascade, dsp/tempotracking/DownBeat.cpp:104-106, over successive blocks: the first writes into the
array `m_decbuf` of single-precision numbers, the second into the buffer of the object (here a fresh `dst` for each block; how the buffer grows is
in `Verif/DownBeat/Buffer.lean`). -/
def cascadeF (g fl : ℝ → ℝ) (s1 s2 : State ℝ) (decbuf : List ℝ) : List (List ℝ × List ℝ) → Option (List (List ℝ))
  | [] => some []
  | (audio, dst) :: rest => do
    let (s1, decbuf) ← processF g fl s1 audio decbuf
    let (s2, o) ← processF g fl s2 decbuf dst
    let os ← cascadeF g fl s1 s2 decbuf rest
    some (o :: os)

end

end QM.Decimator
