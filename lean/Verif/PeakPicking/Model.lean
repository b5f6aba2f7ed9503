import Verif.DFProcess.Model
import Verif.PolyFit.Model

/-!
# Model of `dsp/onsets/PeakPicking.cpp`
-/

namespace QM.PeakPicking

/-- The first loop of `PeakPicking::quadEval`, dsp/onsets/PeakPicking.cpp:115-119. -/
noncomputable def candidates (src : List ℝ) : Option (List Nat) :=
  loop (src.length - 4) (fun t (out : List Nat) => do
    let i := t + 2
    let v ← src[i]?
    let p ← src[i - 1]?
    let q ← src[i + 1]?
    if v > p ∧ v > q ∧ v > 0 then pure (out ++ [i]) else pure out) []

/-- One iteration of the second loop of `PeakPicking::quadEval`, dsp/onsets/PeakPicking.cpp:125-141. State: `m_poly` and `idx`.
`m_maxFit` is empty at the start of each iteration. A division by zero inside the fit makes the result `none`. -/
noncomputable def fitStep (a c : ℝ) (src : List ℝ) (s : List ℝ × List Nat) (m : Nat) : Option (List ℝ × List Nat) := do
  let fit ← loop 5 (fun k (fit : List ℝ) => do
    let v ← rdI src ((m : Int) + ((k : Int) - 2))
    pure (fit ++ [v])) []
  let r := PolyFit.polyFit2 [-2, -1, 0, 1, 2] fit s.1
  if r.nan then none
  else do
    let f ← r.coefs[0]?
    let h ← r.coefs[2]?
    if h < -a ∨ f > c then pure (r.coefs, s.2 ++ [m]) else pure (r.coefs, s.2)

/-- `PeakPicking::quadEval`, dsp/onsets/PeakPicking.cpp:96-144. -/
noncomputable def quadEval (a c : ℝ) (src : List ℝ) (idx : List Nat) : Option (List Nat) := do
  let maxIndex ← candidates src
  let s ← maxIndex.foldlM (fitStep a c src) ([0, 0, 0], idx)
  pure s.2

/-- A `PeakPicking`, dsp/onsets/PeakPicking.h:67-91. -/
structure PP where
  dfp : DFProcess.DFP
  a : ℝ
  b : ℝ
  c : ℝ
  work : List ℝ

/-- `PeakPicking::PeakPicking` and `initialise`, dsp/onsets/PeakPicking.cpp:35-67. -/
noncomputable def make (length pre post alpha : Nat) (delta qa qb qc : ℝ) (bs as : List ℝ) (u : ℝ) : Option PP := do
  let d ← DFProcess.make length pre post alpha false delta bs as u
  pure ⟨d, qa, qb, qc, List.replicate length 0⟩

/-- `PeakPicking::process`, dsp/onsets/PeakPicking.cpp:76-94. Returns the object, the contents of `src` and `onsets`. -/
noncomputable def process (p : PP) (src : List ℝ) (len : Nat) (onsets : List Nat) : Option (PP × List ℝ × List Nat) :=
  if len < 4 then some (p, src, onsets)
  else do
    let (d, work) ← DFProcess.process p.dfp src p.work
    let maxima ← loop len (fun i (m : List ℝ) => do
      let v ← work[i]?
      pure (m ++ [v])) []
    let onsets ← quadEval p.a p.c maxima onsets
    let src ← loop maxima.length (fun b (src : List ℝ) => do
      let v ← maxima[b]?
      wr src b v) src
    pure ({ p with dfp := d, work := work }, src, onsets)

end QM.PeakPicking
