import Verif.Common.Loop
import Mathlib.Analysis.SpecialFunctions.Trigonometric.Basic

/-!
# Models of `TonalEstimator` and `ChromaVector` (dsp/tonal/TonalEstimator), `TCSGram`
(dsp/tonal/TCSgram) and `ChangeDetectionFunction` (dsp/tonal/ChangeDetectionFunction)

A `valarray` is a list; `none` is an access outside it, or undefined behaviour. Times in milliseconds are
integers of unbounded size.
-/

namespace QM.Tonal

/-- `ChromaVector::normalizeL1`, dsp/tonal/TonalEstimator.h:40-46. -/
noncomputable def normalizeL1 (v : List ℝ) : Option (List ℝ) := do
  let dSum ← loop 12 (fun i s => do
    let x ← v[i]?
    some (s + |x|)) (0 : ℝ)
  loop 12 (fun i (v : List ℝ) => do
    let x ← v[i]?
    wr v i (if dSum > 1 / 10 ^ 7 then x / dSum else 0)) v

/-- `ChromaVector::clear`, dsp/tonal/TonalEstimator.h:48-50. -/
noncomputable def clearChroma (v : List ℝ) : Option (List ℝ) := loop 12 (fun i v => wr v i 0) v

/-- `TCSVector::magnitude`, dsp/tonal/TonalEstimator.h:69-77. -/
noncomputable def magnitude (v : List ℝ) : Option ℝ := do
  let m ← loop 6 (fun i s => do
    let x ← v[i]?
    some (s + x ^ 2)) (0 : ℝ)
  some (Real.sqrt m)

/-- `m_Basis` as filled by the constructor, dsp/tonal/TonalEstimator.cpp:21-73. -/
noncomputable def basis : List (List ℝ) :=
  [(List.range 12).map (fun p : Nat => Real.sin ((7 / 6 : ℝ) * p * Real.pi)),
   (List.range 12).map (fun p : Nat => Real.cos ((7 / 6 : ℝ) * p * Real.pi)),
   (List.range 12).map (fun p : Nat => 6 / 10 * Real.sin ((2 / 3 : ℝ) * p * Real.pi)),
   (List.range 12).map (fun p : Nat => 6 / 10 * Real.cos ((2 / 3 : ℝ) * p * Real.pi)),
   (List.range 12).map (fun p : Nat => 11 / 10 * Real.sin ((3 / 2 : ℝ) * p * Real.pi)),
   (List.range 12).map (fun p : Nat => 11 / 10 * Real.cos ((3 / 2 : ℝ) * p * Real.pi))]

/-- `TonalEstimator::transform2TCS`, dsp/tonal/TonalEstimator.cpp:79-91. -/
noncomputable def transform2TCS (c : List ℝ) : Option (List ℝ) :=
  loop 6 (fun i (r : List ℝ) => loop 12 (fun p (r : List ℝ) => do
    let row ← basis[i]?
    let w ← row[p]?
    let x ← c[p]?
    let t ← r[i]?
    wr r i (t + w * x)) r) (List.replicate 6 0)

/-- Data members of `TCSGram`, dsp/tonal/TCSgram.h:48-50. `frameDuration` is `none` until
`setFrameDuration` has been called: the constructor (dsp/tonal/TCSgram.cpp:25-28) leaves it
uninitialised. `m_uNumBins` is never read. -/
structure Gram where
  vectors : List (Int × List ℝ)
  frameDuration : Option ℝ

/-- Constructor, dsp/tonal/TCSgram.cpp:25-28. -/
def Gram.new : Gram := ⟨[], none⟩

/-- `setFrameDuration`, dsp/tonal/TCSgram.h:40-42. -/
def Gram.setFrameDuration (g : Gram) (d : ℝ) : Gram := { g with frameDuration := some d }

/-- Conversion of a `double` to `long`: towards zero. -/
noncomputable def trunc (x : ℝ) : Int := if 0 ≤ x then ⌊x⌋ else ⌈x⌉

/-- `getTCSVector`, dsp/tonal/TCSgram.cpp:35-44. -/
def Gram.get (g : Gram) (i : Int) : List ℝ :=
  if i < 0 then List.replicate 6 0
  else if i ≥ g.vectors.length then List.replicate 6 0
  else (g.vectors.getD i.toNat (0, [])).2

/-- `getTime`, dsp/tonal/TCSgram.cpp:46-49. -/
def Gram.getTime (g : Gram) (i : Nat) : Option Int := (g.vectors[i]?).map Prod.fst

/-- `addTCSVector`, dsp/tonal/TCSgram.cpp:52-61. `none`: the uninitialised frame duration is read. -/
noncomputable def Gram.add (g : Gram) (v : List ℝ) : Option Gram := do
  let d ← g.frameDuration
  some { g with vectors := g.vectors ++ [(trunc (g.vectors.length * d), v)] }

/-- `getDuration`, dsp/tonal/TCSgram.cpp:63-67. -/
noncomputable def Gram.getDuration (g : Gram) : Option Int := do
  let d ← g.frameDuration
  some (trunc (g.vectors.length * d))

/-- `getSize`, dsp/tonal/TCSgram.h:37. -/
def Gram.getSize (g : Gram) : Nat := g.vectors.length

/-- `clear`, dsp/tonal/TCSgram.h:39. -/
def Gram.clear (g : Gram) : Gram := { g with vectors := [] }

/-- `ChangeDetectionFunction::setFilterWidth`, dsp/tonal/ChangeDetectionFunction.cpp:28-48: the Gaussian.
A negative width makes `resize` ask for a huge array and is `none`. `x` runs from `-w` to `w`. -/
noncomputable def gaussian (w : Int) : Option (List ℝ) :=
  if w < 0 then none
  else
    let width := w.toNat * 2 + 1
    let sigma : ℝ := width / (2 * 2.3548)
    let scale : ℝ := 1 / (sigma * Real.sqrt (2 * Real.pi))
    some ((List.range width).map (fun i : Nat =>
      scale * Real.exp (-(((i : ℝ) - w.toNat) * ((i : ℝ) - w.toNat)) / (2 * sigma * sigma))))

/-- dsp/tonal/ChangeDetectionFunction.cpp:80-89: one smoothed value. `lower` and `upper` are the first and last frame, `skip` the number
of kernel elements that fall before frame 0. -/
noncomputable def smoothOne (kernel : List ℝ) (g : Gram) (lower upper skip bin : Nat) : Option ℝ :=
  loop (upper + 1 - lower) (fun j s => do
    let k ← kernel[skip + j]?
    let x ← (g.get (lower + j : Nat))[bin]?
    some (s + k * x)) 0

/-- The first loop of `process`, dsp/tonal/ChangeDetectionFunction.cpp:58-93: the smoothed gram. The frame
duration of the new gram is the argument `dur`: the code never sets it. -/
noncomputable def smooth (kernel : List ℝ) (g : Gram) (dur : Option ℝ) : Option Gram :=
  loop g.getSize (fun pos sm => do
    let half : Int := ((kernel.length : Int) - 1) / 2
    let lowerPos : Int := pos - half
    let upperPos : Int := pos + half
    let skip := if lowerPos < 0 then -lowerPos else 0
    let lower := if lowerPos < 0 then 0 else lowerPos
    let upper := if upperPos ≥ g.getSize then (g.getSize : Int) - 1 else upperPos
    let v ← loop 6 (fun bin v => do
      let x ← smoothOne kernel g lower.toNat upper.toNat skip.toNat bin
      wr v bin x) (List.replicate 6 (0 : ℝ))
    sm.add v) ⟨[], dur⟩

/-- dsp/tonal/ChangeDetectionFunction.cpp:123-129: Euclidean distance of two six-element vectors. -/
noncomputable def distance (a b : List ℝ) : Option ℝ := do
  let d ← loop 6 (fun j s => do
    let x ← a[j]?
    let y ← b[j]?
    some (s + (x - y) ^ 2)) (0 : ℝ)
  some (Real.sqrt d)

/-- `ChangeDetectionFunction::process`, dsp/tonal/ChangeDetectionFunction.cpp:51-133, with the frame
duration of the local `smoothedTCSGram` as a parameter. -/
noncomputable def processWith (dur : Option ℝ) (kernel : List ℝ) (g : Gram) : Option (List ℝ) := do
  let sm ← smooth kernel g dur
  loop g.getSize (fun (pos : Nat) (r : List ℝ) => do
    let d ← distance (sm.get (pos + 1)) (sm.get ((pos : Int) - 1))
    wr r pos d) (List.replicate g.getSize 0)

/-- `ChangeDetectionFunction::process`, dsp/tonal/ChangeDetectionFunction.cpp:51-133: the local gram is
default constructed. -/
noncomputable def process (kernel : List ℝ) (g : Gram) : Option (List ℝ) := processWith none kernel g

end QM.Tonal
