import Verif.Common.Loop
import Verif.MathReal.Model
import Mathlib.Analysis.SpecialFunctions.Pow.Real

/-!
# Model of `dsp/keydetection/GetKeyMode.cpp`

The decimation and the chromagram of a block (lines 197-199) are a separate component: the model of `process` takes the 36 chroma values
they produce. `none` is an access outside an array or a division by zero.
-/

namespace QM.KeyMode

/-- `MajProfile`, dsp/keydetection/GetKeyMode.cpp:34-39, in units of 0.0001. -/
def majTab : List Int := [
  384, 629, 258, 121, 146, 106, 364, 610, 267,
  126, 121, 86, 364, 623, 279, 275, 414, 186,
  173, 248, 145, 364, 631, 262, 129, 150, 98,
  312, 521, 235, 129, 142, 95, 289, 478, 239]

/-- `MinProfile`, dsp/keydetection/GetKeyMode.cpp:41-46, in units of 0.0001. -/
def minTab : List Int := [
  375, 682, 299, 119, 138, 93, 296, 543, 257,
  292, 519, 246, 159, 234, 135, 291, 544, 248,
  137, 176, 104, 352, 670, 302, 222, 349, 164,
  174, 297, 166, 222, 401, 202, 175, 270, 146]

/-- A profile as doubles. -/
noncomputable def profile (tab : List Int) : List ℝ := tab.map (fun n : Int => (n : ℝ) / 10000)

/-- The fields of `GetKeyMode` that `process` and `getKeyStrengths` use, dsp/keydetection/GetKeyMode.h:94-112. -/
structure KM where
  cs : Nat
  ms : Nat
  idx : Nat
  cfill : Nat
  mfill : Nat
  chroma : List ℝ
  mean : List ℝ
  majNorm : List ℝ
  minNorm : List ℝ
  maj : List ℝ
  min : List ℝ
  med : List Nat
  sorted : List Nat
  strengths : List ℝ

/-- The buffer sizes, dsp/keydetection/GetKeyMode.cpp:99-102: `(int)ceil(average * FS / frameSize)`. -/
noncomputable def bufSize (average fs : ℝ) (frameSize : Nat) : Int := ⌈average * fs / frameSize⌉

/-- The constructor, dsp/keydetection/GetKeyMode.cpp:104-141, for given buffer sizes; `u` is the content of uninitialised memory. -/
noncomputable def make (cs ms : Nat) (u : ℝ) : Option KM := do
  let mMaj := MathReal.mean (profile majTab)
  let mMin := MathReal.mean (profile minTab)
  let majNorm ← loop 36 (fun i (a : List ℝ) => do
    let v ← (profile majTab)[i]?
    wr a i (v - mMaj)) (List.replicate 36 u)
  let minNorm ← loop 36 (fun i (a : List ℝ) => do
    let v ← (profile minTab)[i]?
    wr a i (v - mMin)) (List.replicate 36 u)
  pure ⟨cs, ms, 0, 0, 0, List.replicate (36 * cs) 0, List.replicate 36 u, majNorm, minNorm, List.replicate 36 u, List.replicate 36 u,
    List.replicate ms 0, List.replicate ms 0, List.replicate 24 u⟩

/-- `GetKeyMode::krumCorr`, dsp/keydetection/GetKeyMode.cpp:161-190. The index `k` is computed in `int` with C's remainder. -/
noncomputable def krumCorr (data prof : List ℝ) (shift : Int) (length : Nat) : Option ℝ := do
  let s ← loop length (fun i (s : ℝ × ℝ × ℝ) => do
    let k := ((i : Int) - shift + length).tmod length
    let d ← data[i]?
    let p ← rdI prof k
    pure (s.1 + d * p, s.2.1 + d * d, s.2.2 + p * p)) (0, 0, 0)
  let den := Real.sqrt (s.2.1 * s.2.2)
  if den > 0 then pure (s.1 / den) else pure 0

/-- The raw key from the two correlation arrays, dsp/keydetection/GetKeyMode.cpp:248-253. -/
noncomputable def rawKey (maj min : List ℝ) : Option Nat := do
  let (maxMajBin, maxMaj) ← MathReal.getMax maj
  let (maxMinBin, maxMin) ← MathReal.getMax min
  let maxBin := if maxMaj > maxMin then maxMajBin else maxMinBin + 36
  pure (maxBin / 3 + 1)

/-- The averaged chroma, dsp/keydetection/GetKeyMode.cpp:202-232: store the frame, average the stored frames, remove the mean. Returns
the chroma buffer, `m_bufferIndex`, `m_chromaBufferFilling` and `m_meanHPCP`. -/
noncomputable def average (s : KM) (frame : List ℝ) : Option (List ℝ × Nat × Nat × List ℝ) := do
  let chroma ← loop 36 (fun j (c : List ℝ) => do
    let v ← frame[j]?
    wr c (s.idx * 36 + j) v) s.chroma
  let idx := if (s.idx : Int) ≥ (s.cs : Int) - 1 then 0 else s.idx + 1
  let cfill := if s.cfill ≥ s.cs then s.cs else s.cfill + 1
  if cfill = 0 then none
  else do
    let mean ← loop 36 (fun k (m : List ℝ) => do
      let v ← loop cfill (fun j (acc : ℝ) => do
        let v ← chroma[k + j * 36]?
        pure (acc + v)) 0
      wr m k (v / cfill)) s.mean
    let mHPCP := MathReal.mean mean
    let mean ← loop 36 (fun k (m : List ℝ) => do
      let v ← m[k]?
      wr m k (v - mHPCP)) mean
    pure (chroma, idx, cfill, mean)

/-- The median filter, dsp/keydetection/GetKeyMode.cpp:257-287. Returns `m_medianBufferFilling`, `m_medianFilterBuffer`,
`m_sortedBuffer` and the key. `qsort` on the first `m_medianBufferFilling` elements is a sorting function. -/
def medianKey (s : KM) (key : Nat) : Option (Nat × List Nat × List Nat × Nat) := do
  let mfill := if s.mfill ≥ s.ms then s.ms else s.mfill + 1
  let med ← loop (s.ms - 1) (fun t (m : List Nat) => do
    let v ← m[t + 1]?
    wr m t v) s.med
  let med ← wrI med ((s.ms : Int) - 1) key
  let sorted ← loop s.ms (fun k (o : List Nat) => do
    let v ← rdI med ((s.ms : Int) - 1 - (k : Int))
    wr o k v) s.sorted
  let sorted := (sorted.take mfill).mergeSort (fun a b => decide (a ≤ b)) ++ sorted.drop mfill
  let midpoint := (mfill + 1) / 2
  let midpoint := if midpoint ≤ 0 then 1 else midpoint
  let key ← sorted[midpoint - 1]?
  pure (mfill, med, sorted, key)

/-- `GetKeyMode::process` from the chroma frame on, dsp/keydetection/GetKeyMode.cpp:201-290. -/
noncomputable def process (s : KM) (frame : List ℝ) : Option (KM × Nat) := do
  let (chroma, idx, cfill, mean) ← average s frame
  let maj ← loop 36 (fun k (a : List ℝ) => do
    let c ← krumCorr mean s.majNorm ((k : Int) - 2) 36
    wr a k c) s.maj
  let min ← loop 36 (fun k (a : List ℝ) => do
    let c ← krumCorr mean s.minNorm ((k : Int) - 2) 36
    wr a k c) s.min
  let key ← rawKey maj min
  let (mfill, med, sorted, key) ← medianKey s key
  pure (⟨s.cs, s.ms, idx, cfill, mfill, chroma, mean, s.majNorm, s.minNorm, maj, min, med, sorted, s.strengths⟩, key)

/-- `GetKeyMode::getKeyStrengths`, dsp/keydetection/GetKeyMode.cpp:292-316. -/
noncomputable def getKeyStrengths (s : KM) : Option (List ℝ) := do
  let a ← loop 24 (fun k (a : List ℝ) => wr a k 0) s.strengths
  let a ← loop 36 (fun k (a : List ℝ) => do
    let c ← s.maj[k]?
    let v ← a[k / 3]?
    if k % 3 = 0 ∨ c > v then wr a (k / 3) c else pure a) a
  loop 36 (fun k (a : List ℝ) => do
    let c ← s.min[k]?
    let v ← a[(k + 36) / 3]?
    if k % 3 = 0 ∨ c > v then wr a ((k + 36) / 3) c else pure a) a

end QM.KeyMode
