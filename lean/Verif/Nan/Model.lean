import Verif.Nan.Filter
import Verif.Decimator.Model
import Verif.PeakPicking.Model
import Verif.KeyMode.Model

/-!
# Decimation, onset picking and key detection with values that may be NaN
-/

namespace QM.Nan

/-! ## `Decimator` -/

/-- One iteration of `doAntiAlias`, dsp/rateconversion/Decimator.cpp:157-172. The coefficients are numbers. -/
def antiAliasStep (s : Decimator.State Num) (input : Num) : Decimator.State Num × Num :=
  let b := fun i => s.b.getD i 0
  let a := fun i => s.a.getD i 0
  let output := input * b 0 + s.o1
  let o1 := input * b 1 - output * a 1 + s.o2
  let o2 := input * b 2 - output * a 2 + s.o3
  let o3 := input * b 3 - output * a 3 + s.o4
  let o4 := input * b 4 - output * a 4 + s.o5
  let o5 := input * b 5 - output * a 5 + s.o6
  let o6 := input * b 6 - output * a 6 + s.o7
  let o7 := input * b 7 - output * a 7
  ({ s with o1 := o1, o2 := o2, o3 := o3, o4 := o4, o5 := o5, o6 := o6, o7 := o7 }, output)

/-- `doAntiAlias`, dsp/rateconversion/Decimator.cpp:155-173. -/
def doAntiAlias (s : Decimator.State Num) : List Num → Decimator.State Num × List Num
  | [] => (s, [])
  | x :: xs =>
    let (s, y) := antiAliasStep s x
    let (s, ys) := doAntiAlias s xs
    (s, y :: ys)

/-- `Decimator::process`, dsp/rateconversion/Decimator.cpp:195-211. -/
def decimate (s : Decimator.State Num) (src dst : List Num) : Option (Decimator.State Num × List Num) :=
  if s.decFactor = 1 then do
    let d ← loop s.outputLength (fun i dst => do
      let v ← src[i]?
      wr dst i v) dst
    some (s, d)
  else
    if src.length < s.inputLength then none
    else do
      let (s', decBuffer) := doAntiAlias s (src.take s.inputLength)
      let d ← loop s.outputLength (fun i dst => do
        let v ← decBuffer[s.decFactor * i]?
        wr dst i v) dst
      some (s', d)

/-- `resetFilter`, dsp/rateconversion/Decimator.cpp:148-153. -/
def resetDecimator (s : Decimator.State Num) : Decimator.State Num :=
  { s with o1 := 0, o2 := 0, o3 := 0, o4 := 0, o5 := 0, o6 := 0, o7 := 0 }

/-- Constructor, dsp/rateconversion/Decimator.cpp:24-141. -/
noncomputable def newDecimator (inLength decFactor : Nat) : Option (Decimator.State Num) :=
  if decFactor = 0 then none
  else some (resetDecimator
    { inputLength := inLength, outputLength := inLength / decFactor, decFactor := decFactor,
      b := (Decimator.coeffs decFactor).1.map (fun q : ℚ => .val (q : ℝ)),
      a := (Decimator.coeffs decFactor).2.map (fun q : ℚ => .val (q : ℝ)),
      o1 := 0, o2 := 0, o3 := 0, o4 := 0, o5 := 0, o6 := 0, o7 := 0 })

/-! ## `DFProcess` and `PeakPicking` -/

/-- The minimum of `MathUtilities::getFrameMinMax`, maths/MathUtilities.cpp:140-163. -/
noncomputable def frameMin (data : List Num) : Num :=
  match data with
  | [] => 0
  | d0 :: _ => data.foldl (fun m temp => if temp.lt m then temp else m) d0

/-- `MathUtilities::getAlphaNorm`, maths/MathUtilities.cpp:42-73. -/
noncomputable def alphaNorm (data : List Num) (alpha : Nat) : Num :=
  ((data.foldl (fun (a x : Num) => a + x.map (fun x => |x| ^ (alpha : ℝ))) 0) / Num.val (data.length : ℝ)).map (· ^ ((1 : ℝ) / alpha))

/-- `DFProcess::removeDCNormalize`, dsp/signalconditioning/DFProcess.cpp:179-192, on a block of `m_length` elements. -/
noncomputable def removeDCNormalize (alpha : Nat) (src : List Num) : List Num :=
  src.map fun v => (v - frameMin src) / alphaNorm src alpha

open Classical in
/-- `MathUtilities::median`, maths/MathUtilities.cpp:75-98. If all elements are NaN any order is sorted and the result is NaN; sorting NaN together with numbers is undefined
behaviour, because the comparison is no strict weak order. -/
noncomputable def median (src : List Num) : Option Num :=
  if h : ∃ r : List ℝ, src = r.map .val then (MathReal.median h.choose).map .val
  else if ∀ x ∈ src, x = .nan then some .nan
  else none

/-- The window whose median is taken at position `i` by `DFProcess::medianFilter`, dsp/signalconditioning/DFProcess.cpp:110-156: the start and the number of elements. This
is the result of the three loops for blocks longer than the window (`QM.DFProcess`, C56). -/
def window (pre post len i : Nat) : Nat × Nat :=
  if i < pre then (0, i + post + 1)
  else if i + post < len then (i - pre, post + pre + 1)
  else (max (i - pre) 1, len - max (i - pre) 1)

/-- `DFProcess::medianFilter`, dsp/signalconditioning/DFProcess.cpp:97-176, without clipping (`m_isMedianPositive` is false in `PeakPicking`). -/
noncomputable def medianFilter (pre post : Nat) (delta : ℝ) (src : List Num) : Option (List Num) :=
  (List.range src.length).mapM fun i => do
    let v ← src[i]?
    let w := window pre post src.length i
    let m ← median ((src.drop w.1).take w.2)
    pure (v - m - .val delta)

/-- A `PeakPicking` and its `DFProcess`, dsp/onsets/PeakPicking.h:67-91, dsp/signalconditioning/DFProcess.h:63-86. -/
structure Picker where
  pre : Nat
  post : Nat
  alpha : Nat
  delta : ℝ
  a : ℝ
  c : ℝ
  filter : Filter.State Num

/-- The first loop of `PeakPicking::quadEval`, dsp/onsets/PeakPicking.cpp:115-119. -/
noncomputable def candidates (src : List Num) : List Nat :=
  (List.range (src.length - 4)).filterMap fun t =>
    let at' := fun i => src.getD i .nan
    if (at' (t + 1)).lt (at' (t + 2)) ∧ (at' (t + 3)).lt (at' (t + 2)) ∧ Num.lt 0 (at' (t + 2)) then some (t + 2) else none

open Classical in
/-- The second loop of `PeakPicking::quadEval`, dsp/onsets/PeakPicking.cpp:125-141, for one candidate. If one of the five values is NaN so are the coefficients of the fit, and
no comparison with them holds. -/
noncomputable def accepted (a c : ℝ) (src : List Num) (m : Nat) : Prop :=
  ∃ fit : List ℝ, (src.drop (m - 2)).take 5 = fit.map .val ∧
    ∃ f h, (PolyFit.polyFit2 [-2, -1, 0, 1, 2] fit [0, 0, 0]).coefs[0]? = some f ∧
      (PolyFit.polyFit2 [-2, -1, 0, 1, 2] fit [0, 0, 0]).coefs[2]? = some h ∧ (h < -a ∨ f > c)

open Classical in
/-- `PeakPicking::process`, dsp/onsets/PeakPicking.cpp:76-94, on a block of the configured length. Returns the object, the new contents of the block and the onsets. -/
noncomputable def pick (p : Picker) (src : List Num) (onsets : List Nat) : Option (Picker × List Num × List Nat) :=
  if src.length < 4 then some (p, src, onsets)
  else do
    let (f, filtered) ← filtfilt p.filter (removeDCNormalize p.alpha src)
    let work ← medianFilter p.pre p.post p.delta filtered
    pure ({ p with filter := f }, work, onsets ++ (candidates work).filter fun m => accepted p.a p.c work m)

/-! ## `GetKeyMode` -/

/-- `GetKeyMode::krumCorr`, dsp/keydetection/GetKeyMode.cpp:161-190. -/
noncomputable def krumCorr (data prof : List Num) (shift : Int) (length : Nat) : Option Num := do
  let s ← loop length (fun i (s : Num × Num × Num) => do
    let k := ((i : Int) - shift + length).tmod length
    let d ← data[i]?
    let p ← rdI prof k
    pure (s.1 + d * p, s.2.1 + d * d, s.2.2 + p * p)) (0, 0, 0)
  let den := (s.2.1 * s.2.2).map Real.sqrt
  if Num.lt 0 den then pure (s.1 / den) else pure 0

/-- `MathUtilities::getMax`, maths/MathUtilities.cpp:165-186: index and maximum. -/
noncomputable def getMax (data : List Num) : Option (Nat × Num) :=
  match data with
  | [] => none
  | d0 :: _ => some ((data.foldl (fun (s : Nat × Nat × Num) temp => if s.2.2.lt temp then (s.1 + 1, s.1, temp) else (s.1 + 1, s.2.1, s.2.2)) (0, 0, d0)).2)

/-- The raw key, dsp/keydetection/GetKeyMode.cpp:248-253. -/
noncomputable def rawKey (maj min : List Num) : Option Nat := do
  let M ← getMax maj
  let m ← getMax min
  let maxBin := if m.2.lt M.2 then M.1 else m.1 + 36
  pure (maxBin / 3 + 1)

/-- The state of `GetKeyMode` with chroma that may be NaN; `ints` holds the counters and the median buffers (its real arrays are not used). -/
structure Key where
  ints : KeyMode.KM
  chroma : List Num
  mean : List Num
  majNorm : List Num
  minNorm : List Num
  maj : List Num
  min : List Num

/-- The averaged chroma, dsp/keydetection/GetKeyMode.cpp:202-232. Returns the chroma buffer, `m_bufferIndex`, `m_chromaBufferFilling` and `m_meanHPCP`. -/
noncomputable def average (s : Key) (frame : List Num) : Option (List Num × Nat × Nat × List Num) := do
  let chroma ← loop 36 (fun j (c : List Num) => do
    let v ← frame[j]?
    wr c (s.ints.idx * 36 + j) v) s.chroma
  let idx := if (s.ints.idx : Int) ≥ (s.ints.cs : Int) - 1 then 0 else s.ints.idx + 1
  let cfill := if s.ints.cfill ≥ s.ints.cs then s.ints.cs else s.ints.cfill + 1
  let mean ← loop 36 (fun k (m : List Num) => do
    let v ← loop cfill (fun j (acc : Num) => do
      let v ← chroma[k + j * 36]?
      pure (acc + v)) 0
    wr m k (v / .val cfill)) s.mean
  let mHPCP := mean.foldl (· + ·) 0 / .val mean.length
  let mean ← loop 36 (fun k (m : List Num) => do
    let v ← m[k]?
    wr m k (v - mHPCP)) mean
  pure (chroma, idx, cfill, mean)

/-- `GetKeyMode::process` from the chroma frame on, dsp/keydetection/GetKeyMode.cpp:201-290. -/
noncomputable def processKey (s : Key) (frame : List Num) : Option (Key × Nat) := do
  let (chroma, idx, cfill, mean) ← average s frame
  let maj ← loop 36 (fun k (a : List Num) => do
    let c ← krumCorr mean s.majNorm ((k : Int) - 2) 36
    wr a k c) s.maj
  let min ← loop 36 (fun k (a : List Num) => do
    let c ← krumCorr mean s.minNorm ((k : Int) - 2) 36
    wr a k c) s.min
  let key ← rawKey maj min
  let (mfill, med, sorted, key) ← KeyMode.medianKey s.ints key
  pure (⟨{ s.ints with idx := idx, cfill := cfill, mfill := mfill, med := med, sorted := sorted }, chroma, mean, s.majNorm, s.minNorm, maj, min⟩, key)

/-- `GetKeyMode::process`, dsp/keydetection/GetKeyMode.cpp:192-290: decimation, chromagram (a parameter) and key. -/
noncomputable def detect (chromagram : List Num → List Num) (s : Decimator.State Num × List Num × Key) (pcm : List Num) :
    Option ((Decimator.State Num × List Num × Key) × Nat) := do
  let d ← decimate s.1 pcm s.2.1
  let r ← processKey s.2.2 (chromagram d.2)
  pure ((d.1, d.2, r.1), r.2)

end QM.Nan
