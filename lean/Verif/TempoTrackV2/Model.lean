import Verif.Common.Mat
import Verif.MathReal.Model
import Mathlib.Algebra.Order.Floor.Defs
import Mathlib.Analysis.SpecialFunctions.Log.Basic

/-!
# Model of `dsp/tempotracking/TempoTrackV2.cpp`

Doubles are elements of an ordered field. `none` is an access outside a vector or a division by zero. Converting a double to `int` has
no overflow. The exponential function is a parameter, so that the model can be run over the rationals.
-/

namespace QM.TempoTrackV2

open QM.MathReal

section
variable {K : Type} [Field K] [LinearOrder K]

/-- `EPS`, dsp/tempotracking/TempoTrackV2.cpp:26. -/
def eps : K := 8 / 10000000

/-- The recursive filter loops of `filter_df`, dsp/tempotracking/TempoTrackV2.cpp:57-63 and 79-85. State: `lp_df`, `inp1`, `inp2`,
`out1`, `out2`. The coefficients are those of lines 44-49. -/
def biquad (df lp : List K) : Option (List K × K × K × K × K) :=
  loop df.length (fun i (s : List K × K × K × K × K) => do
    let x ← df[i]?
    let y := 2066 / 10000 * x + 4131 / 10000 * s.2.1 + 2066 / 10000 * s.2.2.1 - (-(3695 / 10000)) * s.2.2.2.1 - 1958 / 10000 * s.2.2.2.2
    let lp ← wr s.1 i y
    pure (lp, x, s.2.1, y, s.2.2.2.1)) (lp, 0, 0, 0, 0)

/-- The copies that reverse time, dsp/tempotracking/TempoTrackV2.cpp:67-69 and 88-90. -/
def revCopy (src dst : List K) : Option (List K) :=
  loop dst.length (fun i dst => do
    let v ← src[dst.length - i - 1]?
    wr dst i v) dst

/-- `TempoTrackV2::filter_df`, dsp/tempotracking/TempoTrackV2.cpp:34-92. -/
def filterDf (df : List K) : Option (List K) := do
  let s ← biquad df (List.replicate df.length 0)
  let df ← revCopy s.1 df
  let s ← biquad df (s.1.map fun _ => 0)
  revCopy s.1 df

/-- One round of `get_max_val`, dsp/tempotracking/TempoTrackV2.cpp:361-365. An element that is not a number is `none`: no comparison
with it holds. -/
def valStep (m : K) : Option K → K
  | some v => if m < v then v else m
  | none => m

/-- `TempoTrackV2::get_max_val`, dsp/tempotracking/TempoTrackV2.cpp:355-368. -/
def getMaxVal (df : List (Option K)) : K := df.foldl valStep 0

/-- One round of `get_max_ind`, dsp/tempotracking/TempoTrackV2.cpp:377-382. State: `maxval`, `ind`, `i`. -/
def indStep (s : K × Nat × Nat) : Option K → K × Nat × Nat
  | some v => if s.1 < v then (v, s.2.2, s.2.2 + 1) else (s.1, s.2.1, s.2.2 + 1)
  | none => (s.1, s.2.1, s.2.2 + 1)

/-- `TempoTrackV2::get_max_ind`, dsp/tempotracking/TempoTrackV2.cpp:370-385. -/
def getMaxInd (df : List (Option K)) : Nat := (df.foldl indStep (0, 0, 0)).2.1

/-- The sum and division loops of `viterbi_decode`, dsp/tempotracking/TempoTrackV2.cpp:280-286 and 308-314, on column `t` of `delta`. -/
def normaliseCol (Q t : Nat) (delta : List (List K)) : Option (List (List K)) := do
  let sum ← loop Q (fun i sum => do
    let v ← rd2 delta t i
    pure (sum + v)) 0
  if sum + eps = 0 then none
  else loop Q (fun i delta => do
    let v ← rd2 delta t i
    wr2 delta t i (v / (sum + eps))) delta

/-- The transition matrix of `viterbi_decode`, dsp/tempotracking/TempoTrackV2.cpp:236-256. -/
def transitions (ex : K → K) (n : Nat) : Option (List (List K)) :=
  loop (n - 20 - 20) (fun i m =>
    loop (n - 20 - 20) (fun j m =>
      wr2 m (20 + i) (20 + j) (ex ((-1) * (((20 + j : Nat) : K) - ((20 + i : Nat) : K)) ^ 2 / (2 * 8 ^ 2)))) m)
    (List.replicate n (List.replicate n 0))

/-- The forward pass of `viterbi_decode`, dsp/tempotracking/TempoTrackV2.cpp:261-315. `delta` and `psi` start as zero matrices of the
shape of `rcfmat`. -/
def decodePass (tmat rcfmat : List (List K)) (wv : List K) (T Q : Nat) : Option (List (List K) × List (List Nat)) := do
  let delta ← loop Q (fun j delta => do
    let w ← wv[j]?
    let r ← rd2 rcfmat 0 j
    wr2 delta 0 j (w * r)) (rcfmat.map fun r => r.map fun _ => 0)
  let delta ← normaliseCol Q 0 delta
  loop (T - 1) (fun k (st : List (List K) × List (List Nat)) => do
    let s ← loop Q (fun j (s : List K × List (List K) × List (List Nat)) => do
      let tmp ← loop Q (fun i tmp => do
        let d ← rd2 s.2.1 k i
        let a ← rd2 tmat j i
        wr tmp i (d * a)) s.1
      let delta ← wr2 s.2.1 (k + 1) j (getMaxVal (tmp.map some))
      let psi ← wr2 s.2.2 (k + 1) j (getMaxInd (tmp.map some))
      let d ← rd2 delta (k + 1) j
      let r ← rd2 rcfmat (k + 1) j
      let delta ← wr2 delta (k + 1) j (d * r)
      pure (tmp, delta, psi)) (List.replicate Q 0, st.1, st.2)
    let delta ← normaliseCol Q (k + 1) s.2.1
    pure (delta, s.2.2)) (delta, rcfmat.map fun r => r.map fun _ => 0)

/-- The track back of `viterbi_decode`, dsp/tempotracking/TempoTrackV2.cpp:317-333. -/
def decodePath (T Q : Nat) (delta : List (List K)) (psi : List (List Nat)) : Option (List Nat) := do
  let tmp ← loop Q (fun i tmp => do
    let d ← rd2 delta (T - 1) i
    wr tmp i d) (List.replicate Q 0)
  let best ← wr (List.replicate T 0) (T - 1) (getMaxInd (tmp.map some))
  let best ← loop (T - 2) (fun k best => do
    let b ← best[T - 2 - k + 1]?
    let p ← rd2 psi (T - 2 - k + 1) b
    wr best (T - 2 - k) p) best
  let b ← best[1]?
  let p ← rd2 psi 1 b
  wr best 0 p

/-- Spreading the path over the caller's vector, dsp/tempotracking/TempoTrackV2.cpp:335-348. State: `lastind`, `beat_period`. -/
def spread (T : Nat) (best : List Nat) (bp : List K) : Option (List K) := do
  let s ← loop T (fun i (s : Nat × List K) =>
    loop 128 (fun j (s : Nat × List K) => do
      let b ← best[i]?
      let bp ← wr s.2 (i * 128 + j) (b : K)
      pure (i * 128 + j, bp)) s) (0, bp)
  loop (s.2.length - s.1) (fun i bp => do
    let v ← bp[s.1]?
    wr bp (s.1 + i) v) s.2

/-- `TempoTrackV2::viterbi_decode`, dsp/tempotracking/TempoTrackV2.cpp:230-353. Returns `beat_period` and `tempi`. -/
def viterbiDecode (ex : K → K) (rate : K) (increment : Int) (rcfmat : List (List K)) (wv bp tempi : List K) : Option (List K × List K) := do
  let tmat ← transitions ex wv.length
  let T := rcfmat.length
  if T < 2 then pure (bp, tempi)
  else do
    let row ← rcfmat[0]?
    let Q := row.length
    let st ← decodePass tmat rcfmat wv T Q
    let best ← decodePath T Q st.1 st.2
    let bp ← spread T best bp
    let tempi ← loop bp.length (fun i (tempi : List K) => do
      let v ← bp[i]?
      if (increment : K) = 0 ∨ v = 0 then none else pure (tempi ++ [60 * rate / increment / v])) tempi
    pure (bp, tempi)

/-- `TempoTrackV2::get_rcf`, dsp/tempotracking/TempoTrackV2.cpp:175-228. The loop variable `b` of line 207 is `1 - a + b'`. -/
def getRcf (dfframeIn wv rcf : List K) : Option (List K) := do
  let dfframe ← adaptiveThreshold dfframeIn
  let acf ← loop dfframe.length (fun lag acf => do
    let sum ← loop (dfframe.length - lag) (fun n sum => do
      let x ← dfframe[n]?
      let y ← dfframe[n + lag]?
      pure (sum + x * y)) 0
    wr acf lag (sum / ((dfframe.length - lag : Nat) : K))) (List.replicate dfframe.length 0)
  let rcf ← loop (rcf.length - 2) (fun i' rcf =>
    loop 4 (fun a' rcf =>
      loop (2 * (a' + 1) - 1) (fun b' rcf => do
        let v ← acf[(a' + 1) * (i' + 2) + 1 + b' - (a' + 1) - 1]?
        let w ← wv[i' + 2 - 1]?
        let r ← rcf[i' + 2 - 1]?
        wr rcf (i' + 2 - 1) (r + v * w / (2 * ((a' + 1 : Nat) : K) - 1))) rcf) rcf) rcf
  let rcf ← adaptiveThreshold rcf
  let s ← loop rcf.length (fun i (s : List K × K) => do
    let r ← s.1[i]?
    let rcf ← wr s.1 i (r + eps)
    pure (rcf, s.2 + (r + eps))) (rcf, 0)
  if s.2 + eps = 0 then none
  else loop s.1.length (fun i rcf => do
    let r ← rcf[i]?
    wr rcf i (r / (s.2 + eps))) s.1

/-- The frames of `calculateBeatPeriod`, dsp/tempotracking/TempoTrackV2.cpp:146-167: frame `i` begins at `128 * i` as long as
`128 * i + 512 < df_len`. -/
def rcfMatrix (df wv : List K) : Option (List (List K)) :=
  loop ((df.length - 512 + 127) / 128) (fun i (m : List (List K)) => do
    let frame ← loop 512 (fun k frame => do
      let v ← df[128 * i + k]?
      wr frame k v) (List.replicate 512 0)
    let rcf ← getRcf frame wv (List.replicate 128 0)
    pure (m ++ [rcf])) []

/-- The weights of `calculateBeatPeriod`, dsp/tempotracking/TempoTrackV2.cpp:114-139. `60*44100/512` is integer arithmetic. -/
def weights (ex : K → K) (inputtempo : K) (constrain : Bool) : Option (List K) :=
  if inputtempo = 0 then none
  else
    let rayparam := ((60 * 44100 / 512 : Nat) : K) / inputtempo
    loop 128 (fun i wv =>
      if constrain then wr wv i (ex ((-1) * ((i : K) - rayparam) ^ 2 / (2 * (rayparam / 4) ^ 2)))
      else wr wv i ((i : K) / rayparam ^ 2 * ex ((-1) * (-(i : K)) ^ 2 / (2 * rayparam ^ 2)))) (List.replicate 128 0)

/-- `TempoTrackV2::calculateBeatPeriod`, dsp/tempotracking/TempoTrackV2.cpp:101-172. -/
def calculateBeatPeriod (ex : K → K) (rate : K) (increment : Int) (df bp tempi : List K) (inputtempo : K) (constrain : Bool) :
    Option (List K × List K) := do
  let wv ← weights ex inputtempo constrain
  let rcfmat ← rcfMatrix df wv
  viterbiDecode ex rate increment rcfmat wv bp tempi

end

section
variable {K : Type} [Field K] [LinearOrder K] [FloorRing K]

/-- Conversion of a double to `int`: towards zero. -/
def toInt (x : K) : Int := if 0 ≤ x then ⌊x⌋ else ⌈x⌉

/-- `round` of the C library: halves away from zero. -/
def cround (x : K) : Int := if 0 ≤ x then ⌊x + 1 / 2⌋ else ⌈x - 1 / 2⌉

/-- The main loop of `calculateBeats`, dsp/tempotracking/TempoTrackV2.cpp:432-464, for one `i`. `wt mu j` is the weight of line 445,
`none` if it is not a number. A negative vector size (line 439) makes the result `none`. -/
def beatStep (wt : K → Nat → Option K) (alpha : K) (df bp : List K) (i : Nat) (st : List K × List Int) : Option (List K × List Int) := do
  let p ← bp[i]?
  let pmin := toInt (-2 * p)
  let pmax := cround (-(1 / 2) * p)
  let len := pmax - pmin + 1
  if len < 0 then none
  else do
    let cands ← loop len.toNat (fun j (c : List (Option K)) =>
      let ind := (i : Int) + pmin + j
      if ind ≥ 0 then do
        let v ← st.1[ind.toNat]?
        wr c j ((wt p j).map (· * v))
      else pure c) (List.replicate len.toNat (some 0))
    let x ← df[i]?
    let cum ← wr st.1 i (alpha * getMaxVal cands + (1 - alpha) * x)
    let back ← wr st.2 i ((i : Int) + pmin + getMaxInd cands)
    pure (cum, back)

/-- The back tracking loop, dsp/tempotracking/TempoTrackV2.cpp:483-490, at most `fuel` rounds: `none` if it is not done by then. The
list of beats is built in the order in which it is copied to the output (lines 492-495). -/
def track (back : List Int) : Nat → List Int → Option (List Int)
  | 0, _ => none
  | fuel + 1, ibeats => do
    let b ← ibeats.head?
    let l ← rdI back b
    if l > 0 then
      if l = b then pure ibeats
      else track back fuel (l :: ibeats)
    else pure ibeats

/-- The starting point, dsp/tempotracking/TempoTrackV2.cpp:466-479. -/
def startPoint (bp cum : List K) (n : Nat) : Option Int := do
  let last ← bp.getLast?
  let i0 := toInt ((n : K) - last)
  let tmp ← loop ((n : Int) - i0).toNat (fun k (tmp : List K) => do
    let v ← rdI cum (i0 + k)
    pure (tmp ++ [v])) []
  let s := toInt (((getMaxInd (tmp.map some) : Nat) : K) + (n : K) - last)
  pure (if s ≥ n then (n : Int) - 1 else s)

/-- `TempoTrackV2::calculateBeats`, dsp/tempotracking/TempoTrackV2.cpp:406-496. -/
def calculateBeats (wt : K → Nat → Option K) (alpha : K) (fuel : Nat) (df bp beats : List K) : Option (List K) :=
  if df.length = 0 ∨ bp.length = 0 then some beats
  else do
    let st ← loop df.length (beatStep wt alpha df bp) (List.replicate df.length 0, List.replicate df.length (-1))
    let s ← startPoint bp st.1 df.length
    let ib ← track st.2 fuel [s]
    pure (beats ++ ib.map fun (b : Int) => (b : K))

end

/-- The weight of dsp/tempotracking/TempoTrackV2.cpp:445: not a number for a zero period, and for the logarithm of zero the limit, unless the tightness is zero. -/
noncomputable def txwt (tightness : ℝ) (mu : ℝ) (j : Nat) : Option ℝ :=
  let r := ((cround (2 * mu) : Int) : ℝ) - (j : ℝ)
  if mu = 0 then none
  else if r / mu < 0 then none
  else if r = 0 then (if tightness = 0 then none else some 0)
  else some (Real.exp (-(1 / 2) * (tightness * Real.log (r / mu)) ^ 2))

end QM.TempoTrackV2
